import Verif.MMWLfu.Model
import Verif.DList.Props
/-!
Property C55, specification: what a user of the W-TinyLFU container knows.

Three sequences, each from most to least recently used: the newcomers (tiny), those on probation, and the protected ones (main);
when each item was last moved, whether it was used since it came, and what was counted (`Counts`, MMLfu/Freq.lean).
-/
namespace Verif.MMLfu.W
open Verif

variable {N : Type} [DecidableEq N]

structure U (N : Type) where
  tiny : List N
  prob : List N
  main : List N
  cnt : Counts
  cfg : Config
  refresh : Nat
  next : Nat
  time : N → Nat
  acc : N → Bool
  hash : N → Nat

/-- the items of the container. -/
def U.items (u : U N) : List N := u.tiny ++ u.prob ++ u.main

/-- the frequency that is estimated for an item. -/
def U.est (e : Env) (u : U N) (x : N) : Nat := u.cnt.est e (u.hash x)

/-- the newcomer `t` is worth more than `x`. -/
def U.beats (e : Env) (u : U N) (t x : N) : Bool :=
  if u.cfg.newcomerWins then decide (u.est e x ≤ u.est e t) else decide (u.est e x < u.est e t)

/-- After a newcomer has come to the front of tiny: if tiny has more than its share, its last goes to the front of probation.  Else
the lasts of tiny and probation are compared: the newcomer, if it is worth more, goes to the front of probation and the other
becomes the last of tiny; otherwise the last of probation goes to its front. -/
def U.settle (e : Env) (u : U N) : U N :=
  match u.tiny.getLast? with
  | none => u
  | some t =>
    if u.tiny.length > u.cfg.tinyPct * u.items.length / 100 then
      { u with tiny := u.tiny.dropLast, prob := t :: u.prob }
    else
      match u.prob.getLast? with
      | none => u
      | some x =>
        if u.beats e t x then { u with tiny := u.tiny.dropLast ++ [x], prob := t :: u.prob.dropLast }
        else { u with prob := x :: u.prob.dropLast }

/-- the age of the last of main. -/
def U.oldest (u : U N) (now : Nat) : Nat :=
  match u.main.getLast? with
  | none => 0
  | some x => (now + (2 ^ 32 - u.time x % 2 ^ 32)) % 2 ^ 32

/-- once per interval the refresh time is set from the age of the last of main. -/
def U.tune (u : U N) (now : Nat) : U N :=
  if u.next ≤ now then
    { u with refresh := min (max u.cfg.defaultRefresh (u.cfg.ratio (u.oldest now))) 900, next := (now + u.cfg.interval) % 2 ^ 32 }
  else u

/-- An item of probation was used.  If it was estimated above the limit before this use, it goes to the front of main, and if main
then has more than its share of probation and main, main's last becomes the last of probation.  Otherwise it goes to the front of
probation. -/
def U.hit (e : Env) (u : U N) (x : N) : U N :=
  let rest := u.prob.filter (fun y => y ≠ x)
  if u.est e x > u.cfg.protFreq then
    if u.main.length + 1 > u.cfg.protPct * (rest.length + (u.main.length + 1)) / 100 then
      { u with prob := rest ++ [(x :: u.main).getLast (List.cons_ne_nil x u.main)], main := (x :: u.main).dropLast }
    else { u with prob := rest, main := x :: u.main }
  else { u with prob := x :: rest }

/-- The operations, each one critical section; `mark` and `promote` are the two parts of recordAccess, `evict` is remove through the
iterator, `construct` makes a new item with a key of this hash in memory that is in no container. -/
inductive Op (N : Type) where
  | add (x : N) (now : Nat)
  | remove (x : N)
  | evict (x : N)
  | replace (o x : N)
  | mark (x : N)
  | promote (x : N) (now : Nat)
  | setConfig (c : Config) (now : Nat)
  | construct (x : N) (hash : Nat)

/-- taking an item out. -/
def U.without (u : U N) (x : N) : U N :=
  { u with tiny := u.tiny.filter (fun y => y ≠ x), prob := u.prob.filter (fun y => y ≠ x), main := u.main.filter (fun y => y ≠ x) }

/-- when the refresh time is set next, counted from now. -/
def U.nextTime (c : Config) (now : Nat) : Nat := if c.interval = 0 then 2 ^ 32 - 1 else (now + c.interval) % 2 ^ 32

/-- Specification of the operations: new state and answer. -/
def U.step (e : Env) (u : U N) : Op N → U N × Bool
  | .add x now =>
    if x ∈ u.items then (u, false)
    else
      let v := U.settle e { u with tiny := x :: u.tiny, cnt := u.cnt.use (u.hash x) }
      ({ v with cnt := v.cnt.fit (u.items.length + 1) u.cfg.windowRatio,
                time := fun y => if y = x then now else u.time y,
                acc := fun y => if y = x then false else u.acc y }, true)
  | .remove x => if x ∈ u.items then (u.without x, true) else (u, false)
  | .evict x => (u.without x, true)
  | .replace o x =>
    if o ∈ u.items ∧ x ∉ u.items then
      ({ u with
          tiny := u.tiny.map (fun y => if y = o then x else y)
          prob := u.prob.map (fun y => if y = o then x else y)
          main := u.main.map (fun y => if y = o then x else y)
          time := fun y => if y = x then u.time o else u.time y
          acc := fun y => if y = x then u.acc o else u.acc y }, true)
    else (u, false)
  | .mark x => ({ u with acc := fun y => if y = x then true else u.acc y }, true)
  | .promote x now =>
    let v := u.tune now
    if x ∈ u.items then
      let w : U N :=
        if x ∈ u.tiny then { v with tiny := x :: u.tiny.filter (fun y => y ≠ x) }
        else if x ∈ u.prob then v.hit e x
        else { v with main := x :: u.main.filter (fun y => y ≠ x) }
      ({ w with time := fun y => if y = x then now else u.time y, cnt := u.cnt.use (u.hash x) }, true)
    else (v, false)
  | .setConfig c now => ({ u with cfg := c, refresh := c.refresh, next := U.nextTime c now }, true)
  | .construct x h => ({ u with hash := fun y => if y = x then h else u.hash y }, true)

/-- accepted configurations. -/
structure Config.Ok (c : Config) : Prop where
  tiny : 1 ≤ c.tinyPct ∧ c.tinyPct ≤ 50
  window : 2 ≤ c.windowRatio ∧ c.windowRatio ≤ 128

/-- Preconditions: an item that is evicted is in the container (the iterator stands on it), one that is constructed is not;
configurations are accepted ones; counters that must be made anew fit into a table of less than 2^32 counters. -/
def U.Legal (e : Env) (u : U N) : Op N → Prop
  | .evict x => x ∈ u.items
  | .construct x _ => x ∉ u.items
  | .setConfig c _ => c.Ok
  | .add _ _ => u.items.length + 1 ≥ 2 * u.cnt.capacity → e.Fits (max (u.items.length + 1) 100 * u.cfg.windowRatio)
  | _ => True

/-- Run of the specification with all answers. -/
def U.run (e : Env) (u : U N) : List (Op N) → U N × List Bool
  | [] => (u, [])
  | o :: os => (((u.step e o).1.run e os).1, (u.step e o).2 :: ((u.step e o).1.run e os).2)

def U.LegalRun (e : Env) (u : U N) : List (Op N) → Prop
  | [] => True
  | o :: os => u.Legal e o ∧ (u.step e o).1.LegalRun e os

/-- the new container. -/
def U.new (c : Config) (now : Nat) (hash : N → Nat) : U N :=
  ⟨[], [], [], ⟨[], 0, 100 * c.windowRatio, 100⟩, c, c.refresh, U.nextTime c now, fun _ => 0, fun _ => false, hash⟩

/-- Given the items of tiny and of probation from the last on: in front of each newcomer come those items of probation (in order)
that it is worth more than. -/
def merge (beats : N → N → Bool) : List N → List N → List N
  | [], ms => ms
  | t :: ts, ms => ms.takeWhile (beats t) ++ t :: merge beats ts (ms.dropWhile (beats t))

/-- the order of eviction of all items: newcomers and those on probation, merged, and then the protected ones. -/
def U.evictions (e : Env) (u : U N) : List N := merge (u.beats e) u.tiny.reverse u.prob.reverse ++ u.main.reverse

/-- the age of the item that is `k` from the last of main, or of the last if there are not so many. -/
def U.projected (u : U N) (k now : Nat) : Nat :=
  match u.main.reverse[k]? with
  | none => u.oldest now
  | some x => (now + (2 ^ 32 - u.time x % 2 ^ 32)) % 2 ^ 32

/-- Running the code. -/
def step (e : Env) (s : State N) : Op N → Option (State N × Bool)
  | .add x now => add e s x now
  | .remove x => some (remove s x)
  | .evict x => some (removeLocked s x, true)
  | .replace o x => some (replace s o x)
  | .mark x => some (mark s x, true)
  | .promote x now => some (promote s x now)
  | .setConfig c now => some (setConfig s c now, true)
  | .construct x h => some (construct s x h, true)

/-- Run of the code with all answers; `none` if it ever dereferences null or ends the program. -/
def run (e : Env) (s : State N) : List (Op N) → Option (State N × List Bool)
  | [] => some (s, [])
  | o :: os => (step e s o).bind fun r => (run e r.1 os).map fun q => (q.1, r.2 :: q.2)

/-- What can be observed of the container agrees with the specification. -/
structure View (e : Env) (s : State N) (u : U N) : Prop where
  tiny : DList.Observes (s.m.hooks, s.m.lists Tiny) u.tiny
  prob : DList.Observes (s.m.hooks, s.m.lists Probation) u.prob
  main : DList.Observes (s.m.hooks, s.m.lists Main) u.main
  /-- an item is in one queue only -/
  once : u.items.Nodup
  /-- an item is reported a member exactly when it is in a queue -/
  member : ∀ x, s.inMM x = true ↔ x ∈ u.items
  /-- the queue reported is the one it is in -/
  queue : (∀ x ∈ u.tiny, s.lruType x = Tiny) ∧ (∀ x ∈ u.prob, s.lruType x = Probation) ∧ (∀ x ∈ u.main, s.lruType x = Main)
  size : MultiDList.size s.m = u.items.length
  /-- the eviction iterator -/
  evictions : ∀ k, u.items.length ≤ k → visit s k (begin s) = u.evictions e
  time : s.time = u.time
  accessed : ∀ x ∈ u.items, s.accessed x = u.acc x
  refresh : s.refreshTime = u.refresh
  config : s.config = u.cfg
  /-- frequencies are those of the sketch for what was counted, and never below the true ones -/
  freq : ∀ x, s.freq.get (s.hash x) = u.est e x
  under : ∀ h, u.cnt.uses h ≤ u.cnt.est e h
  /-- the window is not over -/
  window : u.cnt.window < u.cnt.maxWindow
  /-- getEvictionAgeStat -/
  ages : ∀ now k, ageStat s now k = (u.oldest now, u.main.length, u.projected k now)
  /-- getStats: all items, the time of the last newcomer (or of the last on probation, or of main's last), the refresh time -/
  stats : stats s = (u.items.length,
    (match (u.tiny.getLast?.or u.prob.getLast?).or u.main.getLast? with | some x => u.time x | none => 0), u.refresh)

end Verif.MMLfu.W
