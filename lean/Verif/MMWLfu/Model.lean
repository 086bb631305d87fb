import Verif.MMLfu.Freq
import Verif.MultiDList.Model
/-
MMWTinyLFU::Container (cachelib/allocator/MMWTinyLFU.h): a tiny queue for newcomers, a probation queue, and a main (protected) queue.

`none` as the result of a function means that the program ends (the sketch throws out of a noexcept function) or that null is
dereferenced; the theorems show that neither happens.

What is simplified:
* Every critical section of lruMutex_ is one operation; recordAccess is split into its unlocked test, the setting of the
  accessed flag, and its critical section.
* `Time` is a `Nat` reduced modulo 2^32 where the code adds or subtracts; the ratio of reconfigureLocked, a product of a double,
  is an arbitrary function.
* `size_t` does not overflow (protectionSegmentSizePct is not negative), and configured numbers fit in the i32 fields they are saved
  in.  Pointer compression is the identity (C13).  The key of a node is given by its hash (679-681) and changes only when a node is
  made anew in the same memory.
-/
namespace Verif.MMLfu.W
open Verif MultiDList

variable {N : Type} [DecidableEq N]

/-! MMWTinyLFU.h:88 `enum LruType { Main, Probation, Tiny, NumTypes }`: the indices of the three lists. -/
scoped notation "Main" => (0 : Nat)
scoped notation "Probation" => (1 : Nat)
scoped notation "Tiny" => (2 : Nat)

/-- MMWTinyLFU.h:351-395 Config: its fields. -/
structure Config where
  defaultRefresh : Nat
  refresh : Nat
  /-- lruRefreshRatio: age ↦ the converted product of 1174-1175 -/
  ratio : Nat → Nat
  updateOnWrite : Bool
  updateOnRead : Bool
  tryLock : Bool
  windowRatio : Nat
  tinyPct : Nat
  interval : Nat
  newcomerWins : Bool
  protFreq : Nat
  protPct : Nat

/-- MMWTinyLFU.h:330-343 checkConfig: false if it throws. -/
def Config.check (c : Config) : Bool :=
  !(decide (c.tinyPct < 1) || decide (c.tinyPct > 50)) && !(decide (c.windowRatio < 2) || decide (c.windowRatio > 128))

/-- MMWTinyLFU.h:752-782 members of the container, and what it uses of nodes: hooks and update time (DList.h:33-82), the hash of
the key, the flags kMMFlag0 (tiny), kMMFlag2 (probation), kMMFlag1 (accessed) and "in MM container" (Refcount.h). -/
structure State (N : Type) where
  m : MState N
  freq : Freq
  nextReconf : Nat
  refreshTime : Nat
  config : Config
  inMM : N → Bool
  tiny : N → Bool
  prob : N → Bool
  accessed : N → Bool
  time : N → Nat
  hash : N → Nat

/-- MMWTinyLFU.h:421-425, 796-799, 1118-1121. -/
def nextTime (c : Config) (now : Nat) : Nat := if c.interval = 0 then 2 ^ 32 - 1 else (now + c.interval) % 2 ^ 32

/-- MMWTinyLFU.h:416-426 constructor; the flags of nodes not yet in any container are clear. -/
def new (e : Env) (c : Config) (now : Nat) (hooks : DList.Hooks N) (hash : N → Nat) : Option (State N) :=
  (Freq.zero.grow e 0 c.windowRatio).map fun f =>
    { m := MultiDList.new 3 hooks, freq := f, nextReconf := nextTime c now, refreshTime := c.refresh, config := c,
      inMM := fun _ => false, tiny := fun _ => false, prob := fun _ => false, accessed := fun _ => false, time := fun _ => 0,
      hash := hash }

/-- `lru_.getList(q).op(...)` -/
def State.on (s : State N) (q : Nat) (op : DList.Op N) : State N := { s with m := onList s.m q op }
/-- `lru_.getList(q).size()` -/
def State.len (s : State N) (q : Nat) : Nat := (s.m.lists q).size
/-- `lru_.getList(q).getTail()` -/
def State.last (s : State N) (q : Nat) : Option N := (s.m.lists q).tail

/-- MMWTinyLFU.h:648-652 getLruType. -/
def State.lruType (s : State N) (x : N) : Nat := if s.tiny x then Tiny else if s.prob x then Probation else Main

/-- MMWTinyLFU.h:685-693 admitToProbation. -/
def State.admit (s : State N) (t x : N) : Bool := s.freq.admit s.config.newcomerWins (s.hash t) (s.hash x)

/-- MMWTinyLFU.h:959-966: the tails of tiny and probation change places. -/
def swapTails (s : State N) (t x : N) : State N :=
  let s := (s.on Tiny (.remove t)).on Probation (.linkAtHead t)
  let s := { s with tiny := upd s.tiny t false }
  let s := { s with tiny := upd s.tiny x true }
  let s := (s.on Probation (.remove x)).on Tiny (.linkAtTail x)
  let s := { s with prob := upd s.prob x false }
  { s with prob := upd s.prob t true }

/-- MMWTinyLFU.h:944-974 maybePromoteTailLocked. -/
def maybePromoteTail (s : State N) : State N :=
  match s.last Probation with
  | none => s
  | some x =>
    match s.last Tiny with
    | none => s
    | some t => if s.admit t x then swapTails s t x else s.on Probation (.moveToHead x)

/-- MMWTinyLFU.h:990-1002: the tiny tail goes to probation if tiny is over its share, or the tails may change places.  `none`: null
is dereferenced (992-993). -/
def settle (s : State N) : Option (State N) :=
  let expectedSize := s.config.tinyPct * size s.m / 100
  if s.len Tiny > expectedSize then
    (s.last Tiny).map fun t =>
      let s := (s.on Tiny (.remove t)).on Probation (.linkAtHead t)
      { s with tiny := upd s.tiny t false, prob := upd s.prob t true }
  else some (maybePromoteTail s)

/-- MMWTinyLFU.h:976-1012 add. -/
def add (e : Env) (s : State N) (x : N) (now : Nat) : Option (State N × Bool) :=
  if s.inMM x then some (s, false)
  else
    let s := s.on Tiny (.linkAtHead x)
    let s := { s with tiny := upd s.tiny x true, freq := s.freq.count (s.hash x) }
    (settle s).bind fun s =>
      (s.freq.grow e (size s.m) s.config.windowRatio).map fun f =>
        ({ s with freq := f, inMM := upd s.inMM x true, time := upd s.time x now, accessed := upd s.accessed x false }, true)

/-- MMWTinyLFU.h:1035-1050 removeLocked. -/
def removeLocked (s : State N) (x : N) : State N :=
  let s := if s.tiny x then { s.on Tiny (.remove x) with tiny := upd s.tiny x false }
           else if s.prob x then { s.on Probation (.remove x) with prob := upd s.prob x false }
           else s.on Main (.remove x)
  { s with accessed := upd s.accessed x false, inMM := upd s.inMM x false }

/-- MMWTinyLFU.h:1052-1060 remove. -/
def remove (s : State N) (x : N) : State N × Bool :=
  if s.inMM x then (removeLocked s x, true) else (s, false)

/-- MMWTinyLFU.h:1070-1104 replace. -/
def replace (s : State N) (o x : N) : State N × Bool :=
  if s.tiny x ∨ s.prob x then (s, false)
  else if ¬ s.inMM o ∨ s.inMM x then (s, false)
  else
    let t := s.time o
    let s := if s.tiny o then { s.on Tiny (.replace o x) with tiny := upd (upd s.tiny o false) x true }
             else if s.prob o then { s.on Probation (.replace o x) with prob := upd (upd s.prob o false) x true }
             else s.on Main (.replace o x)
    ({ s with inMM := upd (upd s.inMM o false) x true, time := upd s.time x t, accessed := upd s.accessed x (s.accessed o) }, true)

/-- MMWTinyLFU.h:918-919 (32-bit subtraction): the age of the node the iterator is at, 0 at the end. -/
def ageAt (s : State N) (now : Nat) : Option N → Nat
  | some x => (now + (2 ^ 32 - s.time x % 2 ^ 32)) % 2 ^ 32
  | none => 0

/-- MMWTinyLFU.h:921-923: the loop. -/
def skip (h : DList.Hooks N) : Nat → Option N → Option N
  | 0, it => it
  | _ + 1, none => none
  | k + 1, some x => skip h k (DList.iterNext h .fromTail (some x))

/-- MMWTinyLFU.h:909-928 getEvictionAgeStatLocked: oldestElementAge, size, projectedAge of the warm queue. -/
def ageStat (s : State N) (now projectedLength : Nat) : Nat × Nat × Nat :=
  let it := DList.iterBegin (s.m.lists Main) .fromTail
  let oldest := ageAt s now it
  let it := skip s.m.hooks projectedLength it
  (oldest, s.len Main, match it with | some x => ageAt s now (some x) | none => oldest)

/-- MMWTinyLFU.h:1162-1179 reconfigureLocked. -/
def reconfigure (s : State N) (now : Nat) : State N :=
  if now < s.nextReconf then s
  else
    { s with nextReconf := (now + s.config.interval) % 2 ^ 32,
             refreshTime := min (max s.config.defaultRefresh (s.config.ratio (ageStat s now 0).1)) 900 }

/-- MMWTinyLFU.h:875-892: the last of main goes to the end of probation if main is over its share. -/
def demote (s : State N) : State N :=
  let totalMainSize := s.len Probation + s.len Main
  let expectedMainSize := s.config.protPct * totalMainSize / 100
  if s.len Main > expectedMainSize then
    match s.last Main with
    | none => s
    | some y =>
      let s := (s.on Main (.remove y)).on Probation (.linkAtTail y)
      { s with prob := upd s.prob y true }
  else s

/-- MMWTinyLFU.h:868-894: an item of probation that is used often becomes protected. -/
def protect (s : State N) (x : N) : State N :=
  if s.freq.get (s.hash x) > s.config.protFreq then
    let s := (s.on Probation (.remove x)).on Main (.linkAtHead x)
    demote { s with prob := upd s.prob x false }
  else s

/-- MMWTinyLFU.h:860-897: the critical section of recordAccess. -/
def promote (s : State N) (x : N) (now : Nat) : State N × Bool :=
  let s := reconfigure s now
  if ¬ s.inMM x then (s, false)
  else
    let lruType := s.lruType x
    let s := s.on lruType (.moveToHead x)
    let s := if lruType = Probation then protect s x else s
    ({ s with time := upd s.time x now, freq := s.freq.count (s.hash x) }, true)

/-- MMWTinyLFU.h:848-850 (without the lock). -/
def mark (s : State N) (x : N) : State N := { s with accessed := upd s.accessed x true }

/-- AccessMode (common). -/
inductive Mode where | read | write

/-- MMWTinyLFU.h:837-847: the tests of recordAccess before the lock. -/
def wants (s : State N) (x : N) (m : Mode) (now : Nat) : Bool :=
  !((match m with | .write => true | .read => false) && !s.config.updateOnWrite ||
    (match m with | .read => true | .write => false) && !s.config.updateOnRead) &&
  (s.inMM x && (decide (now ≥ (s.time x + s.refreshTime) % 2 ^ 32) || !s.accessed x))

/-- MMWTinyLFU.h:834-900 recordAccess without interference.  `locked`: the try-lock succeeds (853). -/
def recordAccess (s : State N) (x : N) (m : Mode) (now : Nat) (locked : Bool) : State N × Bool :=
  if wants s x m now then
    let s := mark s x
    if s.config.tryLock && !locked then (s, false) else promote s x now
  else (s, false)

/-- MMWTinyLFU.h:1113-1122 setConfig. -/
def setConfig (s : State N) (c : Config) (now : Nat) : State N :=
  { s with config := c, refreshTime := c.refresh, nextReconf := nextTime c now }

/-- CacheItem construction (CacheItem-inl.h) on the memory of a node: all flags are clear, the key is another. -/
def construct (s : State N) (x : N) (hash : Nat) : State N :=
  { s with tiny := upd s.tiny x false, prob := upd s.prob x false, accessed := upd s.accessed x false,
           inMM := upd s.inMM x false, hash := upd s.hash x hash }

/-- MMWTinyLFU.h:588-592 LockedIterator: an iterator from the tail in each list. -/
structure It (N : Type) where
  t : Option N
  p : Option N
  m : Option N

/-- MMWTinyLFU.h:1182-1189 (1014-1019 getEvictionIterator), 540-547 resetToBegin. -/
def begin (s : State N) : It N :=
  ⟨DList.iterBegin (s.m.lists Tiny) .fromTail, DList.iterBegin (s.m.lists Probation) .fromTail,
    DList.iterBegin (s.m.lists Main) .fromTail⟩

/-- MMWTinyLFU.h:559-578 getIter: which of the three iterators. -/
def It.which (s : State N) (it : It N) : Nat :=
  if it.p = none ∧ it.m = none then Tiny
  else if it.p = none ∧ it.t = none then Main
  else if it.t = none ∧ it.m = none then Probation
  else
    match it.p with
    | none => Tiny
    | some x =>
      match it.t with
      | none => Probation
      | some t => if !s.admit t x then Tiny else Probation

/-- MMWTinyLFU.h:504-505, 520: the node the iterator is at. -/
def It.get (s : State N) (it : It N) : Option N :=
  match it.which s with
  | 0 => it.m
  | 1 => it.p
  | _ => it.t

/-- MMWTinyLFU.h:494-497 operator++. -/
def It.next (s : State N) (it : It N) : It N :=
  match it.which s with
  | 0 => { it with m := DList.iterNext s.m.hooks .fromTail it.m }
  | 1 => { it with p := DList.iterNext s.m.hooks .fromTail it.p }
  | _ => { it with t := DList.iterNext s.m.hooks .fromTail it.t }

/-- MMWTinyLFU.h:516-518 operator bool. -/
def It.valid (it : It N) : Bool := it.t.isSome || it.p.isSome || it.m.isSome

/-- `for (it; it; ++it) visit(*it)` with at most `k` rounds. -/
def visit (s : State N) : Nat → It N → List N
  | 0, _ => []
  | k + 1, it => if it.valid then (match it.get s with | some x => [x] | none => []) ++ visit s k (it.next s) else []

/-- MMWTinyLFU.h:1062-1068 remove through the iterator; `none`: there is no node. -/
def removeIt (s : State N) (it : It N) : Option (State N × It N) :=
  match it.get s with
  | none => none
  | some x => some (removeLocked s x, it.next s)

/-- MMWTinyLFU.h:1149-1160 getStats: size, update time of the tail of the last list that is not empty, refresh time. -/
def stats (s : State N) : Nat × Nat × Nat :=
  (size s.m, (if size s.m = 0 then 0 else match (rbegin s.m).cur with | some x => s.time x | none => 0), s.refreshTime)

/-- serialization::MMTinyLFUObject (objects.thrift:140-168) with the fields that saveState sets. -/
structure Saved (N : Type) where
  lrus : List (Option N × Option N × Nat)
  refresh : Nat
  ratio : Nat → Nat
  updateOnWrite : Bool
  updateOnRead : Bool
  windowRatio : Nat
  tinyPct : Nat
  interval : Nat
  newcomerWins : Bool
  protPct : Nat
  protFreq : Nat

/-- MMWTinyLFU.h:1124-1147 saveState. -/
def saveState (s : State N) : Saved N :=
  ⟨MultiDList.saveState s.m, s.refreshTime, s.config.ratio, s.config.updateOnWrite, s.config.updateOnRead,
    s.config.windowRatio, s.config.tinyPct, s.config.interval, s.config.newcomerWins, s.config.protPct, s.config.protFreq⟩

/-- MMWTinyLFU.h:93-104, 297-321, 351-352: the config made from the saved one; `none`: checkConfig throws.  tryLockUpdate is never
saved and false; the default refresh time is the saved one, lruRefreshTime has its default initializer. -/
def Saved.config (o : Saved N) : Option Config :=
  let c : Config := ⟨o.refresh, o.refresh, o.ratio, o.updateOnWrite, o.updateOnRead, false, o.windowRatio, o.tinyPct, o.interval,
    o.newcomerWins, o.protFreq, o.protPct⟩
  if c.check then some c else none

/-- MMWTinyLFU.h:791-801: restoring constructor; the memory of the nodes is that of `mem`. -/
def restore (e : Env) (o : Saved N) (now : Nat) (mem : State N) : Option (State N) :=
  o.config.bind fun c =>
    let m := MultiDList.restore o.lrus mem.m.hooks
    (Freq.zero.grow e (size m) c.windowRatio).map fun f =>
      { mem with m := m, freq := f, config := c, refreshTime := c.refresh, nextReconf := nextTime c now }

end Verif.MMLfu.W
