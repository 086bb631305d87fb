import Verif.DList.Lemmas
/-
MMLru::Container (cachelib/allocator/MMLru.h): the LRU list with an optional insertion point.

`none` as the result of a function means that the code would dereference a null pointer or wrap the unsigned
`tailSize_` below zero; the theorems show that this does not happen.

What is simplified:
* Every critical section of lruMutex_ is one operation; recordAccess is split into its unlocked part and its
  critical section, which other operations may separate.
* `Time` is a `Nat` reduced modulo 2^32 where the code adds (540); the ratio of reconfigureLocked, a product of
  a double, is an arbitrary function.
* `size_t` counters do not overflow upwards.  Pointer compression is the identity (C13).
-/
namespace Verif.MMLru
open Verif

variable {N : Type} [DecidableEq N]

/-- MMLru.h:199-236 Config: the fields that influence behaviour. -/
structure Config where
  defaultRefresh : Nat
  refresh : Nat
  /-- lruRefreshRatio: age ↦ the converted product of 858-859 -/
  ratio : Nat → Nat
  updateOnWrite : Bool
  updateOnRead : Bool
  tryLock : Bool
  ipSpec : Nat
  interval : Nat

/-- MMLru.h:474-496 members of the container, and the fields it uses in nodes: hooks and update time
(DList.h:33-82), the flags kMMFlag0 (tail), kMMFlag1 (accessed) and "in MM container" (Refcount.h). -/
structure State (N : Type) where
  hooks : DList.Hooks N
  lru : DList.DList N
  ip : Option N
  tailSize : Nat
  nextReconf : Nat
  refreshTime : Nat
  config : Config
  inMM : N → Bool
  tail : N → Bool
  accessed : N → Bool
  time : N → Nat

/-- MMLru.h:256-266: constructor.  `none` of nextReconfigureTime (the maximal time) is 2^32 - 1. -/
def new (c : Config) (now : Nat) (hooks : DList.Hooks N) : State N :=
  { hooks := hooks, lru := DList.DList.empty, ip := none, tailSize := 0,
    nextReconf := if c.interval = 0 then 2 ^ 32 - 1 else (now + c.interval) % 2 ^ 32,
    refreshTime := c.refresh, config := c, inMM := fun _ => false, tail := fun _ => false,
    accessed := fun _ => false, time := fun _ => 0 }

/-- `tailSize_--` on an unsigned counter. -/
def decTail (s : State N) : Option (State N) :=
  if s.tailSize = 0 then none else some { s with tailSize := s.tailSize - 1 }

/-- MMLru.h:444-446 -/
def markTail (s : State N) (x : N) : State N := { s with tail := upd s.tail x true }
/-- MMLru.h:448-450 -/
def unmarkTail (s : State N) (x : N) : State N := { s with tail := upd s.tail x false }

/-- MMLru.h:664-668, the first loop. -/
def grow (expected : Nat) (s : State N) (curr : Option N) : Option (State N × Option N) :=
  if s.tailSize < expected ∧ curr ≠ s.lru.head then
    match curr with
    | none => none
    | some c =>
      match s.hooks.prev c with
      | none => none
      | some p => grow expected { s with tail := upd s.tail p true, tailSize := s.tailSize + 1 } (some p)
  else some (s, curr)
termination_by expected - s.tailSize
decreasing_by omega

/-- MMLru.h:670-674, the second loop. -/
def shrink (expected : Nat) (s : State N) (curr : Option N) : Option (State N × Option N) :=
  if expected < s.tailSize ∧ curr ≠ s.lru.tail then
    match curr with
    | none => none
    | some c =>
      shrink expected { s with tail := upd s.tail c false, tailSize := s.tailSize - 1 } (s.hooks.next c)
  else some (s, curr)
termination_by s.tailSize
decreasing_by omega

/-- MMLru.h:644-651: initialise the insertion point to the tail. -/
def initIp (s : State N) : State N :=
  match s.ip with
  | some _ => s
  | none =>
    match s.lru.tail with
    | none => { s with ip := none, tailSize := 0 }
    | some t => { s with ip := some t, tail := upd s.tail t true, tailSize := 1 }

/-- MMLru.h:653-676. -/
def adjustIp (s : State N) : Option (State N) :=
  if s.lru.size ≤ 1 then some s
  else
    (grow (s.lru.size / 2 ^ s.config.ipSpec) s s.ip).bind fun r =>
      (shrink (s.lru.size / 2 ^ s.config.ipSpec) r.1 r.2).map fun r => { r.1 with ip := r.2 }

/-- MMLru.h:637-677 updateLruInsertionPoint. -/
def updateIp (s : State N) : Option (State N) :=
  if s.config.ipSpec = 0 then some s else adjustIp (initIp s)

/-- MMLru.h:724-737 ensureNotInsertionPoint. -/
def ensureNotIp (s : State N) (x : N) : State N :=
  if some x = s.ip then
    match s.hooks.prev x with
    | some p => { s with ip := some p, tailSize := s.tailSize + 1, tail := upd s.tail p true }
    | none => { s with ip := none }
  else s

/-- MMLru.h:687-691: where add links the node. -/
def linkNew (s : State N) (x : N) : State N :=
  match (if s.config.ipSpec = 0 then none else s.ip) with
  | none => { s with hooks := (DList.linkAtHead s.hooks s.lru x).1, lru := (DList.linkAtHead s.hooks s.lru x).2 }
  | some i =>
    { s with hooks := (DList.insertBefore s.hooks s.lru i x).1, lru := (DList.insertBefore s.hooks s.lru i x).2 }

/-- MMLru.h:679-698 add. -/
def add (s : State N) (x : N) (now : Nat) : Option (State N × Bool) :=
  if s.inMM x then some (s, false)
  else
    let s := linkNew s x
    let s := { s with inMM := upd s.inMM x true, time := upd s.time x now, accessed := upd s.accessed x false }
    (updateIp s).map fun s => (s, true)

/-- MMLru.h:739-751 removeLocked. -/
def removeLocked (s : State N) (x : N) : Option (State N) :=
  let s := ensureNotIp s x
  let s := { s with hooks := (DList.remove s.hooks s.lru x).1, lru := (DList.remove s.hooks s.lru x).2 }
  let s := { s with accessed := upd s.accessed x false }
  (if s.tail x then decTail (unmarkTail s x) else some s).bind fun s =>
    updateIp { s with inMM := upd s.inMM x false }

/-- MMLru.h:753-762 remove. -/
def remove (s : State N) (x : N) : Option (State N × Bool) :=
  if s.inMM x then (removeLocked s x).map fun s => (s, true) else some (s, false)

/-- MMLru.h:764-770 remove by iterator: the new state and the new position of the iterator, which runs from
the tail to the head. -/
def removeIt (s : State N) (x : N) : Option (State N × Option N) :=
  let it := DList.iterNext s.hooks .fromTail (some x)
  (removeLocked s x).map fun s => (s, it)

/-- MMLru.h:772-800 replace. -/
def replace (s : State N) (o x : N) : Option (State N × Bool) :=
  if ¬ s.inMM o ∨ s.inMM x then some (s, false)
  else
    let t := s.time o
    let s := { s with hooks := (DList.replace s.hooks s.lru o x).1, lru := (DList.replace s.hooks s.lru o x).2 }
    let s := { s with inMM := upd (upd s.inMM o false) x true, time := upd s.time x t }
    let s := { s with accessed := upd s.accessed x (s.accessed o) }
    let s := if s.tail o then unmarkTail (markTail s x) o else unmarkTail s x
    some ({ s with ip := if s.ip = some o then some x else s.ip }, true)

/-- MMLru.h:590-608 getEvictionAgeStatLocked(0), oldestElementAge (32-bit subtraction). -/
def oldestAge (s : State N) (now : Nat) : Nat :=
  match s.lru.tail with
  | some x => (now + (2 ^ 32 - s.time x % 2 ^ 32)) % 2 ^ 32
  | none => 0

/-- MMLru.h:847-862 reconfigureLocked. -/
def reconfigure (s : State N) (now : Nat) : State N :=
  if now < s.nextReconf then s
  else
    { s with nextReconf := (now + s.config.interval) % 2 ^ 32,
             refreshTime := min (max s.config.defaultRefresh (s.config.ratio (oldestAge s now))) 900 }

/-- MMLru.h:547-560: the critical section of recordAccess. -/
def promote (s : State N) (x : N) (now : Nat) : Option (State N) :=
  let s := reconfigure s now
  let s := ensureNotIp s x
  let s := if s.inMM x then
      { s with hooks := (DList.moveToHead s.hooks s.lru x).1, lru := (DList.moveToHead s.hooks s.lru x).2,
               time := upd s.time x now }
    else s
  if s.tail x then (decTail (unmarkTail s x)).bind updateIp else some s

/-- AccessMode (common). -/
inductive Mode where | read | write

/-- MMLru.h:532-542: the tests of recordAccess before the lock. -/
def wants (s : State N) (x : N) (m : Mode) (now : Nat) : Bool :=
  !((match m with | .write => true | .read => false) && !s.config.updateOnWrite ||
    (match m with | .read => true | .write => false) && !s.config.updateOnRead) &&
  (s.inMM x && (decide (now ≥ (s.time x + s.refreshTime) % 2 ^ 32) || !s.accessed x))

/-- MMLru.h:543-545: markAccessed, outside the lock. -/
def mark (s : State N) (x : N) : State N := { s with accessed := upd s.accessed x true }

/-- MMLru.h:529-580 recordAccess without interference.  `locked`: the try-lock succeeds (568). -/
def recordAccess (s : State N) (x : N) (m : Mode) (now : Nat) (locked : Bool) : Option (State N × Bool) :=
  if wants s x m now then
    let s := mark s x
    if s.config.tryLock && !locked then some (s, false)
    else (promote s x now).map fun s => (s, true)
  else some (s, false)

/-- MMLru.h:616-621: unmark the tail section. -/
def clearTail : Nat → State N → Option N → Option (State N)
  | 0, s, _ => some { s with tailSize := 0 }
  | _ + 1, _, none => none
  | k + 1, s, some c => clearTail k { s with tail := upd s.tail c false, tailSize := k } (s.hooks.next c)

/-- MMLru.h:614-623. -/
def dropIp (s : State N) : Option (State N) :=
  if s.config.ipSpec = 0 ∧ s.ip ≠ none then
    (clearTail s.tailSize s s.ip).map fun s => { s with ip := none }
  else some s

/-- MMLru.h:610-630 setConfig. -/
def setConfig (s : State N) (c : Config) (now : Nat) : Option (State N) :=
  (dropIp { s with config := c }).map fun s =>
    { s with refreshTime := c.refresh,
             nextReconf := if c.interval = 0 then 2 ^ 32 - 1 else (now + c.interval) % 2 ^ 32 }

/-- serialization::MMLruObject (802-821): list, insertion point, tail size, and the saved part of the config. -/
structure Saved (N : Type) where
  lru : Option N × Option N × Nat
  ip : Option N
  tailSize : Nat
  refresh : Nat
  ratio : Nat → Nat
  updateOnWrite : Bool
  updateOnRead : Bool
  tryLock : Bool
  ipSpec : Nat

/-- MMLru.h:802-821 saveState. -/
def saveState (s : State N) : Saved N :=
  ⟨DList.saveState s.lru, s.ip, s.tailSize, s.refreshTime, s.config.ratio, s.config.updateOnWrite,
    s.config.updateOnRead, s.config.tryLock, s.config.ipSpec⟩

/-- MMLru.h:67-73, 115-121, 179-187, 203: the config made from the saved one.  The spec is cast to uint8_t. -/
def Saved.config (o : Saved N) : Config :=
  ⟨o.refresh, o.refresh, o.ratio, o.updateOnWrite, o.updateOnRead, o.tryLock, o.ipSpec % 256, 0⟩

/-- MMLru.h:513-527: restoring constructor; the memory of the nodes is that of `mem`. -/
def restore (o : Saved N) (mem : State N) : State N :=
  { mem with lru := DList.restore o.lru, ip := o.ip, tailSize := o.tailSize, config := o.config,
             refreshTime := o.refresh, nextReconf := 2 ^ 32 - 1 }

end Verif.MMLru
