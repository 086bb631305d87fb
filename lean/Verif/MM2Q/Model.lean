import Verif.MultiDList.Lemmas
/-
MM2Q::Container (cachelib/allocator/MM2Q.h): hot, warm and cold queues, the latter two with tail queues.

`none` as the result of a function means that the code would dereference a null pointer (or that a loop would
not end within the number of nodes in its list, which is the bound given here); the theorems show that neither happens.

What is simplified:
* Every critical section of lruMutex_ is one operation; recordAccess is split into its unlocked test and its
  critical section.
* `Time` is a `Nat` reduced modulo 2^32 where the code adds; the ratio of reconfigureLocked, a product of a double, is an
  arbitrary function.
* `size_t` counters and products of sizes with percentages do not overflow.  Pointer compression is the identity (C13).
-/
namespace Verif.MM2Q
open Verif MultiDList

variable {N : Type} [DecidableEq N]

/-! MM2Q.h:66 `enum LruType { Warm, WarmTail, Hot, Cold, ColdTail, NumTypes }`: the indices of the five lists. -/
scoped notation "Warm" => (0 : Nat)
scoped notation "WarmTail" => (1 : Nat)
scoped notation "Hot" => (2 : Nat)
scoped notation "Cold" => (3 : Nat)
scoped notation "ColdTail" => (4 : Nat)
scoped notation "NumTypes" => (5 : Nat)

/-- MM2Q.h:313-354 Config: the fields that influence behaviour. -/
structure Config where
  defaultRefresh : Nat
  refresh : Nat
  /-- lruRefreshRatio: age ↦ the converted product of 1118-1119 -/
  ratio : Nat → Nat
  updateOnWrite : Bool
  updateOnRead : Bool
  tryLock : Bool
  rebalanceOnRecordAccess : Bool
  hotPct : Nat
  coldPct : Nat
  tailSize : Nat
  interval : Nat

/-- MM2Q.h:280-282 getWarmSizePercent, in 64-bit arithmetic. -/
def Config.warmPct (c : Config) : Nat := (2 ^ 64 + (2 ^ 64 + 100 - c.hotPct) % 2 ^ 64 - c.coldPct) % 2 ^ 64

/-- MM2Q.h:285-305 checkLruSizes: false if it throws. -/
def Config.checkLruSizes (c : Config) : Bool :=
  if c.hotPct = 100 then !(c.coldPct ≠ 0 && c.warmPct ≠ 0)
  else !(c.hotPct ≤ 0 || c.hotPct > 100 || c.coldPct ≤ 0 || c.coldPct ≥ 100 || c.warmPct ≤ 0 || c.warmPct ≥ 100)

/-- MM2Q.h:637-668 members of the container, and the fields it uses in nodes: hooks and update time
(DList.h:33-82), the flags kMMFlag0 (hot), kMMFlag2 (cold), kMMFlag1 (tail) and "in MM container" (Refcount.h). -/
structure State (N : Type) where
  m : MState N
  tracking : Bool
  nextReconf : Nat
  refreshTime : Nat
  config : Config
  numHot : Nat
  numCold : Nat
  numWarm : Nat
  numWarmTail : Nat
  numColdTail : Nat
  inMM : N → Bool
  hot : N → Bool
  cold : N → Bool
  tail : N → Bool
  time : N → Nat

/-- MM2Q.h:375-385 constructor; flags of nodes not yet in any container are clear. -/
def new (c : Config) (now : Nat) (hooks : DList.Hooks N) : State N :=
  { m := MultiDList.new NumTypes hooks, tracking := decide (c.tailSize > 0),
    nextReconf := if c.interval = 0 then 2 ^ 32 - 1 else (now + c.interval) % 2 ^ 32,
    refreshTime := c.refresh, config := c, numHot := 0, numCold := 0, numWarm := 0, numWarmTail := 0,
    numColdTail := 0, inMM := fun _ => false, hot := fun _ => false, cold := fun _ => false,
    tail := fun _ => false, time := fun _ => 0 }

/-- `lru_.getList(q).op(...)` -/
def State.on (s : State N) (q : Nat) (op : DList.Op N) : State N := { s with m := onList s.m q op }
/-- `lru_.getList(q).size()` -/
def State.len (s : State N) (q : Nat) : Nat := (s.m.lists q).size
/-- `lru_.getList(q).getTail()` -/
def State.last (s : State N) (q : Nat) : Option N := (s.m.lists q).tail

/-- MM2Q.h:605-607 inTail. -/
def State.inTail (s : State N) (x : N) : Bool := decide (s.config.tailSize ≠ 0) && s.tail x

/-- MM2Q.h:831-840 getLruType. -/
def State.lruType (s : State N) (x : N) : Nat :=
  if s.hot x then Hot
  else if s.cold x then (if s.inTail x then ColdTail else Cold)
  else if s.inTail x then WarmTail else Warm

/-- MM2Q.h:860-862, 849-858: popFrom(WarmTail) or popFrom(Warm). -/
def popWarm (s : State N) : Option (N × State N) :=
  if s.len WarmTail > 0 then
    (s.last WarmTail).map fun x => (x, { s.on WarmTail (.remove x) with tail := upd s.tail x false })
  else (s.last Warm).map fun x => (x, s.on Warm (.remove x))

/-- MM2Q.h:846-866, the first loop of rebalance. -/
def shrinkWarm (expected : Nat) : Nat → State N → Option (State N)
  | f, s =>
    if s.len Warm + s.len WarmTail > expected then
      match f with
      | 0 => none
      | f + 1 => (popWarm s).bind fun r =>
          let s := r.2.on Cold (.linkAtHead r.1)
          shrinkWarm expected f { s with cold := upd s.cold r.1 true }
    else some s

/-- MM2Q.h:870-878, the second loop of rebalance. -/
def shrinkHot (expected : Nat) : Nat → State N → Option (State N)
  | f, s =>
    if s.len Hot > expected then
      match f with
      | 0 => none
      | f + 1 => (s.last Hot).bind fun x =>
          let s := (s.on Hot (.remove x)).on Cold (.linkAtHead x)
          shrinkHot expected f { s with hot := upd s.hot x false, cold := upd s.cold x true }
    else some s

/-- MM2Q.h:1041-1050 adjustTail(list) with getTailLru(list) = `tl` (1028-1038). -/
def adjustTail (list tl : Nat) : Nat → State N → Option (State N)
  | f, s =>
    match s.last list with
    | none => some s
    | some x =>
      if s.len tl + 1 ≤ s.config.tailSize then
        match f with
        | 0 => none
        | f + 1 => adjustTail list tl f (({ s with tail := upd s.tail x true }.on list (.remove x)).on tl (.linkAtHead x))
      else some s

/-- MM2Q.h:843-883 rebalance. -/
def rebalance (s : State N) : Option (State N) :=
  (shrinkWarm (s.config.warmPct * size s.m / 100) (s.len Warm + s.len WarmTail) s).bind fun s =>
  (shrinkHot (s.config.hotPct * size s.m / 100) (s.len Hot) s).bind fun s =>
  (adjustTail Cold ColdTail (s.len Cold) s).bind fun s => adjustTail Warm WarmTail (s.len Warm) s

/-- MM2Q.h:886-903 add. -/
def add (s : State N) (x : N) (now : Nat) : Option (State N × Bool) :=
  if s.inMM x then some (s, false)
  else
    let s := { s with hot := upd s.hot x true, cold := upd s.cold x false, tail := upd s.tail x false }
    (rebalance (s.on Hot (.linkAtHead x))).map fun s =>
      ({ s with inMM := upd s.inMM x true, time := upd s.time x now }, true)

/-- MM2Q.h:930-940 removeLocked. -/
def removeLocked (s : State N) (x : N) (doRebalance : Bool) : Option (State N) :=
  let s := s.on (s.lruType x) (.remove x)
  (if doRebalance then rebalance s else some s).map fun s => { s with inMM := upd s.inMM x false }

/-- MM2Q.h:969-977 remove. -/
def remove (s : State N) (x : N) : Option (State N × Bool) :=
  if s.inMM x then (removeLocked s x true).map fun s => (s, true) else some (s, false)

/-- MM2Q.h:980-989 remove through the iterator, which goes to the next node first; `none`: no node there. -/
def removeIt (s : State N) (it : It N) : Option (State N × It N) :=
  match it.cur with
  | none => none
  | some x => (removeLocked s x false).map fun s' => (s', goForward s.m it)

/-- MM2Q.h:1001-1018: marks of the new node by the queue of the old. -/
def markAs (s : State N) (q : Nat) (x : N) : State N :=
  if q = Hot then { s with hot := upd s.hot x true }
  else if q = ColdTail then { s with tail := upd s.tail x true, cold := upd s.cold x true }
  else if q = Cold then { s with cold := upd s.cold x true }
  else if q = WarmTail then { s with tail := upd s.tail x true }
  else s

/-- MM2Q.h:992-1025 replace. -/
def replace (s : State N) (o x : N) : State N × Bool :=
  if ¬ s.inMM o ∨ s.inMM x then (s, false)
  else
    let t := s.time o
    let q := s.lruType o
    let s := markAs (s.on q (.replace o x)) q x
    ({ s with inMM := upd (upd s.inMM o false) x true, time := upd s.time x t }, true)

/-- MM2Q.h:824-828 getOldestAgeLocked (32-bit subtraction). -/
def oldestAge (s : State N) (q : Nat) (now : Nat) : Nat :=
  match (rbeginFrom s.m q).cur with
  | some x => (now + (2 ^ 32 - s.time x % 2 ^ 32)) % 2 ^ 32
  | none => 0

/-- MM2Q.h:1108-1122 reconfigureLocked. -/
def reconfigure (s : State N) (now : Nat) : State N :=
  if now < s.nextReconf then s
  else
    { s with nextReconf := (now + s.config.interval) % 2 ^ 32,
             refreshTime := min (max s.config.defaultRefresh (s.config.ratio (oldestAge s WarmTail now))) 900 }

/-- MM2Q.h:723-725 -/
def accessHot (s : State N) (x : N) : Option (State N) :=
  some { s.on Hot (.moveToHead x) with numHot := s.numHot + 1 }

/-- MM2Q.h:727-733 -/
def takeCold (s : State N) (x : N) : State N :=
  if s.inTail x then
    { { s with tail := upd s.tail x false }.on ColdTail (.remove x) with numColdTail := s.numColdTail + 1 }
  else s.on Cold (.remove x)

/-- MM2Q.h:727-741 -/
def accessCold (s : State N) (x : N) : Option (State N) :=
  let s := (takeCold s x).on Warm (.linkAtHead x)
  let s := { s with cold := upd s.cold x false, numCold := s.numCold + 1 }
  if s.config.rebalanceOnRecordAccess then rebalance s else some s

/-- MM2Q.h:743-751 -/
def accessWarm (s : State N) (x : N) : Option (State N) :=
  if s.inTail x then
    let s := ({ s with tail := upd s.tail x false }.on WarmTail (.remove x)).on Warm (.linkAtHead x)
    some { s with numWarmTail := s.numWarmTail + 1, numWarm := s.numWarm + 1 }
  else some { s.on Warm (.moveToHead x) with numWarm := s.numWarm + 1 }

/-- MM2Q.h:718-755: the critical section of recordAccess. -/
def promote (s : State N) (x : N) (now : Nat) : Option (State N × Bool) :=
  let s := reconfigure s now
  if ¬ s.inMM x then some (s, false)
  else
    (if s.hot x then accessHot s x else if s.cold x then accessCold s x else accessWarm s x).map fun s =>
      ({ s with time := upd s.time x now }, true)

/-- AccessMode (common). -/
inductive Mode where | read | write

/-- MM2Q.h:708-717: the tests of recordAccess before the lock. -/
def wants (s : State N) (x : N) (m : Mode) (now : Nat) : Bool :=
  !((match m with | .write => true | .read => false) && !s.config.updateOnWrite ||
    (match m with | .read => true | .write => false) && !s.config.updateOnRead) &&
  (s.inMM x && decide (now ≥ (s.time x + s.refreshTime) % 2 ^ 32))

/-- MM2Q.h:706-772 recordAccess without interference.  `locked`: the try-lock succeeds (763). -/
def recordAccess (s : State N) (x : N) (m : Mode) (now : Nat) (locked : Bool) : Option (State N × Bool) :=
  if wants s x m now then
    if s.config.tryLock && !locked then some (s, false) else promote s x now
  else some (s, false)

/-- MM2Q.h:943-961 setConfig; the answer is false if it throws. -/
def setConfig (s : State N) (c : Config) (now : Nat) : State N × Bool :=
  if ¬ s.tracking ∧ c.tailSize > 0 then (s, false)
  else if s.tracking ∧ c.tailSize = 0 then (s, false)
  else ({ s with config := c, refreshTime := c.refresh,
                 nextReconf := if c.interval = 0 then 2 ^ 32 - 1 else (now + c.interval) % 2 ^ 32 }, true)

/-- CacheItem construction (CacheItem-inl.h) on the memory of a node: all flags are clear. -/
def construct (s : State N) (x : N) : State N :=
  { s with hot := upd s.hot x false, cold := upd s.cold x false, tail := upd s.tail x false,
           inMM := upd s.inMM x false }

/-- MM2Q.h:1075-1103 getStats: size, update time of the first eviction candidate (0 if empty), accesses by queue and
the weighted tail accesses. -/
def stats (s : State N) : Nat × Nat × Nat × Nat × Nat × Nat :=
  (size s.m, (if size s.m = 0 then 0 else match (rbegin s.m).cur with | some x => s.time x | none => 0),
    s.numHot, s.numCold, s.numWarm,
    (s.numWarmTail * s.config.warmPct + s.numColdTail * s.config.coldPct) / 100)

/-- serialization::MM2QObject (1053-1069). -/
structure Saved (N : Type) where
  lrus : List (Option N × Option N × Nat)
  tracking : Bool
  refresh : Nat
  ratio : Nat → Nat
  updateOnWrite : Bool
  updateOnRead : Bool
  hotPct : Nat
  coldPct : Nat
  rebalanceOnRecordAccess : Bool

/-- MM2Q.h:1053-1069 saveState. -/
def saveState (s : State N) : Saved N :=
  ⟨MultiDList.saveState s.m, s.tracking, s.refreshTime, s.config.ratio, s.config.updateOnWrite, s.config.updateOnRead,
    s.config.hotPct, s.config.coldPct, s.config.rebalanceOnRecordAccess⟩

/-- MM2Q.h:71-79: the config made from the saved one; tryLockUpdate, never saved, has its default (objects.thrift),
tailSize and the interval are zero. -/
def Saved.config (o : Saved N) : Config :=
  ⟨o.refresh, o.refresh, o.ratio, o.updateOnWrite, o.updateOnRead, false, o.rebalanceOnRecordAccess, o.hotPct, o.coldPct,
    0, 0⟩

/-- MM2Q.h:684-703: restoring constructor; the memory of the nodes is that of `mem`.  Three saved lists become five.
`none`: insertEmptyListAt throws. -/
def restore (o : Saved N) (mem : State N) : Option (State N) :=
  let m := MultiDList.restore o.lrus mem.m.hooks
  (if m.num < NumTypes then
    (insertEmptyListAt m WarmTail).bind fun m => insertEmptyListAt m ColdTail
   else some m).map fun m =>
    { mem with m := m, tracking := o.tracking, config := o.config, refreshTime := o.refresh, nextReconf := 2 ^ 32 - 1,
               numHot := 0, numCold := 0, numWarm := 0, numWarmTail := 0, numColdTail := 0 }

end Verif.MM2Q
