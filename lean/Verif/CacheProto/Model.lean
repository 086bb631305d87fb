import Verif.Refcount.Model
/-
Model of the item life cycle of `CacheAllocator` (cachelib/allocator/CacheAllocator.h) for regular items:
allocate, find, handle copy and release, insert, insertOrReplace, remove, removeIfExpired,
replaceIfAccessible, eviction from the eviction list, and slab release (move or evict), as a transition
system with any number of threads.

Granularity: one step is one atomic operation on an item's reference word (Verif.Refcount, C01-C04), one
critical section of the eviction container (C09, C10) or of the memory allocator (C14), or one access inside
a bucket lock of the index (C07).  Where the index keeps its bucket lock over several operations (lookup +
acquiring the handle; replacing), the model keeps the lock over several steps.

What is simplified:
* the index is a map from keys to items (that is what C07 proves about the chained hash table); locks are
  per key instead of per bucket: fewer threads are blocked, so every real schedule is a schedule here;
* the eviction container is the set of its members: any member may be the candidate (C09, C10 prove the
  order); its lock is not held across steps, again allowing more schedules;
* `removeFromMMContainer` tests `isInMMContainer()` without the lock and then removes under the lock, where
  the test is repeated (MMLru.h:754-763): if the first test is false the call has no effect at that moment,
  otherwise it takes effect under the lock; so it is one step;
* inside the index lock, the write of the bucket chain and the first write of an accessible flag are one step
  (the chain is only read under that lock);
* NVM, chained items, statistics, callbacks and the other bits of the reference word are left out;
* waiting on a handle of a moving item is waiting for the mail of the wait context.

`fault` is set by every action that must never happen: touching memory that was given back, freeing twice,
reference counter underflow, releasing an item that is not drained, removing a node from a bucket
it is not in.
-/
namespace Verif.CacheProto
open Verif.Refcount

/-- item keys, Key.h (compared only) -/
abbrev Key := List UInt8
/-- address of an allocation -/
abbrev Addr := Nat

/-- A handle held by the user (Handle.h:57-560): the item and the key it was asked for (ghost). -/
structure Hdl where
  k : Key
  a : Addr
deriving DecidableEq, Repr

/-- A wait context that was set (Handle.h:334-364 `ItemWaitContext::set`), with the key of the move. -/
structure Mail where
  w : Nat
  k : Key
  r : Option Addr
deriving DecidableEq, Repr

/-- What an allocation is for: the user, or the destination of a move (CacheAllocator.h:5587). -/
inductive Cont where
  | user
  | move (old : Addr)
deriving DecidableEq, Repr

/-- What follows `releaseBackToAllocator` (CacheAllocator.h:3561-3698). -/
inductive RCont where
  /-- release of a handle (3772) or 5642: memory is freed and the call ends -/
  | done
  /-- 5551: destination handle dropped after a successful move; then the old item is freed (5556) -/
  | freeOld (old : Addr)
  /-- 5514: destination handle dropped after a failed move; then the old item is evicted (5458) -/
  | evictOld (k : Key) (old : Addr)
  /-- 4289: the memory is recycled for the allocation -/
  | recycle (k : Key) (c : Cont)
deriving DecidableEq, Repr

/-- Outcome of `handleMaker_(oldNode)` in `insertOrReplace` (ChainedHashTable.h:1201). -/
inductive Repl where
  | null
  | got
  | wait (w : Nat)
deriving DecidableEq, Repr

/-- Program counter of a thread: the position inside the running call. -/
inductive PC where
  | idle
  /-- allocateInternal before line 3132 / findEviction loop 4269 -/
  | alloc (k : Key) (c : Cont)
  /-- memory obtained, item not constructed yet (3145-3164) -/
  | mem (a : Addr) (k : Key) (c : Cont)
  /-- item constructed, `acquire` pending (3165) -/
  | ctor (a : Addr) (k : Key) (c : Cont)
  /-- victim marked, before `mmContainer.remove(itr)` (4228) -/
  | ev1 (v : Addr) (k : Key) (c : Cont)
  /-- before 4110 -/
  | ev2 (v : Addr) (k : Key) (c : Cont)
  /-- before 4111 -/
  | ev3 (v : Addr) (k : Key) (c : Cont)
  /-- before 4115 -/
  | ev4 (v : Addr) (k : Key) (c : Cont)
  /-- ChainedHashTable.h:1306 bucket locked shared, `a` found; before incRef (3727) -/
  | find (k : Key) (a : Addr)
  /-- same, incRef said moving; before 3960 -/
  | findW (k : Key) (a : Addr)
  /-- releaseBackToAllocator before line 3565 -/
  | rel1 (a : Addr) (rc : RCont)
  /-- releaseBackToAllocator before line 3689 -/
  | rel2 (a : Addr) (rc : RCont)
  /-- insertImpl before 3863 -/
  | ins1 (k : Key) (a : Addr)
  /-- before ChainedHashTable.h:1165 -/
  | ins2 (k : Key) (a : Addr)
  /-- before ChainedHashTable.h:1171 -/
  | ins3 (k : Key) (a : Addr)
  /-- before 3868 -/
  | ins4 (k : Key) (a : Addr)
  /-- insertOrReplace before 3890 -/
  | ior1 (k : Key) (a : Addr)
  /-- before ChainedHashTable.h:1187 -/
  | ior2 (k : Key) (a : Addr)
  /-- before ChainedHashTable.h:1192 -/
  | ior3 (k : Key) (a : Addr)
  /-- bucket locked, old node `o`; before incRef (3727) -/
  | ior4 (k : Key) (a o : Addr)
  /-- bucket locked, incRef said moving; before 3960 -/
  | ior4w (k : Key) (a o : Addr)
  /-- bucket locked; before ChainedHashTable.h:1212 -/
  | ior5 (k : Key) (a o : Addr) (r : Repl)
  /-- bucket locked; before ChainedHashTable.h:1215 -/
  | ior6 (k : Key) (a o : Addr) (r : Repl)
  /-- `replaced` is the item `x`; before 3916 -/
  | ior7 (k : Key) (a x : Addr)
  /-- waiting for `replaced` (3899) -/
  | iorWait (k : Key) (a : Addr) (w : Nat)
  /-- exception path, before 3906 -/
  | iorX (k : Key) (a : Addr)
  /-- removeImpl before 4503 -/
  | rm1 (k : Key) (a : Addr)
  /-- before 4517 -/
  | rm2 (k : Key) (a : Addr)
  /-- removeIfExpired before ChainedHashTable.h:1281 -/
  | rx1 (k : Key) (a : Addr)
  /-- bucket locked, before ChainedHashTable.h:1288 -/
  | rx2 (k : Key) (a : Addr)
  /-- bucket locked, handle acquired, before ChainedHashTable.h:1290 -/
  | rx3 (k : Key) (a : Addr)
  /-- before 5659 -/
  | rx4 (k : Key) (a : Addr)
  /-- before the destruction of `removedHandle` (5660) -/
  | rx5 (k : Key) (a : Addr)
  /-- replaceIfAccessible before 3418 -/
  | rp1 (k : Key) (o n : Addr)
  /-- bucket locked, before ChainedHashTable.h:1245 -/
  | rp2 (k : Key) (o n : Addr)
  /-- before 3424: first half of replaceInMMContainer (3794, 3796) -/
  | rp3 (k : Key) (o n : Addr)
  /-- second half of replaceInMMContainer -/
  | rp4 (k : Key) (o n : Addr)
  /-- before 3425 -/
  | rp5 (k : Key) (o n : Addr)
  /-- before 3432 -/
  | rp6 (k : Key) (o n : Addr)
  /-- before 3433 -/
  | rp7 (k : Key) (o n : Addr)
  /-- marked moving; before 5485 -/
  | mv1 (k : Key) (a : Addr)
  /-- moveRegularItem before 4000 -/
  | mv2 (k : Key) (a n : Addr)
  /-- before 4045 -/
  | mv3 (k : Key) (a n : Addr)
  /-- bucket locked, before ChainedHashTable.h:1245 -/
  | mv3b (k : Key) (a n : Addr)
  /-- before 4046 -/
  | mvF (k : Key) (a n : Addr)
  /-- move failed, before the destruction of newItemHdl (5514) -/
  | mvF2 (k : Key) (a n : Addr)
  /-- before 5516 -/
  | mv4 (k : Key) (a n : Addr)
  /-- before 5478 -/
  | mv5 (k : Key) (a n : Addr)
  /-- before 3985 -/
  | mv6 (k : Key) (a n : Addr)
  /-- destruction of the MoveCtx: waiters still to be set, overflow seen (2483-2502) -/
  | mv7 (k : Key) (a n : Addr) (ws : List Nat) (ov : Bool)
  /-- before the destruction of `it` (2504) -/
  | mv8 (k : Key) (a n : Addr)
  /-- before 5556 -/
  | mv9 (a : Addr)
  /-- evictForSlabRelease before 5615 -/
  | me1 (k : Key) (a : Addr)
  /-- before 4110 -/
  | me2 (k : Key) (a : Addr)
  /-- before 4111 -/
  | me3 (k : Key) (a : Addr)
  /-- before 4115 -/
  | me4 (k : Key) (a : Addr)
  /-- before 5622 -/
  | me5 (k : Key) (a : Addr)
  /-- destruction of the MoveCtx with a null handle -/
  | me6 (k : Key) (a : Addr) (ws : List Nat)
deriving DecidableEq, Repr

/-- threads that hold the bucket lock of `k` shared (ChainedHashTable.h:1305) -/
def PC.ls : PC → Key → Bool
  | .find k _, x | .findW k _, x => decide (k = x)
  | _, _ => false

/-- threads that hold the bucket lock of `k` exclusively between steps
(ChainedHashTable.h:1192, 1240, 1281) -/
def PC.lx : PC → Key → Bool
  | .ior4 k _ _, x | .ior4w k _ _, x | .ior5 k _ _ _, x | .ior6 k _ _ _, x | .rx2 k _, x | .rx3 k _, x
  | .rp2 k _ _, x | .mv3b k _ _, x => decide (k = x)
  | _, _ => false

/-- items for which the running call uses a handle of the caller -/
def PC.borrow : PC → Addr → Bool
  | .ins1 _ a, x | .ins2 _ a, x | .ins3 _ a, x | .ins4 _ a, x | .ior1 _ a, x | .ior2 _ a, x | .ior3 _ a, x
  | .ior4 _ a _, x | .ior4w _ a _, x | .ior5 _ a _ _, x | .ior6 _ a _ _, x | .ior7 _ a _, x | .iorWait _ a _, x
  | .iorX _ a, x | .rm1 _ a, x | .rm2 _ a, x | .rx1 _ a, x | .rx2 _ a, x | .rx3 _ a, x | .rx4 _ a, x
  | .rx5 _ a, x => decide (a = x)
  | .rp1 _ o n, x | .rp2 _ o n, x | .rp3 _ o n, x | .rp4 _ o n, x | .rp5 _ o n, x | .rp6 _ o n, x
  | .rp7 _ o n, x => decide (o = x) || decide (n = x)
  | _, _ => false

/-- items the running call is about to make accessible with the caller's handle -/
def PC.inserting : PC → Addr → Bool
  | .ins1 _ a, x | .ins2 _ a, x | .ins3 _ a, x | .ior1 _ a, x | .ior2 _ a, x | .ior3 _ a, x
  | .ior4 _ a _, x | .ior4w _ a _, x | .ior5 _ a _ _, x => decide (a = x)
  | .rp1 _ _ n, x | .rp2 _ _ n, x => decide (n = x)
  | _, _ => false

/-- What the environment guarantees.  `cleanMem`: memory handed out by the allocator has no reference bits
at the place of the reference word (recycled allocations of the same class, zeroed slabs).  `oneInserter`: the
user does not pass an item to `insert`, `insertOrReplace` (or as new parent) while such a call with the
same item is running. -/
structure Cfg where
  cleanMem : Bool
  oneInserter : Bool

/-- The shared state. -/
structure State where
  /-- the allocation is not on the free list of its class (AllocationClass.h, C14) -/
  mem : Addr → Bool
  /-- `ref_` (CacheItem.h:462) -/
  word : Addr → Word
  /-- `getKey()` (CacheItem.h) -/
  key : Addr → Key
  /-- accessContainer_ -/
  idx : Key → Option Addr
  /-- membership in the eviction containers -/
  mm : Addr → Bool
  /-- handles held by the user -/
  usr : List Hdl
  /-- wait contexts that are ready and not consumed -/
  mail : List Mail
  /-- movesMap_ (CacheAllocator.h:2508-2511): waiters per key -/
  mctx : Key → List Nat
  /-- next wait context (ghost identity) -/
  nextW : Nat
  thr : List PC
  fault : Bool
  /-- wait contexts whose result was consumed (ghost) -/
  done : List Nat
  /-- wait contexts dropped because the clone of the handle threw (2490, ghost) -/
  lost : List Nat

/-- Start: empty cache, every allocation free, `n` threads. -/
def init (n : Nat) : State where
  mem := fun _ => false
  word := fun _ => 0
  key := fun _ => []
  idx := fun _ => none
  mm := fun _ => false
  usr := []
  mail := []
  mctx := fun _ => []
  nextW := 0
  thr := List.replicate n .idle
  fault := false
  done := []
  lost := []

/-- function update -/
def upd [DecidableEq α] (f : α → β) (x : α) (v : β) : α → β := fun y => if y = x then v else f y

/-- an action that must never happen -/
def bad (s : State) : State := { s with fault := true }

/-- `if` the memory of the item is still allocated, do `s'`. -/
def touch (s : State) (a : Addr) (s' : State) : State := if s.mem a then s' else bad s

/-- thread `i` moves to `p` -/
def at_ (s : State) (i : Nat) (p : PC) : State := { s with thr := s.thr.set i p }

/-- write of a reference word -/
def setW (s : State) (a : Addr) (w : Word) : State := { s with word := upd s.word a w }

/-- no thread is inside the bucket lock of `k` -/
def canX (s : State) (k : Key) : Bool := s.thr.all fun q => !q.lx k && !q.ls k
/-- no thread is inside the bucket lock of `k` exclusively -/
def canS (s : State) (k : Key) : Bool := s.thr.all fun q => !q.lx k

/-- Container::add (MMLru.h:680-699): state and result -/
def mmAdd (s : State) (a : Addr) : State × Bool :=
  if isBit kLinked (s.word a) then (s, false)
  else ({ s with mm := upd s.mm a true, word := upd s.word a (setBit kLinked (s.word a)) }, true)

/-- removeFromMMContainer (CacheAllocator.h:3779-3786) with Container::remove (MMLru.h:754-763) -/
def mmRemove (s : State) (a : Addr) : State × Bool :=
  if isBit kLinked (s.word a) then
    ({ s with mm := upd s.mm a false, word := upd s.word a (clearBit kLinked (s.word a)) }, true)
  else (s, false)

/-- put `a` into the index under `k` and set its accessible flag (ChainedHashTable.h:1172-1175, 1193+1212,
1243+1245) -/
def acSet (s : State) (k : Key) (a : Addr) : State :=
  { s with idx := upd s.idx k (some a), word := upd s.word a (setBit kAccessible (s.word a)) }

/-- Container::remove (ChainedHashTable.h:1254-1270) inside the lock: removal of a node that is not in the
bucket is a fault. -/
def acRemove (s : State) (a : Addr) : State :=
  if isBit kAccessible (s.word a) then
    if s.idx (s.key a) = some a then
      { s with idx := upd s.idx (s.key a) none, word := upd s.word a (clearBit kAccessible (s.word a)) }
    else bad s
  else s

/-- MemoryAllocator::free -/
def free (s : State) (a : Addr) : State :=
  if s.mem a then { s with mem := upd s.mem a false } else bad s

/-- decRef of an owned handle and the choice in `release` (CacheAllocator.h:3762-3776): `p0` if the count is
now zero, `p1` otherwise. -/
def drop (s : State) (i : Nat) (a : Addr) (p0 p1 : PC) : State :=
  match decRef (s.word a) with
  | .error _ => bad s
  | .ok (w, r) => at_ (setW s a w) i (if r = 0 then p0 else p1)

/-- Nondeterministic choices of the environment. -/
inductive Ch where
  | go
  /-- the other branch (callback says no, no memory, exception in the constructor, expired) -/
  | alt
  /-- the allocator gives memory `b` with the bits `w` in the place of the reference word -/
  | fresh (b : Addr) (w : Word)
  /-- the eviction iterator points at `v` -/
  | evict (v : Addr)
deriving DecidableEq, Repr

/-- allocation failed (3173, 5518) -/
def allocFail (k : Key) : Cont → PC
  | .user => .idle
  | .move old => .me1 k old

/-- One step of thread `i`, which is at `p`. -/
def go (cfg : Cfg) (s : State) (i : Nat) (ch : Ch) : PC → State
  | .idle => s
  -- CacheAllocator.h:3132, 4122-4232
  | .alloc k c =>
    match ch with
    | .fresh b w =>
      if s.mem b = false ∧ (cfg.cleanMem = true → isDrained w = true) then
        at_ { s with mem := upd s.mem b true, word := upd s.word b w } i (.mem b k c)
      else s
    | .evict v =>
      if s.mm v then
        touch s v <|
          match markForEviction (s.word v) with
          | (w, .success) => at_ (setW s v w) i (.ev1 v k c)
          | _ => s
      else s
    | .alt => at_ s i (allocFail k c)
    | .go => s
  -- CacheAllocator.h:3150-3165: placement new (CacheItem.h constructor: ref_ = 0) or an exception
  | .mem a k c =>
    match ch, c with
    | .alt, .user => at_ (free s a) i .idle
    | _, _ => touch s a <|
        at_ { s with word := upd s.word a 0, key := upd s.key a k } i (.ctor a k c)
  -- CacheAllocator.h:3165 acquire(new Item)
  | .ctor a k c =>
    touch s a <|
      match incRef (s.word a) with
      | .ok (w, .ok) =>
        match c with
        | .user => at_ { setW s a w with usr := ⟨k, a⟩ :: s.usr } i .idle
        | .move old => at_ (setW s a w) i (.mv2 k old a)
      | _ => bad s
  -- 4228
  | .ev1 v k c => touch s v <| at_ (mmRemove s v).1 i (.ev2 v k c)
  -- 4110
  | .ev2 v k c => if canX s (s.key v) then touch s v <| at_ (acRemove s v) i (.ev3 v k c) else s
  -- 4111
  | .ev3 v k c => touch s v <| at_ (mmRemove s v).1 i (.ev4 v k c)
  -- 4115
  | .ev4 v k c => touch s v <| at_ (setW s v (unmarkForEviction (s.word v)).1) i (.rel1 v (.recycle k c))
  -- 3726-3740 under the bucket lock
  | .find k a =>
    touch s a <|
      match incRef (s.word a) with
      | .error _ => at_ s i .idle
      | .ok (w, .ok) => at_ { setW s a w with usr := ⟨k, a⟩ :: s.usr } i .idle
      | .ok (_, .failedEviction) => at_ s i .idle
      | .ok (_, .failedMoving) => at_ s i (.findW k a)
  -- 3955-3976
  | .findW k a =>
    touch s a <|
      if isMoving (s.word a) then
        at_ { s with mctx := upd s.mctx (s.key a) (s.mctx (s.key a) ++ [s.nextW]), nextW := s.nextW + 1 } i .idle
      else at_ s i (.find k a)
  -- 3565
  | .rel1 a rc => touch s a <| if isDrained (s.word a) then at_ s i (.rel2 a rc) else bad s
  -- 3689-3695 and what follows
  | .rel2 a rc =>
    match rc with
    | .done => at_ (free s a) i .idle
    | .freeOld old => at_ (free s a) i (.mv9 old)
    | .evictOld k old => at_ (free s a) i (.me1 k old)
    | .recycle k c => at_ s i (.mem a k c)
  -- 3863, 3820-3828
  | .ins1 k a => touch s a <| let r := mmAdd s a; at_ r.1 i (if r.2 then .ins2 k a else .idle)
  -- ChainedHashTable.h:1165
  | .ins2 k a => touch s a <| at_ s i (if isBit kAccessible (s.word a) then .ins4 k a else .ins3 k a)
  -- ChainedHashTable.h:1170-1179
  | .ins3 k a =>
    if canX s k then
      touch s a <|
        match s.idx k with
        | none => at_ (acSet s k a) i .idle
        | some _ => at_ s i (.ins4 k a)
    else s
  -- 3868
  | .ins4 _ a => touch s a <| at_ (mmRemove s a).1 i .idle
  -- 3890
  | .ior1 k a => touch s a <| let r := mmAdd s a; at_ r.1 i (if r.2 then .ior2 k a else .idle)
  -- ChainedHashTable.h:1187
  | .ior2 k a => touch s a <| at_ s i (if isBit kAccessible (s.word a) then .idle else .ior3 k a)
  -- ChainedHashTable.h:1191-1193
  | .ior3 k a =>
    if canX s k then
      touch s a <|
        match s.idx k with
        | none => at_ (acSet s k a) i .idle
        | some o => at_ s i (.ior4 k a o)
    else s
  -- ChainedHashTable.h:1201-1210 with 3726-3740
  | .ior4 k a o =>
    touch s o <|
      match incRef (s.word o) with
      | .error _ => at_ s i (.iorX k a)
      | .ok (w, .ok) => at_ (setW s o w) i (.ior5 k a o .got)
      | .ok (_, .failedEviction) => at_ s i (.ior5 k a o .null)
      | .ok (_, .failedMoving) => at_ s i (.ior4w k a o)
  -- 3955-3976
  | .ior4w k a o =>
    touch s o <|
      if isMoving (s.word o) then
        at_ { s with mctx := upd s.mctx (s.key o) (s.mctx (s.key o) ++ [s.nextW]), nextW := s.nextW + 1 } i
          (.ior5 k a o (.wait s.nextW))
      else at_ s i (.ior4 k a o)
  -- ChainedHashTable.h:1193, 1212
  | .ior5 k a o r => touch s a <| at_ (acSet s k a) i (.ior6 k a o r)
  -- ChainedHashTable.h:1215
  | .ior6 k a o r =>
    touch s o <|
      at_ (setW s o (clearBit kAccessible (s.word o))) i
        (match r with
         | .null => .idle
         | .got => .ior7 k a o
         | .wait w => .iorWait k a w)
  -- 3916; the handle is returned to the caller (3937)
  | .ior7 k _ x => touch s x <| at_ { (mmRemove s x).1 with usr := ⟨k, x⟩ :: s.usr } i .idle
  -- 3899, 3913: blocks until the wait context is set
  | .iorWait k a w =>
    match s.mail.find? (fun m => m.w = w) with
    | none => s
    | some m =>
      let s := { s with mail := s.mail.erase m, done := m.w :: s.done }
      match m.r with
      | none => at_ s i .idle
      | some x => at_ s i (.ior7 k a x)
  -- 3906
  | .iorX _ a => touch s a <| at_ (mmRemove s a).1 i .idle
  -- 4503
  | .rm1 k a => if canX s k then touch s a <| at_ (acRemove s a) i (.rm2 k a) else s
  -- 4517
  | .rm2 _ a => touch s a <| at_ (mmRemove s a).1 i .idle
  -- ChainedHashTable.h:1281-1284
  | .rx1 k a =>
    if canX s k then
      touch s a <| at_ s i (if isBit kAccessible (s.word a) ∧ ch = .go then .rx2 k a else .idle)
    else s
  -- ChainedHashTable.h:1288
  | .rx2 k a =>
    touch s a <|
      match incRef (s.word a) with
      | .error _ => at_ s i .idle
      | .ok (w, .ok) => at_ (setW s a w) i (.rx3 k a)
      | _ => bad s
  -- ChainedHashTable.h:1290-1291
  | .rx3 k a => touch s a <| at_ (acRemove s a) i (.rx4 k a)
  -- 5659
  | .rx4 k a => touch s a <| at_ (mmRemove s a).1 i (.rx5 k a)
  -- destruction of removedHandle
  | .rx5 _ a => touch s a <| drop s i a (.rel1 a .done) .idle
  -- ChainedHashTable.h:1238-1244
  | .rp1 k o n =>
    if canX s k then
      touch s o <|
        if isBit kAccessible (s.word o) then
          at_ { setW s o (clearBit kAccessible (s.word o)) with idx := upd s.idx k none } i (.rp2 k o n)
        else at_ s i .idle
    else s
  -- ChainedHashTable.h:1243, 1245
  | .rp2 k o n => touch s n <| at_ (acSet s k n) i (.rp3 k o n)
  -- 3794/3796
  | .rp3 k o n => touch s o <| let r := mmRemove s o; at_ r.1 i (if r.2 then .rp4 k o n else .rp5 k o n)
  -- 3794/3796
  | .rp4 k o n => touch s n <| let r := mmAdd s n; at_ r.1 i (if r.2 then .rp6 k o n else .rp5 k o n)
  -- 3425
  | .rp5 k _ n => if canX s k then touch s n <| at_ (acRemove s n) i .idle else s
  -- 3432
  | .rp6 k o n => touch s n <| at_ s i (if isBit kAccessible (s.word n) then .idle else .rp7 k o n)
  -- 3433
  | .rp7 _ _ n => touch s n <| at_ (mmRemove s n).1 i .idle
  -- 5485, 5502
  | .mv1 k a => at_ s i (if ch = .go then .alloc k (.move a) else .me1 k a)
  -- 4000, 4027
  | .mv2 k a n =>
    touch s a <| touch s n <|
      if ch = .go then at_ (mmAdd s n).1 i (.mv3 k a n) else at_ s i (.mvF2 k a n)
  -- 4045, ChainedHashTable.h:1238-1244
  | .mv3 k a n =>
    if canX s k then
      touch s a <|
        if isBit kAccessible (s.word a) then
          at_ { setW s a (clearBit kAccessible (s.word a)) with idx := upd s.idx k none } i (.mv3b k a n)
        else at_ s i (.mvF k a n)
    else s
  -- ChainedHashTable.h:1243, 1245
  | .mv3b k a n => touch s n <| at_ (acSet s k n) i (.mv4 k a n)
  -- 4046
  | .mvF k a n => touch s n <| at_ (mmRemove s n).1 i (.mvF2 k a n)
  -- 5514
  | .mvF2 k a n => touch s n <| drop s i n (.rel1 n (.evictOld k a)) (.me1 k a)
  -- 5516
  | .mv4 k a n => touch s a <| at_ (mmRemove s a).1 i (.mv5 k a n)
  -- 5478
  | .mv5 k a n => touch s a <| at_ (setW s a (unmarkMoving (s.word a)).1) i (.mv6 k a n)
  -- 5479, 3985-3988
  | .mv6 k a n =>
    touch s a <|
      at_ { s with mctx := upd s.mctx (s.key a) [] } i (.mv7 k a n (s.mctx (s.key a)) false)
  -- 2483-2502
  | .mv7 k a n ws ov =>
    match ws with
    | [] => at_ s i (.mv8 k a n)
    | w :: ws =>
      if ov then at_ { s with mail := ⟨w, k, none⟩ :: s.mail } i (.mv7 k a n ws true)
      else
        touch s n <|
          match incRef (s.word n) with
          | .error _ => at_ { s with lost := w :: s.lost } i (.mv7 k a n ws true)
          | .ok (v, .ok) => at_ { setW s n v with mail := ⟨w, k, some n⟩ :: s.mail } i (.mv7 k a n ws false)
          | _ => bad s
  -- destruction of the handle
  | .mv8 _ a n => touch s n <| drop s i n (.rel1 n (.freeOld a)) (.mv9 a)
  -- 5554-5556
  | .mv9 a => touch s a <| at_ (free s a) i .idle
  -- 5615
  | .me1 k a => touch s a <| at_ (setW s a (markForEvictionWhenMoving (s.word a))) i (.me2 k a)
  -- 4110
  | .me2 k a => if canX s (s.key a) then touch s a <| at_ (acRemove s a) i (.me3 k a) else s
  -- 4111
  | .me3 k a => touch s a <| at_ (mmRemove s a).1 i (.me4 k a)
  -- 4115
  | .me4 k a => touch s a <| at_ (setW s a (unmarkForEviction (s.word a)).1) i (.me5 k a)
  -- 5622, 3985-3988
  | .me5 k a =>
    touch s a <| at_ { s with mctx := upd s.mctx (s.key a) [] } i (.me6 k a (s.mctx (s.key a)))
  -- 2483-2502 with a null handle; then 5643
  | .me6 k a ws =>
    match ws with
    | [] => at_ s i (.rel1 a .done)
    | w :: ws => at_ { s with mail := ⟨w, k, none⟩ :: s.mail } i (.me6 k a ws)

/-- Calls, begun by an idle thread; `j` is the position of a handle of the user. -/
inductive Op where
  | allocate (k : Key)
  | find (k : Key)
  | clone (j : Nat)
  | release (j : Nat)
  | insert (j : Nat)
  | insertOrReplace (j : Nat)
  | remove (j : Nat)
  | removeIfExpired (j : Nat)
  | replace (j j' : Nat)
  | slabRelease (a : Addr)
  /-- consume a ready wait context -/
  | take (j : Nat)
deriving DecidableEq, Repr

/-- the user obligation about concurrent inserts of one item -/
def mayInsert (cfg : Cfg) (s : State) (a : Addr) : Bool :=
  !cfg.oneInserter || s.thr.all fun q => !q.inserting a

/-- Begin of a call by thread `i`, which is idle. -/
def start (cfg : Cfg) (s : State) (i : Nat) : Op → State
  -- CacheAllocator.h:3114
  | .allocate k => at_ s i (.alloc k .user)
  -- CacheAllocator.h:1633, ChainedHashTable.h:1302-1306
  | .find k =>
    if canS s k then
      match s.idx k with
      | none => s
      | some a => at_ s i (.find k a)
    else s
  -- Handle.h:251-258
  | .clone j =>
    match s.usr[j]? with
    | none => s
    | some h =>
      touch s h.a <|
        match incRef (s.word h.a) with
        | .error _ => s
        | .ok (w, .ok) => { setW s h.a w with usr := h :: s.usr }
        | _ => bad s
  -- Handle.h:65-85, CacheAllocator.h:3762-3776; a handle is not destroyed while a call uses it
  | .release j =>
    match s.usr[j]? with
    | none => s
    | some h =>
      if 2 ≤ s.usr.countP (fun g => g.a = h.a) ∨ s.thr.all (fun q => !q.borrow h.a) then
        touch s h.a <| drop { s with usr := s.usr.eraseIdx j } i h.a (.rel1 h.a .done) .idle
      else s
  -- 3853
  | .insert j =>
    match s.usr[j]? with
    | none => s
    | some h =>
      if mayInsert cfg s h.a then
        touch s h.a <| if isBit kAccessible (s.word h.a) then s else at_ s i (.ins1 h.k h.a)
      else s
  -- 3884
  | .insertOrReplace j =>
    match s.usr[j]? with
    | none => s
    | some h =>
      if mayInsert cfg s h.a then
        touch s h.a <| if isBit kAccessible (s.word h.a) then s else at_ s i (.ior1 h.k h.a)
      else s
  -- 4492
  | .remove j =>
    match s.usr[j]? with
    | none => s
    | some h => at_ s i (.rm1 h.k h.a)
  -- 5648
  | .removeIfExpired j =>
    match s.usr[j]? with
    | none => s
    | some h => at_ s i (.rx1 h.k h.a)
  -- 3410 (called by transferChainAndReplace, 3403, with parents of the same key, 3357; 3412)
  | .replace j j' =>
    match s.usr[j]?, s.usr[j']? with
    | some h, some h' =>
      if h.k = h'.k ∧ h.a ≠ h'.a ∧ mayInsert cfg s h'.a = true ∧ isBit kAccessible (s.word h'.a) = false then
        at_ s i (.rp1 h.k h.a h'.a)
      else s
    | _, _ => s
  -- 5667-5720 with AllocationClass processAllocForRelease: the callback runs only if `a` is not free
  | .slabRelease a =>
    if s.mem a then
      if isBit kLinked (s.word a) then
        match markMoving (s.word a) with
        | (w, true) => at_ (setW s a w) i (.mv1 (s.key a) a)
        | _ => s
      else s
    else s
  -- Handle.h:263-277: the user reads a ready handle
  | .take j =>
    match s.mail[j]? with
    | none => s
    | some m =>
      if s.thr.any (fun q => match q with | .ior6 _ _ _ (.wait w) | .ior5 _ _ _ (.wait w) | .iorWait _ _ w => w = m.w | _ => false) then s
      else
        let s := { s with mail := s.mail.eraseIdx j, done := m.w :: s.done }
        match m.r with
        | none => s
        | some a => { s with usr := ⟨m.k, a⟩ :: s.usr }

/-- An action of the system. -/
inductive Act where
  | start (i : Nat) (op : Op)
  | go (i : Nat) (ch : Ch)
deriving DecidableEq, Repr

/-- One step. -/
def step (cfg : Cfg) (s : State) : Act → State
  | .start i op =>
    match s.thr[i]? with
    | some .idle => start cfg s i op
    | _ => s
  | .go i ch =>
    match s.thr[i]? with
    | none => s
    | some p => go cfg s i ch p

/-- A run. -/
def run (cfg : Cfg) (s : State) (as : List Act) : State := as.foldl (step cfg) s

end Verif.CacheProto
