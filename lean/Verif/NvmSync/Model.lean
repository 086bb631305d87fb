/-
Protocol between RAM cache and flash cache for one key, as a transition system over any number of
threads: CacheAllocator::insertOrReplace / remove / find / eviction (CacheAllocator.h) and
NvmCache::createDeleteTombStone / find / put / remove / onGetComplete / evictCB (NvmCache.h).

What is simplified:
* One key.  Operations on other keys influence it only through (i) `putContexts_[shard].hasContexts()`
  which may be true because of other keys, (ii) delays on shard locks, (iii) admission, expiry,
  allocation and encoding failures: all are free choices here.
* A value is a version number, fresh per insertOrReplace.
* Tombstones: by C29 (`TombStones.isPresent_iff_alive`) a tombstone is present exactly while a guard
  is alive; guards live in a thread executing remove or in a queued/running remove job.
* In-flight put token: by C30 one entry per key; `token` is that entry (valid flag, owner is ghost).
* Flash requests for one key run in FIFO order one at a time (scheduler, property C32); each request
  is "effect on the engine" followed by the steps of its callback.  `couldExist` never denies a stored
  key (C24), the engine may drop a key at any time.
* Reference counts appear as "some thread holds a handle" (`Held`), by C01 this blocks eviction; user
  handles that outlive the calls only reduce the possible steps.  A handle fixes the item's NvmClean
  flag; `findToWrite`/`invalidateNvm`, chained items and remove by handle/iterator are not modelled.
* The item-destructor lock and the itemRemoved_ set only influence destructor calls: not modelled.
-/
namespace Verif.NvmSync

/-- Exclusive state of an item in RAM (Refcount.h markForEviction / markMoving, C03). -/
inductive Mark where
  | free
  | moving
  | excl
deriving DecidableEq, Repr

/-- An item in RAM: identity, value version, NvmClean and NvmEvicted flags (CacheItem.h). -/
structure Item where
  id : Nat
  ver : Nat
  clean : Bool
  evicted : Bool
  mark : Mark
deriving DecidableEq, Repr

/-- Program points of NvmCache::remove (NvmCache.h:1621-1674), tombstone guard held. -/
inductive Rm where
  | start   -- line 1622 isEnabled
  | inval   -- line 1634 invalidateToken
  | ctx     -- line 1645 hasContexts
  | exist   -- line 1645 couldExist
  | enq     -- lines 1649-1673 create context and enqueue removeAsync
deriving DecidableEq, Repr

/-- Program points of insertOrReplace (CacheAllocator.h:3882-3938) and remove
(CacheAllocator.h:4360-4420, 4492-4540). -/
inductive WSt where
  | ins              -- line 3897 accessContainer_->insertOrReplace
  | tomb             -- createDeleteTombStone, tombstones_.add (NvmCache.h:692)
  | sync             -- createDeleteTombStone, fill lock (NvmCache.h:704)
  | find             -- remove: findInternal (CacheAllocator.h:4410)
  | impl (it : Item) -- removeImpl: accessContainer_->remove (4503)
  | flag (it : Item) -- removeImpl: isNvmClean (4522)
  | rm (r : Rm)      -- NvmCache::remove
  | ret              -- about to return
deriving DecidableEq, Repr

/-- Thread states.  `w lim k st`: a write operation, `k = some (version, item id)` for
insertOrReplace and `none` for remove; `lim` is ghost: versions below `lim` had been inserted (their
insertOrReplace had returned) when this operation started.  `ev…`: evicting an item
(CacheAllocator.h:4122-4261, 5605-5640).  `fd…`: a find (CacheAllocator.h:4700-4716,
NvmCache.h:715-843), `n` is ghost: versions below `n` were dead when the find started. -/
inductive PC where
  | idle
  | w (lim : Nat) (k : Option (Nat × Nat)) (st : WSt)
  | evMoving (it : Item)
  | evMovTok (it : Item) (tok : Bool)
  | evTok (it : Item) (tok : Bool)
  | evPut (it : Item)
  | evCtx (it : Item)
  | fdRam (n : Nat)
  | fdNvm (n : Nat)
  | fdInval (n : Nat)
  | fdShared (n : Nat)
  | fdLock (n : Nat)
  | fdRam2 (n : Nat)
  | fdFill (n : Nat)
  | fdEnq (n : Nat)
  | fdWait (n : Nat) (joined : Option Nat)
  | fdRet (n : Nat) (joined : Option Nat) (r : Option Nat)
deriving DecidableEq, Repr

/-- Requests queued to flash for the key (NvmCache.h:835, 1285, 1672). -/
inductive Job where
  | insert (v : Nat)
  | remove
  | lookup
deriving DecidableEq, Repr

/-- Result of a flash lookup (navy::Status in NvmCache.h:1352). -/
inductive LkRes where
  | miss
  | err
  | hit (v : Nat)
deriving DecidableEq, Repr

/-- Progress of the request at the head of the queue and of its callback (NvmCache.h:1287-1303,
1338-1429, 1654-1670). -/
inductive Run where
  | idle
  | insDone
  | remDone
  | remFailed
  | disabling
  | lkGot (r : LkRes)
  | lkOpen (v : Nat)
  | lkLocked (v : Nat)
  | lkChecked (v : Nat)
  | lkErrTomb
  | lkErrSync
  | lkErr (r : Rm)
  | lkDone
deriving DecidableEq, Repr

/-- GetCtx (NvmCache.h:426-495): validity, the handle set by the fill; `snap` is ghost: versions below
it were dead when the lookup was started. -/
structure Ctx where
  valid : Bool
  it : Option Nat
  snap : Nat
deriving DecidableEq, Repr

/-- Holder of the fill lock of the shard (NvmCache.h:544). -/
inductive Holder (n : Nat) where
  | worker
  | thr (t : Fin n)
deriving DecidableEq, Repr

/-- Global state; `retBelow`, `deadBelow` are ghost: every version below `retBelow` has been inserted
by an insertOrReplace that returned, and versions below `deadBelow` are dead, i.e. a later remove or
overwrite has returned. -/
structure State (n : Nat) where
  ram : Option Item
  token : Option (Bool × Fin n)
  fill : Option Ctx
  lock : Option (Holder n)
  queue : List Job
  run : Run
  navy : Option Nat
  enabled : Bool
  nextVer : Nat
  nextId : Nat
  retBelow : Nat
  deadBelow : Nat
  pc : Fin n → PC

/-- Empty cache (NvmCache.h:569-611). -/
def init (n : Nat) : State n :=
  ⟨none, none, none, none, [], .idle, none, true, 0, 0, 0, 0, fun _ => .idle⟩

/-- Which behaviours are admitted.  `serial`: writes (insertOrReplace, remove) of the key do not
overlap each other.  `atomicEvict`: the engine's eviction callback (evictCB) takes effect together
with the engine dropping the key; in the code it runs afterwards (BlockCache.cpp:713-729,
BigHash.cpp:355-364).  `faults`: flash removes may fail and flash may get disabled. -/
structure Cfg where
  serial : Bool
  atomicEvict : Bool
  faults : Bool

variable {n : Nat}

/-- write of one thread's state. -/
def State.setPc (s : State n) (t : Fin n) (p : PC) : State n :=
  { s with pc := fun x => if x = t then p else s.pc x }

/-- A tombstone guard is held by a thread in these states (CacheAllocator.h:4408, 3925,
NvmCache.h:692-706,1621). -/
def PC.holdsTomb : PC → Bool
  | .w _ _ .sync => true
  | .w _ _ .find => true
  | .w _ _ (.impl _) => true
  | .w _ _ (.flag _) => true
  | .w _ _ (.rm _) => true
  | _ => false

/-- The callback of a failed lookup holds a tombstone guard (NvmCache.h:1357, 1387). -/
def Run.holdsTomb : Run → Bool
  | .lkErrSync => true
  | .lkErr _ => true
  | _ => false

/-- NvmCache::hasTombStone (NvmCache.h:710-712) with C29. -/
def HasTomb (s : State n) : Prop :=
  (∃ t, (s.pc t).holdsTomb = true) ∨ s.run.holdsTomb = true ∨ Job.remove ∈ s.queue

/-- A put context exists for this key: created (NvmCache.h:1274) and not yet destroyed (1277, 1302). -/
def HasPutCtx (s : State n) : Prop :=
  (∃ t it, s.pc t = .evCtx it) ∨ ∃ v, Job.insert v ∈ s.queue

/-- A thread holds a handle to the item: the caller's handle during insertOrReplace, the handle found
by remove (CacheAllocator.h:3882, 4410). -/
def PC.holds : PC → Nat → Bool
  | .w _ (some (_, id)) .ins, i => id == i
  | .w _ (some (_, id)) _, i => id == i
  | .w _ none (.impl it), i => it.id == i
  | .w _ none (.flag it), i => it.id == i
  | _, _ => false

/-- some thread holds a handle to item `i` (C01: eviction of it can not start). -/
def Held (s : State n) (i : Nat) : Prop := ∃ t, (s.pc t).holds i = true

/-- a write operation is in progress in this thread. -/
def PC.isWriter : PC → Bool
  | .w _ _ _ => true
  | _ => false

/-- Result of looking the key up in RAM (CacheAllocator.h:1633, 3719-3741): an item being evicted is a
miss; an item being moved blocks. -/
inductive Look where
  | hit (it : Item)
  | miss
  | blocked
deriving DecidableEq, Repr

/-- findInternal (CacheAllocator.h:1633-1637, 3719-3741). -/
def look (ram : Option Item) : Look :=
  match ram with
  | none => .miss
  | some it => match it.mark with
    | .free => .hit it
    | .excl => .miss
    | .moving => .blocked

/-- InFlightPuts::invalidateToken (InFlightPuts.h:78-84). -/
def invalidate (tk : Option (Bool × Fin n)) : Option (Bool × Fin n) := tk.map fun p => (false, p.2)

/-- removal of item `i` from the RAM index if it is the one stored (CacheAllocator.h:4110, 4503). -/
def unlink (ram : Option Item) (i : Nat) : Option Item :=
  match ram with
  | none => none
  | some x => if x.id = i then none else some x

/-- set the exclusive state of the stored item. -/
def setMark (ram : Option Item) (m : Mark) : Option Item := ram.map fun x => { x with mark := m }

/-- release of the put token held by an evictor (PutToken destructor, InFlightPuts.h:91-95). -/
def dropToken (tk : Option (Bool × Fin n)) (tok : Bool) : Option (Bool × Fin n) :=
  if tok then none else tk

/-- GetCtx::invalidate via invalidateFill (NvmCache.h:516-524). -/
def invalidateFill (f : Option Ctx) : Option Ctx := f.map fun c => { c with valid := false }

/-- ~GetCtx wakes the waiters with the handle (NvmCache.h:448-490): a waiting find returns. -/
def wake (it : Option Nat) : PC → PC
  | .fdWait k j => .fdRet k j it
  | p => p

/-- the thread's insertOrReplace, if any, has returned: ghost bookkeeping at return. -/
def retVer (rb : Nat) : Option (Nat × Nat) → Nat
  | some (v, _) => if v = rb then v + 1 else rb
  | none => rb

/-- One step of NvmCache::remove (NvmCache.h:1621-1674): `RmStep s r s' r'` where `r' = none` means
that the function returned.  `hasContexts` may be true for another key of the shard, `couldExist` may
be spuriously true. -/
inductive RmStep : State n → Rm → State n → Option Rm → Prop
  | on (s : State n) (h : s.enabled = true) : RmStep s .start s (some .inval)
  | off (s : State n) (h : s.enabled = false) : RmStep s .start s none
  | inval (s : State n) : RmStep s .inval { s with token := invalidate s.token } (some .ctx)
  | hasCtx (s : State n) : RmStep s .ctx s (some .enq)
  | noCtx (s : State n) (h : ¬ HasPutCtx s) : RmStep s .ctx s (some .exist)
  | could (s : State n) : RmStep s .exist s (some .enq)
  | skip (s : State n) (h : s.navy = none) : RmStep s .exist s none
  | enq (s : State n) : RmStep s .enq { s with queue := s.queue ++ [.remove] } none

/-- where a write operation goes after a step of NvmCache::remove. -/
def afterRm : Option Rm → WSt
  | some r => .rm r
  | none => .ret

/-- where a lookup callback goes after a step of NvmCache::remove (NvmCache.h:1357-1363, 1387-1390). -/
def afterErr : Option Rm → Run
  | some r => .lkErr r
  | none => .lkDone

/-- Steps of the whole system. -/
inductive Step (cfg : Cfg) : State n → State n → Prop
  /-- insertOrReplace called with a fresh item (CacheAllocator.h:3882). -/
  | startIns (s : State n) (t : Fin n) (hi : s.pc t = .idle)
      (hs : cfg.serial = true → ∀ x, (s.pc x).isWriter = false) :
      Step cfg s { s.setPc t (.w s.retBelow (some (s.nextVer, s.nextId)) .ins) with
        nextVer := s.nextVer + 1, nextId := s.nextId + 1 }
  /-- remove called (CacheAllocator.h:4360). -/
  | startDel (s : State n) (t : Fin n) (hi : s.pc t = .idle)
      (hs : cfg.serial = true → ∀ x, (s.pc x).isWriter = false) :
      Step cfg s (s.setPc t (.w s.retBelow none .tomb))
  /-- CacheAllocator.h:3897-3926: replace in the RAM index.  The old item is returned as a handle
  unless it is being evicted; the flash copy must be removed unless a non-clean item was replaced. -/
  | insNone (s : State n) (t : Fin n) (lim v id : Nat)
      (hp : s.pc t = .w lim (some (v, id)) .ins) (hl : look s.ram = .miss) :
      Step cfg s { s.setPc t (.w lim (some (v, id)) .tomb) with
        ram := some ⟨id, v, false, false, .free⟩ }
  | insRepl (s : State n) (t : Fin n) (lim v id : Nat) (old : Item)
      (hp : s.pc t = .w lim (some (v, id)) .ins) (hl : look s.ram = .hit old) :
      Step cfg s { s.setPc t (.w lim (some (v, id)) (if old.clean then .tomb else .ret)) with
        ram := some ⟨id, v, false, false, .free⟩ }
  /-- createDeleteTombStone, NvmCache.h:692: guard added. -/
  | wTomb (s : State n) (t : Fin n) (lim : Nat) (k : Option (Nat × Nat))
      (hp : s.pc t = .w lim k .tomb) : Step cfg s (s.setPc t (.w lim k .sync))
  /-- createDeleteTombStone, NvmCache.h:704: the fill lock is taken and released. -/
  | wSync (s : State n) (t : Fin n) (lim : Nat) (k : Option (Nat × Nat))
      (hp : s.pc t = .w lim k .sync) (hl : s.lock = none) :
      Step cfg s (s.setPc t (.w lim k (if k.isSome then .rm .start else .find)))
  /-- remove: findInternal, CacheAllocator.h:4410-4419. -/
  | delMiss (s : State n) (t : Fin n) (lim : Nat) (k : Option (Nat × Nat))
      (hp : s.pc t = .w lim k .find) (hl : look s.ram = .miss) :
      Step cfg s (s.setPc t (.w lim k (.rm .start)))
  | delHit (s : State n) (t : Fin n) (lim : Nat) (k : Option (Nat × Nat)) (it : Item)
      (hp : s.pc t = .w lim k .find) (hl : look s.ram = .hit it) :
      Step cfg s (s.setPc t (.w lim k (.impl it)))
  /-- removeImpl, CacheAllocator.h:4503. -/
  | delImpl (s : State n) (t : Fin n) (lim : Nat) (k : Option (Nat × Nat)) (it : Item)
      (hp : s.pc t = .w lim k (.impl it)) :
      Step cfg s { s.setPc t (.w lim k (.flag it)) with ram := unlink s.ram it.id }
  /-- removeImpl, CacheAllocator.h:4522-4525: flash is skipped for an item that is not NvmClean. -/
  | delFlag (s : State n) (t : Fin n) (lim : Nat) (k : Option (Nat × Nat)) (it : Item)
      (hp : s.pc t = .w lim k (.flag it)) :
      Step cfg s (s.setPc t (.w lim k (if it.clean then .rm .start else .ret)))
  /-- NvmCache::remove called from insertOrReplace / remove. -/
  | wRm (s s1 : State n) (t : Fin n) (lim : Nat) (k : Option (Nat × Nat)) (r : Rm) (r' : Option Rm)
      (hp : s.pc t = .w lim k (.rm r)) (hr : RmStep s r s1 r') :
      Step cfg s (s1.setPc t (.w lim k (afterRm r')))
  /-- the write operation returns; ghost: what it superseded is dead from now on. -/
  | wRet (s : State n) (t : Fin n) (lim : Nat) (k : Option (Nat × Nat))
      (hp : s.pc t = .w lim k .ret) :
      Step cfg s { s.setPc t .idle with
        deadBelow := max s.deadBelow lim, retBelow := retVer s.retBelow k }
  /-- getNextCandidate, CacheAllocator.h:4158-4214: mark for eviction, without flash write. -/
  | evMark (s : State n) (t : Fin n) (it : Item) (hi : s.pc t = .idle) (hr : s.ram = some it)
      (hm : it.mark = .free) (hh : ¬ Held s it.id) :
      Step cfg s { s.setPc t (.evTok it false) with ram := setMark s.ram .excl }
  /-- getNextCandidate, CacheAllocator.h:4187-4208: mark for eviction inside the token callback. -/
  | evMarkTok (s : State n) (t : Fin n) (it : Item) (hi : s.pc t = .idle) (hr : s.ram = some it)
      (hm : it.mark = .free) (hh : ¬ Held s it.id) (ht : s.token = none) :
      Step cfg s { s.setPc t (.evTok it true) with
        ram := setMark s.ram .excl, token := some (true, t) }
  /-- slab release: the item is marked moving first (evictForSlabRelease, CacheAllocator.h:5613). -/
  | evMove (s : State n) (t : Fin n) (it : Item) (hi : s.pc t = .idle) (hr : s.ram = some it)
      (hm : it.mark = .free) (hh : ¬ Held s it.id) :
      Step cfg s { s.setPc t (.evMoving it) with ram := setMark s.ram .moving }
  /-- createPutToken succeeds / fails or is not wanted (CacheAllocator.h:4093-4104, 5614). -/
  | evMoveTok (s : State n) (t : Fin n) (it : Item) (hp : s.pc t = .evMoving it)
      (ht : s.token = none) :
      Step cfg s { s.setPc t (.evMovTok it true) with token := some (true, t) }
  | evMoveNoTok (s : State n) (t : Fin n) (it : Item) (hp : s.pc t = .evMoving it) :
      Step cfg s (s.setPc t (.evMovTok it false))
  /-- markForEvictionWhenMoving (CacheAllocator.h:5615). -/
  | evMoveExcl (s : State n) (t : Fin n) (it : Item) (tok : Bool)
      (hp : s.pc t = .evMovTok it tok) :
      Step cfg s { s.setPc t (.evTok it tok) with ram := setMark s.ram .excl }
  /-- unlinkItemForEviction, then the flash write is admitted (CacheAllocator.h:4242-4248). -/
  | evUnlinkPut (s : State n) (t : Fin n) (it : Item) (hp : s.pc t = .evTok it true) :
      Step cfg s { s.setPc t (.evPut it) with ram := unlink s.ram it.id }
  /-- unlinkItemForEviction without flash write (CacheAllocator.h:4242-4259). -/
  | evUnlinkDrop (s : State n) (t : Fin n) (it : Item) (tok : Bool) (hp : s.pc t = .evTok it tok) :
      Step cfg s { s.setPc t .idle with ram := unlink s.ram it.id, token := dropToken s.token tok }
  /-- NvmCache::put returns early: disabled, expired, tombstone, encode failure (NvmCache.h:1223-1259). -/
  | putAbort (s : State n) (t : Fin n) (it : Item) (hp : s.pc t = .evPut it) :
      Step cfg s { s.setPc t .idle with token := dropToken s.token true }
  /-- NvmCache::put passes all checks and creates its context (NvmCache.h:1223-1275). -/
  | putCtx (s : State n) (t : Fin n) (it : Item) (hp : s.pc t = .evPut it)
      (hc : ¬ (it.clean = true ∧ it.evicted = false)) (he : s.enabled = true) (ht : ¬ HasTomb s) :
      Step cfg s (s.setPc t (.evCtx it))
  /-- executeIfValid runs insertAsync and it is accepted (NvmCache.h:1284-1312). -/
  | putEnq (s : State n) (t o : Fin n) (it : Item) (hp : s.pc t = .evCtx it)
      (ht : s.token = some (true, o)) :
      Step cfg s { s.setPc t .idle with queue := s.queue ++ [.insert it.ver], token := none }
  /-- the token was invalidated or insertAsync is rejected (NvmCache.h:1313-1325). -/
  | putFail (s : State n) (t : Fin n) (it : Item) (hp : s.pc t = .evCtx it) :
      Step cfg s { s.setPc t .idle with token := dropToken s.token true }
  /-- find called (CacheAllocator.h:4700). -/
  | fStart (s : State n) (t : Fin n) (hi : s.pc t = .idle) :
      Step cfg s (s.setPc t (.fdRam s.deadBelow))
  /-- RAM hit (CacheAllocator.h:4701-4705). -/
  | fHit (s : State n) (t : Fin n) (m : Nat) (it : Item) (hp : s.pc t = .fdRam m)
      (hl : look s.ram = .hit it) : Step cfg s (s.setPc t (.fdRet m none (some it.ver)))
  /-- RAM miss, or the item is expired (CacheAllocator.h:4645-4655, 4707-4715). -/
  | fMiss (s : State n) (t : Fin n) (m : Nat) (hp : s.pc t = .fdRam m)
      (hl : look s.ram ≠ .blocked) : Step cfg s (s.setPc t (.fdNvm m))
  /-- NvmCache::find, enabled check (NvmCache.h:716). -/
  | fOff (s : State n) (t : Fin n) (m : Nat) (hp : s.pc t = .fdNvm m) (he : s.enabled = false) :
      Step cfg s (s.setPc t (.fdRet m none none))
  | fOn (s : State n) (t : Fin n) (m : Nat) (hp : s.pc t = .fdNvm m) (he : s.enabled = true) :
      Step cfg s (s.setPc t (.fdInval m))
  /-- NvmCache.h:724 invalidateToken. -/
  | fInval (s : State n) (t : Fin n) (m : Nat) (hp : s.pc t = .fdInval m) :
      Step cfg s { s.setPc t (.fdShared m) with token := invalidate s.token }
  /-- NvmCache.h:791-798 shared section: RAM hit, fast miss (or expired), or go on. -/
  | fSharedHit (s : State n) (t : Fin n) (m : Nat) (it : Item) (hp : s.pc t = .fdShared m)
      (hl : look s.ram = .hit it) : Step cfg s (s.setPc t (.fdRet m none (some it.ver)))
  | fSharedMiss (s : State n) (t : Fin n) (m : Nat) (hp : s.pc t = .fdShared m) :
      Step cfg s (s.setPc t (.fdRet m none none))
  | fSharedGo (s : State n) (t : Fin n) (m : Nat) (hp : s.pc t = .fdShared m)
      (hl : look s.ram = .miss) : Step cfg s (s.setPc t (.fdLock m))
  /-- NvmCache.h:801 exclusive fill lock. -/
  | fLock (s : State n) (t : Fin n) (m : Nat) (hp : s.pc t = .fdLock m) (hl : s.lock = none) :
      Step cfg s { s.setPc t (.fdRam2 m) with lock := some (.thr t) }
  /-- NvmCache.h:804-806 recheck under the lock. -/
  | fRam2Hit (s : State n) (t : Fin n) (m : Nat) (it : Item) (hp : s.pc t = .fdRam2 m)
      (hl : look s.ram = .hit it) :
      Step cfg s { s.setPc t (.fdRet m none (some it.ver)) with lock := none }
  | fRam2Miss (s : State n) (t : Fin n) (m : Nat) (hp : s.pc t = .fdRam2 m) :
      Step cfg s { s.setPc t (.fdRet m none none) with lock := none }
  | fRam2Go (s : State n) (t : Fin n) (m : Nat) (hp : s.pc t = .fdRam2 m)
      (hl : look s.ram = .miss) : Step cfg s (s.setPc t (.fdFill m))
  /-- NvmCache.h:814-819: join the lookup that is in the fill map. -/
  | fJoin (s : State n) (t : Fin n) (m : Nat) (c : Ctx) (hp : s.pc t = .fdFill m)
      (hf : s.fill = some c) :
      Step cfg s { s.setPc t (.fdWait m (if c.it.isSome then some c.snap else none)) with
        lock := none }
  /-- NvmCache.h:821-830: create the context and register it. -/
  | fCreate (s : State n) (t : Fin n) (m : Nat) (hp : s.pc t = .fdFill m) (hf : s.fill = none) :
      Step cfg s { s.setPc t (.fdEnq m) with
        lock := none, fill := some ⟨true, none, s.deadBelow⟩ }
  /-- NvmCache.h:835 lookupAsync. -/
  | fEnq (s : State n) (t : Fin n) (m : Nat) (hp : s.pc t = .fdEnq m) :
      Step cfg s { s.setPc t (.fdWait m none) with queue := s.queue ++ [.lookup] }
  /-- the find returned to the user. -/
  | fEnd (s : State n) (t : Fin n) (m : Nat) (j r : Option Nat) (hp : s.pc t = .fdRet m j r) :
      Step cfg s (s.setPc t .idle)
  /-- engine insert: stored; failed leaving the old value; failed losing it (Engine.h insert). -/
  | jInsert (s : State n) (v : Nat) (q : List Job) (res : Option Nat) (hq : s.queue = .insert v :: q)
      (hr : s.run = .idle) (hres : res = some v ∨ res = s.navy ∨ res = none) :
      Step cfg s { s with navy := res, run := .insDone }
  /-- insert callback: put context destroyed (NvmCache.h:1287-1303). -/
  | jInsertCb (s : State n) (j : Job) (q : List Job) (hq : s.queue = j :: q) (hr : s.run = .insDone) :
      Step cfg s { s with queue := q, run := .idle }
  /-- engine remove. -/
  | jRemove (s : State n) (q : List Job) (hq : s.queue = .remove :: q) (hr : s.run = .idle) :
      Step cfg s { s with navy := none, run := .remDone }
  /-- remove callback: context with the tombstone destroyed (NvmCache.h:1662). -/
  | jRemoveCb (s : State n) (j : Job) (q : List Job) (hq : s.queue = j :: q) (hr : s.run = .remDone) :
      Step cfg s { s with queue := q, run := .idle }
  /-- engine remove fails; the callback drops the tombstone and then disables flash
  (NvmCache.h:1662-1669). -/
  | jRemoveFail (s : State n) (q : List Job) (hf : cfg.faults = true) (hq : s.queue = .remove :: q)
      (hr : s.run = .idle) : Step cfg s { s with run := .remFailed }
  | jRemoveFailCb (s : State n) (j : Job) (q : List Job) (hq : s.queue = j :: q)
      (hr : s.run = .remFailed) : Step cfg s { s with queue := q, run := .disabling }
  | jDisable (s : State n) (hr : s.run = .disabling) :
      Step cfg s { s with enabled := false, run := .idle }
  /-- flash disabled because of a request for another key (NvmCache.h:1294, 1613-1618). -/
  | disable (s : State n) (hf : cfg.faults = true) : Step cfg s { s with enabled := false }
  /-- engine lookup: found what is stored, not found, or an error. -/
  | jLookup (s : State n) (q : List Job) (res : LkRes) (hq : s.queue = .lookup :: q)
      (hr : s.run = .idle) (hres : res = .miss ∨ res = .err ∨ ∃ v, s.navy = some v ∧ res = .hit v) :
      Step cfg s { s with run := .lkGot res }
  /-- onGetComplete: disabled, not found or expired (NvmCache.h:1348-1379). -/
  | lkMiss (s : State n) (r : LkRes) (hr : s.run = .lkGot r) : Step cfg s { s with run := .lkDone }
  /-- onGetComplete: error status (NvmCache.h:1352-1357) or createItem failed (1382-1387). -/
  | lkError (s : State n) (r : LkRes) (hr : s.run = .lkGot r) : Step cfg s { s with run := .lkErrTomb }
  | lkErrTomb (s : State n) (hr : s.run = .lkErrTomb) : Step cfg s { s with run := .lkErrSync }
  | lkErrSync (s : State n) (hr : s.run = .lkErrSync) (hl : s.lock = none) :
      Step cfg s { s with run := .lkErr .start }
  | lkErrRm (s s1 : State n) (r : Rm) (r' : Option Rm) (hr : s.run = .lkErr r)
      (hs : RmStep s r s1 r') : Step cfg s { s1 with run := afterErr r' }
  /-- onGetComplete: enabled, value decoded and an item created (NvmCache.h:1348-1393). -/
  | lkOpen (s : State n) (v : Nat) (hr : s.run = .lkGot (.hit v)) (he : s.enabled = true) :
      Step cfg s { s with run := .lkOpen v }
  /-- NvmCache.h:1395 fill lock. -/
  | lkLock (s : State n) (v : Nat) (hr : s.run = .lkOpen v) (hl : s.lock = none) :
      Step cfg s { s with run := .lkLocked v, lock := some .worker }
  /-- NvmCache.h:1396-1402: a tombstone or an invalidated context cancels the fill. -/
  | lkCancel (s : State n) (v : Nat) (hr : s.run = .lkLocked v) :
      Step cfg s { s with run := .lkDone, lock := none }
  | lkCheck (s : State n) (v : Nat) (c : Ctx) (hr : s.run = .lkLocked v) (ht : ¬ HasTomb s)
      (hf : s.fill = some c) (hv : c.valid = true) : Step cfg s { s with run := .lkChecked v }
  /-- NvmCache.h:1425-1428: inserted into RAM if the key is not there, lock released. -/
  | lkInsert (s : State n) (v : Nat) (c : Ctx) (hr : s.run = .lkChecked v) (hram : s.ram = none)
      (hf : s.fill = some c) :
      Step cfg s { s with
        ram := some ⟨s.nextId, v, true, false, .free⟩, nextId := s.nextId + 1,
        fill := some { c with it := some v }, lock := none, run := .lkDone }
  | lkExists (s : State n) (v : Nat) (it : Item) (hr : s.run = .lkChecked v) (hram : s.ram = some it) :
      Step cfg s { s with lock := none, run := .lkDone }
  /-- removeFromFillMap and ~GetCtx (NvmCache.h:499-512, 448-490, 1343). -/
  | lkDone (s : State n) (j : Job) (q : List Job) (c : Ctx) (hq : s.queue = j :: q)
      (hr : s.run = .lkDone) (hl : s.lock = none) (hf : s.fill = some c) :
      Step cfg s { s with
        queue := q, run := .idle, fill := none, pc := fun t => wake c.it (s.pc t) }
  /-- the engine evicts the key and its callback invalidates the fill (NvmCache.h:922-926). -/
  | navyEvict (s : State n) (hl : s.lock = none) :
      Step cfg s { s with navy := none, fill := invalidateFill s.fill }
  /-- the engine drops the key; the callback has not run yet (BlockCache.cpp:713-729). -/
  | navyDrop (s : State n) (ha : cfg.atomicEvict = false) : Step cfg s { s with navy := none }
  /-- evictCB: invalidateFill (NvmCache.h:926). -/
  | evictCb (s : State n) (hl : s.lock = none) :
      Step cfg s { s with fill := invalidateFill s.fill }
  /-- evictCB: mark the RAM item NvmEvicted (NvmCache.h:1005-1017). -/
  | markEvicted (s : State n) (it : Item) (hl : look s.ram = .hit it) (hc : it.clean = true) :
      Step cfg s { s with ram := some { it with evicted := true } }

/-- All executions from the empty cache. -/
inductive Reach (cfg : Cfg) : State n → Prop
  | init : Reach cfg (init n)
  | step {s s' : State n} : Reach cfg s → Step cfg s s' → Reach cfg s'

end Verif.NvmSync
