/-
Item destructors with a RAM cache and an NVM cache: which of the two calls the destructor of an item.  CacheAllocator.h
(insertOrReplace, removeImpl, invalidateNvm, eviction, moving, reaping, releaseBackToAllocator) and nvmcache/NvmCache.h (put, find,
remove, onGetComplete, evictCB, itemRemoved_), as a transition system for one key.

What is simplified:
* One key.  Other keys matter only through free choices: admission, expiry, put contexts of the shard, failures.
* A step is a critical section of the item-destructor lock or of the fill lock, an operation on the put token, a request of the
  engine with its callback, or an operation on the reference word.  (C28 looks at the steps of put, find and remove one by one.)
* An item marked for eviction is taken out of the index in the same step: in between, lookups and replacements do not see it
  (C43); inserting a filled item fails while it is there, so that a fill may be dropped at any time here.
* A move (markMoving ... unmarkMoving) is one step: who meets a moving item waits for the end of the move.
* References are handles of users and of threads; they do not overflow.  Chained items go with their parent.
* Requests for a key run in the order they were made (C32); tombstones and put tokens are as in C29, C30.
* No makeObjCb (NvmCache.h:1449-1480), with which objects that were never in the cache are destroyed as well.
* NVM stays enabled, memory for the callback's item can be had (NvmCache.h:1054).
-/
namespace Verif.Destructor

/-- Which wrong or unusual behaviours are excluded.  `serial`: writes (insertOrReplace, remove, getting a writable handle) of the
key do not overlap.  `keepFlag`: moveRegularItem copies NvmEvicted, too (CacheAllocator.h:4011-4013 does not).  `noReap`: the reaper
does not remove the item (CacheAllocator.h:5648-5664).  `atomicCb`: the engine drops an item and calls back in one step
(BlockCache.cpp:713-729 and BigHash.cpp:355-364 do not).  `noFail`: removing from the engine does not fail (BlockCache.cpp:627-630).
`fresh`: an item that was removed is not inserted again. -/
structure Cfg where
  serial : Bool := true
  keepFlag : Bool := true
  noReap : Bool := true
  atomicCb : Bool := true
  noFail : Bool := true
  fresh : Bool := true
deriving DecidableEq, Repr

/-- An item in RAM: its memory, which inserted value it is, the flags NvmClean and NvmEvicted (CacheItem.h:243-258), references. -/
structure Item where
  id : Nat
  ver : Nat
  clean : Bool
  nvmEv : Bool
  refs : Nat
deriving DecidableEq, Repr

/-- NvmClean and not NvmEvicted: NVM has a copy, or one is queued (CacheAllocator.h:3613, 3899, 4506, 4548). -/
def Item.inNvm (it : Item) : Bool := it.clean && !it.nvmEv

/-- A thread that evicts: the item, whether it has a put token, whether it is done with NVM (CacheAllocator.h:4242-4260). -/
structure Ev where
  it : Item
  tok : Bool
  done : Bool := false
deriving DecidableEq, Repr

/-- Requests queued to NVM (NvmCache.h:835, 1285, 1672). -/
inductive Job
  | insert (v : Nat)
  | remove
  | lookup
deriving DecidableEq, Repr

/-- GetCtx (NvmCache.h:426-495): valid, and what the engine returned, if it did. -/
structure Fill where
  valid : Bool
  run : Option (Option Nat) := none
deriving DecidableEq, Repr

/-- A write in progress: remove that has its tombstone and has yet to look for the item; or a write that is after its critical
section: whether it has to remove from NVM, whether it holds a tombstone, and the item whose handle it was given. -/
inductive Writer
  | rmCrit
  | tail (rm tomb : Bool) (hold : Option Nat)
deriving DecidableEq, Repr

/-- `tombs`: tombstones held by others than writes and queued removes.  `cbs`: what the engine dropped without having called back.
`dtor`: the calls of the destructor so far.  `threw`: put threw (NvmCache.h:1223-1226). -/
structure State where
  next : Nat := 0
  nextId : Nat := 0
  ram : Option Item := none
  gone : List Item := []
  cand : List (Nat × Bool) := []
  ev : List Ev := []
  token : Option Bool := none
  queue : List Job := []
  fill : Option Fill := none
  writers : List Writer := []
  tombs : Nat := 0
  nvm : Option Nat := none
  cbs : List Nat := []
  removed : Bool := false
  dtor : List Nat := []
  threw : Bool := false
deriving DecidableEq, Repr

def Writer.tombstone : Writer → Bool
  | .rmCrit => true
  | .tail _ t _ => t

/-- hasTombStone (NvmCache.h:710-712): a queued remove has one, too (1650). -/
def State.hasTomb (s : State) : Bool := decide (0 < s.tombs) || decide (Job.remove ∈ s.queue) || s.writers.any Writer.tombstone

def Job.isInsert : Job → Bool
  | .insert _ => true
  | _ => false

/-- The write holds a handle of the item, for the whole of the call. -/
def Writer.holds (id : Nat) : Writer → Bool
  | .tail _ _ (some i) => i == id
  | _ => false

def State.held (s : State) (id : Nat) : Nat := if s.writers.any (Writer.holds id) then 1 else 0

/-- NvmCache::remove with the tombstone of the caller (NvmCache.h:1621-1674).  `skip`: there was nothing to remove (1645-1648). -/
def State.nvmRemove (s : State) (skip : Bool) : Option State :=
  let s : State := { s with token := s.token.map fun _ => false }
  if skip then
    if s.nvm = none ∧ s.queue.any Job.isInsert = false then some s else none
  else some { s with queue := s.queue ++ [.remove] }

/-- evictCB (NvmCache.h:922-1073) for value `v`; `putFailed`: the event is PutFailed. -/
def State.evictCB (s : State) (v : Nat) (putFailed : Bool) : State :=
  let s : State := { s with fill := s.fill.map fun f => ({ f with valid := false } : Fill) }
  match s.ram with
  | some it =>
    if it.clean then { s with ram := some { it with nvmEv := true } }
    else if !putFailed && s.removed then { s with removed := false }
    else { s with dtor := v :: s.dtor }
  | none =>
    if !putFailed && s.removed then { s with removed := false }
    else { s with dtor := v :: s.dtor }

/-- insertOrReplace up to the end of its critical section, of item `it` (CacheAllocator.h:3882-3904).  The handle of the replaced item
can be released any time later. -/
def State.insertCrit (s : State) (it : Item) : State :=
  match s.ram with
  | none => { s with ram := some it, writers := .tail true false (some it.id) :: s.writers }
  | some o =>
    { s with ram := some it, gone := { o with refs := o.refs + 1 } :: s.gone, removed := s.removed || o.inNvm,
             writers := .tail o.clean false (some it.id) :: s.writers }

/-- removeImpl, critical section (CacheAllocator.h:4498-4512), after findInternal (4410). -/
def State.removeCrit (s : State) : State × Writer :=
  match s.ram with
  | none => (s, .tail true true none)
  | some o =>
    ({ s with ram := none, gone := { o with refs := o.refs + 1 } :: s.gone, removed := s.removed || o.inNvm },
      .tail o.clean true none)

/-- releaseBackToAllocator: whether the destructor is called, for an item that was not evicted, and for one that was
(CacheAllocator.h:3608-3630).  Items that were never inserted are not in the model. -/
def skipDtor (evicted : Bool) (it : Item) : Bool := evicted && it.clean && !it.nvmEv

def State.freeItem (s : State) (evicted : Bool) (it : Item) : State :=
  if skipDtor evicted it then s else { s with dtor := it.ver :: s.dtor }

/-- What can happen. -/
inductive Act
  | insert                              -- CacheAllocator.h:3882-3904
  | reinsert (i : Nat)                  -- the same with an item that had been removed
  | removeStart                         -- 4408, 4472, 4486 createDeleteTombStone
  | removeCrit (w : Nat)                -- 4410, 4498-4512
  | mutate                              -- 4543-4554 invalidateNvm
  | wTomb (w : Nat)                     -- 3925, 4555 createDeleteTombStone
  | wFinish (w : Nat) (skip : Bool)     -- 3921-3927, 4522-4525, 4555 and return
  | otherStart                          -- 1357, 1387 createDeleteTombStone; 4486 with an item that is not in the cache
  | otherFinish (skip : Bool)           -- 1357, 1387, 4524 NvmCache::remove
  | acquire                             -- 3719-3741: a handle of the item in RAM
  | release                             -- 3762-3776, the item is in RAM
  | releaseGone (i : Nat)               -- 3762-3776, it is not
  | reap                                -- 5648-5664
  | move                                -- 3996-4052, 5484-5559
  | look                                -- 4159, 4094 shouldWriteToNvmCache
  | mark (want tok : Bool)              -- 4161-4242: marked for eviction and unlinked
  | put (i : Nat) (admit : Bool)        -- 4245-4259, NvmCache::put
  | free (i : Nat)                      -- 4289, 5643 releaseBackToAllocator
  | invalidate                          -- NvmCache.h:724, 854 invalidateToken
  | lookup                              -- NvmCache.h:800-841
  | jobInsert (ok big : Bool)           -- the engine inserts; NvmCache.h:1287-1303
  | jobRemove (ok : Bool)               -- the engine removes; NvmCache.h:1654-1670
  | jobLookup (ok : Bool)               -- the engine looks up
  | fillEnd (keep : Bool) (n : Nat)     -- onGetComplete, NvmCache.h:1338-1429
  | evict                               -- the engine drops the item and calls evictCB
  | drop                                -- the engine drops the item
  | callback (i : Nat)                  -- and calls evictCB later
deriving DecidableEq, Repr

def State.exec (c : Cfg) (s : State) : Act → Option State
  | .insert =>
    if c.serial && s.writers != [] then none
    else
      let it : Item := { id := s.nextId, ver := s.next, clean := false, nvmEv := false, refs := 1 }
      some (({ s with next := s.next + 1, nextId := s.nextId + 1 } : State).insertCrit it)
  | .reinsert i =>
    if c.fresh || (c.serial && s.writers != []) then none
    else match s.gone[i]? with
      | some it => some (({ s with gone := s.gone.eraseIdx i } : State).insertCrit it)
      | none => none
  | .removeStart => if c.serial && s.writers != [] then none else some { s with writers := .rmCrit :: s.writers }
  | .removeCrit w =>
    match s.writers[w]? with
    | some .rmCrit => some { s.removeCrit.1 with writers := s.writers.set w s.removeCrit.2 }
    | _ => none
  | .mutate =>
    if c.serial && s.writers != [] then none
    else match s.ram with
      | some it =>
        if 0 < it.refs ∧ it.clean then
          some { s with ram := some { it with clean := false }, removed := s.removed || it.inNvm,
                        writers := .tail true false (some it.id) :: s.writers }
        else none
      | none => none
  | .wTomb w =>
    match s.writers[w]? with
    | some (.tail true false h) => some { s with writers := s.writers.set w (.tail true true h) }
    | _ => none
  | .wFinish w skip =>
    match s.writers[w]? with
    | some (.tail true true _) => ({ s with writers := s.writers.eraseIdx w } : State).nvmRemove skip
    | some (.tail false _ _) => some { s with writers := s.writers.eraseIdx w }
    | _ => none
  | .otherStart => some { s with tombs := s.tombs + 1 }
  | .otherFinish skip => if s.tombs = 0 then none else ({ s with tombs := s.tombs - 1 } : State).nvmRemove skip
  | .acquire =>
    match s.ram with
    | some it => some { s with ram := some { it with refs := it.refs + 1 } }
    | none => none
  | .release =>
    match s.ram with
    | some it => if s.held it.id < it.refs then some { s with ram := some { it with refs := it.refs - 1 } } else none
    | none => none
  | .releaseGone i =>
    match s.gone[i]? with
    | some it =>
      if it.refs ≤ 1 then some (({ s with gone := s.gone.eraseIdx i } : State).freeItem false it)
      else some { s with gone := s.gone.set i { it with refs := it.refs - 1 } }
    | none => none
  | .reap =>
    if c.noReap then none
    else match s.ram with
      | some it => if it.refs = 0 then some { s with ram := none, gone := { it with refs := 1 } :: s.gone } else none
      | none => none
  | .move =>
    match s.ram with
    | some it =>
      if it.refs = 0 then
        some { s with ram := some { it with id := s.nextId, nvmEv := if c.keepFlag then it.nvmEv else false }, nextId := s.nextId + 1 }
      else none
    | none => none
  | .look =>
    match s.ram with
    | some it => some { s with cand := (it.id, !it.inNvm) :: s.cand }
    | none => none
  | .mark want tok =>
    match s.ram with
    | some it =>
      if it.refs = 0 ∧ (it.id, want) ∈ s.cand ∧ (tok = true → want = true ∧ s.token = none) then
        some { s with ram := none, ev := { it, tok } :: s.ev, token := if tok then some true else s.token }
      else none
    | none => none
  | .put i admit =>
    match s.ev[i]? with
    | some e =>
      if e.done then none
      else if !e.tok then some { s with ev := s.ev.set i { e with done := true } }
      else if !admit then some { s with ev := s.ev.set i { e with done := true }, token := none }
      else if e.it.inNvm then some { s with ev := s.ev.set i { e with done := true }, token := none, threw := true }
      else if s.hasTomb || s.token != some true then some { s with ev := s.ev.set i { e with done := true }, token := none }
      else
        let it : Item := { e.it with clean := true, nvmEv := false }
        some { s with ev := s.ev.set i { e with it := it, done := true }, token := none, queue := s.queue ++ [.insert e.it.ver] }
    | none => none
  | .free i =>
    match s.ev[i]? with
    | some e => if e.done then some (({ s with ev := s.ev.eraseIdx i } : State).freeItem true e.it) else none
    | none => none
  | .invalidate => some { s with token := s.token.map fun _ => false }
  | .lookup =>
    if s.ram = none ∧ s.fill = none then some { s with fill := some { valid := true }, queue := s.queue ++ [.lookup] } else none
  | .jobInsert ok big =>
    match s.queue with
    | .insert v :: q =>
      if ok then
        let s' : State := { s with nvm := some v, queue := q }
        match s.nvm with
        | some u => some (if big then s'.evictCB u false else s')
        | none => some s'
      else some (({ s with queue := q } : State).evictCB v true)
    | _ => none
  | .jobRemove ok =>
    match s.queue with
    | .remove :: q =>
      if ok then
        match s.nvm with
        | some u => some (({ s with nvm := none, queue := q } : State).evictCB u false)
        | none => some { s with queue := q }
      else if c.noFail then none else some { s with queue := q }
    | _ => none
  | .jobLookup ok =>
    match s.queue, s.fill with
    | .lookup :: _, some f => if f.run = none then some { s with fill := some { f with run := some (if ok then s.nvm else none) } } else none
    | _, _ => none
  | .fillEnd keep n =>
    match s.queue, s.fill with
    | .lookup :: q, some f =>
      match f.run with
      | none => none
      | some r =>
        match r with
        | some v =>
          if keep && f.valid && !s.hasTomb && s.ram.isNone then
            let it : Item := { id := s.nextId, ver := v, clean := true, nvmEv := false, refs := n }
            some { s with ram := some it, nextId := s.nextId + 1, queue := q, fill := none }
          else some { s with queue := q, fill := none }
        | none => some { s with queue := q, fill := none }
    | _, _ => none
  | .evict =>
    match s.nvm with
    | some u => some (({ s with nvm := none } : State).evictCB u false)
    | none => none
  | .drop =>
    if c.atomicCb then none
    else match s.nvm with
      | some u => some { s with nvm := none, cbs := s.cbs ++ [u] }
      | none => none
  | .callback i =>
    match s.cbs[i]? with
    | some u => some (({ s with cbs := s.cbs.eraseIdx i } : State).evictCB u false)
    | none => none

def State.runs (c : Cfg) : State → List Act → Option State
  | s, [] => some s
  | s, a :: l => match s.exec c a with | none => none | some s' => s'.runs c l

/-- The states that can be reached. -/
inductive Reach (c : Cfg) : State → Prop
  | init : Reach c {}
  | step {s s' : State} (a : Act) (h : Reach c s) (he : s.exec c a = some s') : Reach c s'

end Verif.Destructor
