import Verif.Base.Chain
/-
Model of chained items: CacheAllocator.h (allocateChainedItem, addChainedItem, popChainedItem, replaceChainedItem,
transferChainAndReplace, releaseBackToAllocator, eviction and slab release of chained items) and CacheItem.h
(CacheChainedItem).

What is simplified:
* one call is one step: the calls hold the chained-item lock of the parent's key exclusively
  (chainedItemLocks_), and eviction and slab release first take the parent exclusively (C43);
* the chained-item access container is a map from the parent (its address is the key of the children) to the head
  (C07 proves that about the hash table); eviction lists are membership flags (C09, C10); reference
  counters are natural numbers (C01-C04: they never overflow silently);
* the address of an item stands for its compressed pointer (C05/C06 prove the compression lossless);
* for parents, `insert`/`remove` set and clear the accessible and linked flags together (the protocol is C43);
* payload, NVM invalidation, statistics and callbacks are left out.

`fault` is set where the code would dereference a null or freed item, free memory that is still referenced,
or loop for ever.
-/
namespace Verif.ChainedItem
open Verif

abbrev Addr := Nat

/-- The items in memory and the handles of the user. -/
structure State where
  /-- allocated memory (AllocationClass) -/
  live : List Addr
  /-- isChainedItem() (CacheItem.h:962) -/
  chd : Addr → Bool
  /-- hasChainedItem() (CacheItem.h:967) -/
  has : Addr → Bool
  /-- getParentItem(): the key of a chained item (CacheItem.h:1089-1093) -/
  par : Addr → Addr
  /-- hook_ of the payload (CacheItem.h:1027) -/
  nxt : Addr → Option Addr
  /-- getRefCount() (CacheItem.h:790) -/
  rc : Addr → Nat
  /-- isInMMContainer() -/
  mm : Addr → Bool
  /-- isAccessible() -/
  ac : Addr → Bool
  /-- chainedItemAccessContainer_ -/
  tab : Addr → Option Addr
  /-- handles held by the user (and, while a slab release moves a parent, its handle of the new item) -/
  hs : List Addr
  fault : Bool

/-- empty cache -/
def init : State where
  live := []
  chd := fun _ => false
  has := fun _ => false
  par := fun _ => 0
  nxt := fun _ => none
  rc := fun _ => 0
  mm := fun _ => false
  ac := fun _ => false
  tab := fun _ => none
  hs := []
  fault := false

def bad (s : State) : State := { s with fault := true }

/-- incRef (Refcount.h) of an item -/
def inc (s : State) (a : Addr) : State :=
  if a ∈ s.live then { s with rc := upd s.rc a (s.rc a + 1) } else bad s

/-- decRef of an item that must stay referenced: dropping a temporary handle to a linked child, where reaching 0
would release a linked item (CacheAllocator.h:3762-3776, 3565) -/
def dec (s : State) (a : Addr) : State :=
  if a ∈ s.live ∧ 2 ≤ s.rc a then { s with rc := upd s.rc a (s.rc a - 1) } else bad s

/-- decRef of the reference the parent holds, down to zero (CacheAllocator.h:3673, 3510) -/
def dec0 (s : State) (a : Addr) : State :=
  if a ∈ s.live ∧ s.rc a = 1 then { s with rc := upd s.rc a 0 } else bad s

/-- allocator_->free -/
def free (s : State) (a : Addr) : State :=
  if a ∈ s.live then { s with live := s.live.erase a } else bad s

/-- ChainedHashTable::insertOrReplace (ChainedHashTable.h:1186-1221); the returned handle is destroyed by the
caller (CacheAllocator.h:3269, 3316, 3383, 3480), see `dec`. -/
def tabPut (s : State) (c : Addr) : State × Option Addr :=
  if c ∈ s.live then
    if s.ac c then (s, none)
    else
      match s.tab (s.par c) with
      | none => ({ s with tab := upd s.tab (s.par c) (some c), ac := upd s.ac c true }, none)
      | some o =>
        let s := inc s o
        ({ s with tab := upd s.tab (s.par c) (some c), ac := upd (upd s.ac c true) o false }, some o)
  else (bad s, none)

/-- ChainedHashTable::remove (ChainedHashTable.h:1254-1270) -/
def tabDel (s : State) (c : Addr) : State :=
  if c ∈ s.live ∧ s.ac c = true ∧ s.tab (s.par c) = some c then
    { s with tab := upd s.tab (s.par c) none, ac := upd s.ac c false }
  else bad s

/-- result of a call -/
inductive Res where
  | ok
  /-- std::invalid_argument, no effect -/
  | threw
  | handle (a : Addr)
  /-- eviction: the memory given to the allocation -/
  | recycled (a : Addr)
  /-- the call is not allowed here -/
  | skip
deriving DecidableEq, Repr

/-- The loop at CacheAllocator.h:3660-3685: free the children (the one that is recycled is handed to the allocation
that evicts, here it counts as free). -/
def freeLoop : Nat → State → Option Addr → State
  | _, s, none => s
  | 0, s, some _ => bad s
  | n + 1, s, some c =>
    if c ∈ s.live then
      let next := s.nxt c
      let s := dec0 { s with mm := upd s.mm c false } c
      freeLoop n (free s c) next
    else bad s

/-- releaseBackToAllocator (CacheAllocator.h:3561-3698).  The recycled item is counted as free: its memory is
handed to the allocation that evicts. -/
def releaseBack (s : State) (it : Addr) : State :=
  if it ∈ s.live ∧ s.rc it = 0 ∧ s.mm it = false ∧ s.ac it = false then
    if s.chd it then free s it
    else if s.has it then
      match s.tab it with
      | none => bad s
      | some h =>
        if s.par h = it then
          let s := dec (inc s h) h
          let s := tabDel s h
          free (freeLoop s.live.length s (some h)) it
        else bad s
    else free s it
  else bad s

/-- release of a handle (CacheAllocator.h:3762-3776); `decRef` returns the count together with the linked and
accessible flags (C01) -/
def release (s : State) (a : Addr) : State :=
  if a ∈ s.live ∧ 1 ≤ s.rc a then
    let s := { s with rc := upd s.rc a (s.rc a - 1) }
    if s.rc a = 0 ∧ s.mm a = false ∧ s.ac a = false then releaseBack s a else s
  else bad s

/-- placement of a new item: CacheItem constructor (regular) or CacheChainedItem (CacheItem.h:1064-1075), and
`acquire` (CacheAllocator.h:3165, 3244) -/
def construct (s : State) (a : Addr) (chained : Bool) (p : Addr) : State :=
  { s with
    live := a :: s.live, chd := upd s.chd a chained, has := upd s.has a false, par := upd s.par a p,
    nxt := upd s.nxt a none, rc := upd s.rc a 1, mm := upd s.mm a false, ac := upd s.ac a false }

/-- addChainedItem (CacheAllocator.h:3257-3300); the handle of the child is destroyed at the end. -/
def addChainedItem (s : State) (p c : Addr) : State :=
  let (s, old) := tabPut s c
  -- 3270-3272, appendChain (CacheItem.h:590); `oldHead` is destroyed at the end of the call
  let s := match old with
    | none => s
    | some o => dec { s with nxt := upd s.nxt c (some o) } o
  let s := { s with has := upd s.has p true }
  let s := inc s c
  let s := { s with mm := upd s.mm c true }
  dec s c

/-- popChainedItem (CacheAllocator.h:3304-3337): the handle of the old head is returned. -/
def popChainedItem (s : State) (p : Addr) : State × Res :=
  match s.tab p with
  | none => (bad s, .skip)
  | some h =>
    let s := inc s h
    let s := match s.nxt h with
      | some n =>
        let (s, o) := tabPut s n
        match o with
        | none => s
        | some o => dec s o
      | none =>
        let s := tabDel s h
        { s with has := upd s.has p false }
    let s := { s with nxt := upd s.nxt h none }
    let s := { s with mm := upd s.mm h false }
    (dec s h, .handle h)

/-- The loop at CacheAllocator.h:3374-3380: CacheChainedItem::changeKey (CacheItem.h:1078-1085) of every child. -/
def changeKeys : Nat → State → Option Addr → Addr → State
  | _, s, none, _ => s
  | 0, s, some _, _ => bad s
  | n + 1, s, some c, p =>
    if c ∈ s.live ∧ s.ac c = false then changeKeys n { s with par := upd s.par c p } (s.nxt c) p
    else bad s

/-- transferChainLocked (CacheAllocator.h:3353-3390) after the check at 3360 -/
def transferChain (s : State) (p p' : Addr) : State :=
  match s.tab p with
  | none => bad s
  | some h =>
    let s := inc s h
    let s := tabDel s h
    let s := changeKeys s.live.length s (some h) p'
    let s := { s with has := upd s.has p' true }
    match tabPut s h with
    | (s, none) => dec { s with has := upd s.has p false } h
    | (s, some _) => bad s

/-- The loop at CacheAllocator.h:3484-3492: predecessor of `old`. -/
def findPrev : Nat → State → Addr → Addr → Option Addr
  | 0, _, _, _ => none
  | n + 1, s, prev, old =>
    match s.nxt prev with
    | none => none
    | some c => if c = old then some prev else findPrev n s c old

/-- replaceInChainLocked (CacheAllocator.h:3467-3523) -/
def replaceInChain (s : State) (old new p : Addr) (fromMove : Bool) : State :=
  match s.tab p with
  | none => bad s
  | some h =>
    let s := inc s h
    let s :=
      if h = old then
        let (s, o) := tabPut s new
        match o with
        | none => s
        | some o => dec s o
      else
        match findPrev s.live.length s h old with
        | none => bad s
        | some prev => { s with nxt := upd s.nxt prev (some new) }
    let s := { s with nxt := upd s.nxt new (s.nxt old) }
    let s := { s with nxt := upd s.nxt old none }
    let s := if fromMove then dec0 (dec s h) old else dec (dec s old) h
    inc s new

/-- replaceChainedItemLocked (CacheAllocator.h:3527-3557); the handle of the new item is destroyed at the end and a
handle of the old one is returned. -/
def replaceChainedItem (s : State) (old new p : Addr) : State :=
  let s := inc s old
  let s := { s with mm := upd (upd s.mm old false) new true }
  let s := replaceInChain s old new p false
  dec s new

/-- Calls of the user and internal activities. -/
inductive Op where
  | allocate (a : Addr)
  | allocateChained (p a : Addr)
  | clone (a : Addr)
  | drop (a : Addr)
  | insert (p : Addr)
  | remove (p : Addr)
  | add (p c : Addr)
  | pop (p : Addr)
  | replace (old new p : Addr)
  | transfer (p p' : Addr)
  /-- eviction with the iterator at `t` -/
  | evict (t : Addr)
  /-- slab release of a child, moved to `n` -/
  | moveChild (old n : Addr)
  /-- slab release of a parent (or plain item), moved to `n`; `lost`: another thread replaces or removes the
  item before line 4045 -/
  | moveParent (old n : Addr) (lost : Bool)
deriving DecidableEq, Repr

/-- parent taken exclusively: markForEviction / markMoving succeed only on a linked item without references
(C01, C02) -/
def exclusive (s : State) (p : Addr) : Bool := decide (p ∈ s.live) && decide (s.rc p = 0) && s.mm p

/-- One call. -/
def step (s : State) : Op → State × Res
  -- CacheAllocator.h:3114-3197
  | .allocate a =>
    if a ∉ s.live then
      ({ construct s a false 0 with hs := a :: s.hs }, .handle a)
    else (s, .skip)
  -- CacheAllocator.h:3201-3254
  | .allocateChained p a =>
    if p ∈ s.hs ∧ s.chd p = false ∧ a ∉ s.live then
      ({ construct s a true p with hs := a :: s.hs }, .handle a)
    else (s, .skip)
  -- Handle.h:251-258
  | .clone a =>
    if a ∈ s.hs then ({ inc s a with hs := a :: s.hs }, .handle a) else (s, .skip)
  -- Handle.h:65-85
  | .drop a =>
    if a ∈ s.hs then (release { s with hs := s.hs.erase a } a, .ok) else (s, .skip)
  -- CacheAllocator.h:3843-3940
  | .insert p =>
    if p ∈ s.hs ∧ s.chd p = false then
      ({ s with ac := upd s.ac p true, mm := upd s.mm p true }, .ok)
    else (s, .skip)
  -- CacheAllocator.h:4492-4520
  | .remove p =>
    if p ∈ s.hs ∧ s.chd p = false then
      ({ s with ac := upd s.ac p false, mm := upd s.mm p false }, .ok)
    else (s, .skip)
  -- CacheAllocator.h:3257; obligations: the child was allocated for this parent and the handle passed is the
  -- only one (3293)
  | .add p c =>
    if p ∈ s.hs ∧ c ∈ s.hs ∧ s.chd p = false then
      if s.chd c then
        if s.par c = p ∧ s.hs.count c = 1 then
          ({ addChainedItem s p c with hs := s.hs.erase c }, .ok)
        else (s, .skip)
      else (s, .threw)
    else (s, .skip)
  -- CacheAllocator.h:3304-3308
  | .pop p =>
    if p ∈ s.hs ∧ s.chd p = false then
      if s.has p then
        let r := popChainedItem s p
        match r.2 with
        | .handle h => ({ r.1 with hs := h :: s.hs }, r.2)
        | _ => r
      else (s, .threw)
    else (s, .skip)
  -- CacheAllocator.h:3441-3464; obligation: the handle of the new item is the only one
  | .replace old new p =>
    if p ∈ s.hs ∧ new ∈ s.hs ∧ s.hs.count new = 1 ∧ old ∈ s.live then
      if s.chd old = false ∨ s.chd new = false ∨ s.par old ≠ s.par new ∨ s.par old ≠ p ∨ s.mm new = true ∨ s.mm old = false then
        (s, .threw)
      else ({ replaceChainedItem s old new p with hs := old :: s.hs.erase new }, .handle old)
    else (s, .skip)
  -- CacheAllocator.h:3393-3407, 3410-3437; obligation: the old parent has a chain (3358)
  | .transfer p p' =>
    if p ∈ s.hs ∧ p' ∈ s.hs ∧ s.chd p = false ∧ s.chd p' = false ∧ s.has p = true ∧ s.ac p' = false then
      if s.has p' then (s, .threw)
      else
        let s := transferChain s p p'
        if s.ac p then
          ({ s with ac := upd (upd s.ac p false) p' true, mm := upd (upd s.mm p false) p' true }, .ok)
        else (s, .ok)
    else (s, .skip)
  -- CacheAllocator.h:4145-4148, 4163, 4226-4229, 4242, 4289
  | .evict t =>
    if t ∈ s.live ∧ s.mm t = true then
      let p := if s.chd t then s.par t else t
      if exclusive s p then
        let s := { s with mm := upd s.mm t false }
        let s := { s with ac := upd s.ac p false, mm := upd s.mm p false }
        (releaseBack s p, .recycled t)
      else (s, .skip)
    else (s, .skip)
  -- CacheAllocator.h:5707-5716, 5494-5556, 4055-4089
  | .moveChild old n =>
    if old ∈ s.live ∧ s.chd old = true ∧ s.mm old = true ∧ exclusive s (s.par old) = true ∧ n ∉ s.live then
      let p := s.par old
      let s := construct s n true p
      let s := { s with mm := upd s.mm n true }
      let s := replaceInChain s old n p true
      let s := { s with mm := upd s.mm old false }
      let s := dec s n
      (free s old, .handle n)
    else (s, .skip)
  -- CacheAllocator.h:3996-4052, 5516, 5551, 5556; the failed move: 4046, 5514, 5604-5645
  | .moveParent old n lost =>
    if old ∈ s.live ∧ s.chd old = false ∧ exclusive s old = true ∧ n ∉ s.live then
      let s := { construct s n false 0 with hs := n :: s.hs }
      let s := { s with mm := upd s.mm n true }
      let s := if s.has old then transferChain s old n else s
      if lost then
        let s := { s with ac := upd s.ac old false }
        let s := { s with mm := upd s.mm n false }
        let s := release { s with hs := s.hs.erase n } n
        let s := { s with mm := upd s.mm old false }
        (releaseBack s old, .ok)
      else
        let s := { s with ac := upd (upd s.ac old false) n true }
        let s := { s with mm := upd s.mm old false }
        let s := release { s with hs := s.hs.erase n } n
        (free s old, .handle n)
    else (s, .skip)

/-- A run from the empty cache. -/
def run (ops : List Op) : State := ops.foldl (fun s o => (step s o).1) init

/-- viewAsChainedAllocs (CacheAllocator.h:6171-6189, ChainedAllocs.h:57-59, CacheChainedItemIterator.h:56-63): the
children in iteration order. -/
def view (s : State) (p : Addr) : List Addr :=
  if s.has p then walk s.nxt s.live.length (s.tab p) else []

end Verif.ChainedItem
