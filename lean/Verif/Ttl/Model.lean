import Verif.Base.Chain
/-
Model of expiration: common/Time.h (isExpired with its thread-local cached time), CacheItem.h (expiry and creation
time), CacheAllocator.h (all lookups, insertOrReplace, remove, eviction, slab release, Reaper), NvmCache.h
(lookup, put, fill) as far as expiry times are concerned.

What is simplified:
* one call is one step (the interleavings of lookups, fills and removals are C18 and C43); a lookup in NVM completes within
  the call, so the expiry check of the model happens when the item is handed out;
* keys are numbers, NVM is a map (C23-C31), it may lose any item at any time;
* items carry only their times and the nvm flags.
-/
namespace Verif.Ttl
open Verif

abbrev Key := Nat

/-- 2^32 -/
def W : Nat := 4294967296

/-- CacheItem (CacheItem.h:465, 469): creationTime_, expiryTime_ and the flags kNvmClean, kNvmEvicted. -/
structure Item where
  ctime : Nat
  exp : Nat
  clean : Bool
  nvmEv : Bool
deriving DecidableEq, Repr

/-- NvmItem (NvmItem.h:178-179) -/
structure NItem where
  ctime : Nat
  exp : Nat
deriving DecidableEq, Repr

structure State where
  /-- std::time, in seconds -/
  now : Nat
  /-- thread_local staleTime (Time.h:57), per thread -/
  stale : Nat → Nat
  ram : Key → Option Item
  nvm : Key → Option NItem
  /-- nvmCache_ is set and enabled -/
  nvmOn : Bool

/-- util::getCurrentTimeSec (Time.h:31-35) -/
def cur (s : State) : Nat := s.now % W

/-- util::isExpired (Time.h:56-72), by thread `t` -/
def isExpired (s : State) (t : Nat) (e : Nat) : Bool × State :=
  if e = 0 then (false, s)
  else if e < s.stale t then (true, s)
  else
    let c := cur s
    let s := if c ≠ s.stale t then { s with stale := upd s.stale t c } else s
    (decide (e < c), s)

/-- CacheItem::isExpired(currentTimeSec) (CacheItem.h:731-733, 736-739) -/
def isExpiredAt (e c : Nat) : Bool := decide (0 < e) && decide (e < c)

/-- NvmItem::isExpired (NvmItem.cpp:122-125) -/
def nvmIsExpired (s : State) (e : Nat) : Bool := decide (0 < e) && decide (e < cur s)

/-- allocate: creation and expiry time (CacheAllocator.h:3100-3109) -/
def allocate (s : State) (ttl ctime : Nat) : Item :=
  let ctime := if ctime = 0 then cur s else ctime
  { ctime := ctime, exp := if ttl = 0 then 0 else (ctime + ttl) % W, clean := false, nvmEv := false }

/-- getConfiguredTTL (CacheItem.h:747-750) -/
def configuredTTL (it : Item) : Nat := if 0 < it.exp then (it.exp + W - it.ctime) % W else 0

/-- state of the item that updateExpiryTime looks at (CacheItem.h:994-995) -/
structure Flags where
  moving : Bool
  markedForEviction : Bool
  inMM : Bool
  chained : Bool

/-- updateExpiryTime (CacheItem.h:990-1010) -/
def updateExpiryTime (f : Flags) (it : Item) (e : Nat) : Item × Bool :=
  if f.moving || f.markedForEviction || !f.inMM || f.chained then (it, false)
  else ({ it with exp := e % W }, true)

/-- extendTTL (CacheItem.h:1013-1015); the sum is a signed 64-bit number that is cut to 32 bits -/
def extendTTL (s : State) (f : Flags) (it : Item) (ttl : Int) : Item × Bool :=
  updateExpiryTime f it (((cur s : Int) + ttl) % (W : Int)).toNat

/-- result of a call -/
inductive Res where
  | hit (ctime exp : Nat)
  | miss
  /-- a null handle marked as expired -/
  | expired
  | done (b : Bool)
deriving DecidableEq, Repr

/-- findInternalWithExpiration (CacheAllocator.h:4623-4665), also peek, findFast -/
def findRam (s : State) (t : Nat) (k : Key) : State × Res :=
  match s.ram k with
  | none => (s, .miss)
  | some it =>
    let (x, s) := isExpired s t it.exp
    if x then (s, .expired) else (s, .hit it.ctime it.exp)

/-- NvmCache::find (NvmCache.h:715-843): the check of RAM under the fill lock (739-754), then the lookup and
onGetComplete (1366-1428), with createItem (1442-1444) and insertFromNvm.  `alloc`: whether memory could be allocated; if
not, the NVM copy is removed (1387). -/
def nvmFind (s : State) (t : Nat) (k : Key) (alloc : Bool) : State × Res :=
  match s.ram k with
  | some it =>
    let (x, s) := isExpired s t it.exp
    if x then (s, .expired) else (s, .hit it.ctime it.exp)
  | none =>
    match s.nvm k with
    | none => (s, .miss)
    | some n =>
      if nvmIsExpired s n.exp then (s, .expired)
      else if alloc then
        ({ s with ram := upd s.ram k (some { ctime := n.ctime, exp := n.exp, clean := true, nvmEv := false }) }, .hit n.ctime n.exp)
      else ({ s with nvm := upd s.nvm k none }, .miss)

/-- findImpl (CacheAllocator.h:4700-4716) -/
def find (s : State) (t : Nat) (k : Key) (alloc : Bool) : State × Res :=
  match findRam s t k with
  | (s, .hit c e) => (s, .hit c e)
  | (s, r) => if s.nvmOn then nvmFind s t k alloc else (s, r)

/-- invalidateNvm (CacheAllocator.h:4543-4557) of the item just found -/
def invalidateNvm (s : State) (k : Key) : State :=
  match s.ram k with
  | some it =>
    if s.nvmOn && it.clean then
      { s with ram := upd s.ram k (some { it with clean := false }), nvm := upd s.nvm k none }
    else s
  | none => s

/-- Calls and activities. -/
inductive Op where
  /-- time passes -/
  | tick (d : Nat)
  /-- the system clock is set -/
  | setClock (n : Nat)
  /-- allocate and insertOrReplace -/
  | insert (k : Key) (ttl ctime : Nat)
  | find (t : Nat) (k : Key) (alloc : Bool)
  /-- findFast or peek -/
  | findFast (t : Nat) (k : Key)
  /-- findToWrite, then updateExpiryTime -/
  | update (t : Nat) (k : Key) (alloc : Bool) (e : Nat)
  /-- findToWrite, then extendTTL -/
  | extend (t : Nat) (k : Key) (alloc : Bool) (ttl : Int)
  | remove (k : Key)
  /-- eviction from RAM; `accept`: the admission policy and the put -/
  | evict (t : Nat) (k : Key) (accept : Bool)
  /-- Navy drops the item -/
  | nvmDrop (k : Key)
  /-- slab release -/
  | move (t : Nat) (k : Key) (accept : Bool)
  /-- the Reaper visits the item -/
  | reap (t : Nat) (k : Key)
  /-- getSampleItem (CacheAllocator.h:1649-1713): findFromRawAlloc without expired items -/
  | sample (t : Nat) (k : Key)
deriving Repr

/-- shouldWriteToNvmCache (CacheAllocator.h:4310-4330), then the admission policy, then put (NvmCache.h:1217-1252); the
item is then gone from RAM -/
def evictItem (s : State) (t : Nat) (k : Key) (it : Item) (accept : Bool) : State :=
  if s.nvmOn then
    let (x, s) := isExpired s t it.exp
    if x then { s with ram := upd s.ram k none }
    else if (!it.clean || it.nvmEv) && accept then
      let (x, s) := isExpired s t it.exp
      if x then { s with ram := upd s.ram k none }
      else { s with ram := upd s.ram k none, nvm := upd s.nvm k (some { ctime := it.ctime, exp := it.exp }) }
    else { s with ram := upd s.ram k none }
  else { s with ram := upd s.ram k none }

/-- the flags of an item whose handle findToWrite just returned (a held item is not exclusive: C01, C43) -/
def heldFlags : Flags := { moving := false, markedForEviction := false, inMM := true, chained := false }

/-- The NVM copy is deleted unless the RAM item (replaced, CacheAllocator.h:3921-3927; removed, 4411-4413, 4522-4525) is
known to have none. -/
def nvmDel (s : State) (k : Key) : Key → Option NItem :=
  if s.nvmOn then
    match s.ram k with
    | none => upd s.nvm k none
    | some old => if old.clean then upd s.nvm k none else s.nvm
  else s.nvm

/-- One call. -/
def step (s : State) : Op → State × Res
  | .tick d => ({ s with now := s.now + d }, .done true)
  | .setClock n => ({ s with now := n }, .done true)
  -- CacheAllocator.h:3100-3109, 3882-3927
  | .insert k ttl ctime =>
    ({ s with ram := upd s.ram k (some (allocate s ttl (ctime % W))), nvm := nvmDel s k }, .done true)
  | .find t k al => find s t k al
  | .findFast t k => findRam s t k
  -- CacheAllocator.h:4720-4727, CacheItem.h:990
  | .update t k al e =>
    match find s t k al with
    | (s, .hit _ _) =>
      let s := invalidateNvm s k
      match s.ram k with
      | some it =>
        let r := updateExpiryTime heldFlags it e
        ({ s with ram := upd s.ram k (some r.1) }, .done r.2)
      | none => (s, .done false)
    | (s, _) => (s, .done false)
  | .extend t k al ttl =>
    match find s t k al with
    | (s, .hit _ _) =>
      let s := invalidateNvm s k
      match s.ram k with
      | some it =>
        let r := extendTTL s heldFlags it ttl
        ({ s with ram := upd s.ram k (some r.1) }, .done r.2)
      | none => (s, .done false)
    | (s, _) => (s, .done false)
  -- CacheAllocator.h:4404-4419, 4498-4528
  | .remove k =>
    ({ s with ram := upd s.ram k none, nvm := nvmDel s k }, .done true)
  | .evict t k acc =>
    match s.ram k with
    | none => (s, .miss)
    | some it => (evictItem s t k it acc, .done true)
  -- NvmCache.h:1005-1017 (evictCB marks the RAM copy)
  | .nvmDrop k =>
    match s.nvm k with
    | none => (s, .done false)
    | some _ =>
      match s.ram k with
      | some it =>
        if it.clean then ({ s with nvm := upd s.nvm k none, ram := upd s.ram k (some { it with nvmEv := true }) }, .done true)
        else ({ s with nvm := upd s.nvm k none }, .done true)
      | none => ({ s with nvm := upd s.nvm k none }, .done true)
  -- CacheAllocator.h:3996-4002 (expired: evicted), 5587-5592 (the new item keeps the times), 4011-4013 (and
  -- kNvmClean, but not kNvmEvicted)
  | .move t k acc =>
    match s.ram k with
    | none => (s, .miss)
    | some it =>
      let (x, s) := isExpired s t it.exp
      if x then (evictItem s t k it acc, .done false)
      else
        ({ s with ram := upd s.ram k (some { ctime := it.ctime, exp := it.exp, clean := it.clean, nvmEv := false }) }, .done true)
  -- Reaper.h:167-187, CacheAllocator.h:1663-1673, 5648-5664, 2364-2366
  | .reap t k =>
    match s.ram k with
    | none => (s, .miss)
    | some it =>
      if isExpiredAt it.exp (cur s) then
        let (x, s) := isExpired s t it.exp
        if x then ({ s with ram := upd s.ram k none }, .done true) else (s, .done false)
      else (s, .done false)
  | .sample t k =>
    match s.ram k with
    | none => (s, .miss)
    | some it =>
      let (x, s) := isExpired s t it.exp
      if x then (s, .miss) else (s, .hit it.ctime it.exp)

/-- start: an empty cache at some time -/
def init (now : Nat) (nvmOn : Bool) : State where
  now := now
  stale := fun _ => 0
  ram := fun _ => none
  nvm := fun _ => none
  nvmOn := nvmOn

/-- A run and what the calls returned. -/
def run (s : State) : List Op → State × List (Op × Res)
  | [] => (s, [])
  | o :: os =>
    let r := step s o
    let q := run r.1 os
    (q.1, (o, r.2) :: q.2)

end Verif.Ttl
