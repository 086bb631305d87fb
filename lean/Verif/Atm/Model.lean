import Verif.Base.Chain
/-
Model of `cachelib/allocator/nvmcache/AccessTimeMap.h` (C61): a sharded map from key hashes to times, its size counter, and
saving it to and restoring it from shared memory.

Concurrency: what a thread does to a map under the mutex of its shard is one step; the update of `size_`, under the same mutex, is a
later step, and the shard stays locked in between. Threads need no names: any may begin an operation on a shard that is not locked.
persist() locks one shard at a time, twice, so that operations may run in between; it is only called by one thread at a time.
An F14 map is a list of entries; the order in which it is iterated is any order, each time. Counters for statistics are left out.
size_ does not overflow upwards in the model (there are at most 2^64 hashes). The two shared memory segments are the values written:
whether the segment of entries is at least as long as the count needs is kept, thrift and exceptions of ShmManager are left out.
-/
namespace Verif.Atm
open Verif

/-- AccessTimeMap.h:322: a map, as the list of its entries. -/
abbrev M := List (Nat × Nat)

/-- erase by key. -/
def del (m : M) (k : Nat) : M := m.filter fun e => e.1 != k

/-- insert_or_assign. -/
def put (m : M) (k v : Nat) : M := (k, v) :: del m k

/-- AccessTimeMap.h:340-341. -/
structure Cfg where
  n : Nat
  maxSize : Nat

/-- AccessTimeMap.h:325-330 computeMaxEntriesPerShard; 0 is no limit. -/
def Cfg.cap (c : Cfg) : Nat := if 0 < c.maxSize then (c.maxSize + c.n - 1) / c.n else 0

/-- AccessTimeMap.h:332-338 getShard. -/
def Cfg.shard (c : Cfg) (k : Nat) : Nat := k % c.n

/-- AccessTimeMap.h:83-86: the victim, for the order `l` of iteration; none at the end of the map. -/
def victim (l : M) (k : Nat) : Option Nat :=
  match l with
  | [] => none
  | a :: l => if a.1 = k then (match l with | [] => none | b :: _ => some b.1) else some a.1

/-- AccessTimeMap.h:77-92 set, under the mutex: the map, and what is to be done to size_ (`some true`: plus 1). `order` is how the
map is iterated. No result: the end of the map is erased, undefined. -/
def Cfg.set (c : Cfg) (m : M) (k v : Nat) (order : M) : Option (M × Option Bool) :=
  if (m.lookup k).isSome then some (put m k v, none)
  else if 0 < c.cap ∧ c.cap < (put m k v).length then
    match victim order k with
    | some x => some (del (put m k v) x, none)
    | none => none
  else some (put m k v, some true)

/-- AccessTimeMap.h:115-124 getAndRemove, under the mutex. -/
def getAndRemove (m : M) (k : Nat) : M × Option Bool × Option Nat :=
  match m.lookup k with
  | none => (m, none, none)
  | some v => (del m k, some false, some v)

/-- AccessTimeMap.h:132-134 remove, under the mutex. -/
def remove (m : M) (k : Nat) : M × Option Bool :=
  if (m.lookup k).isSome then (del m k, some false) else (m, none)

/-- AccessTimeMap.h:90, 122, 133: the relaxed update of size_, a size_t. -/
def addSize (n : Nat) (up : Bool) : Nat := if up then n + 1 else if n = 0 then 2 ^ 64 - 1 else n - 1

/-- Where a call of persist is (AccessTimeMap.h:142-195): counting, or copying with the number of entries the segment has room for and
the entries written. -/
inductive Pers
  | counting (i acc : Nat)
  | copying (i room : Nat) (out : M)

/-- AccessTimeMap.h:340-344: the shards; for a locked shard the pending update of size_; size_; the call of persist. -/
structure St where
  sh : Nat → M
  lk : Nat → Option Bool
  size : Nat
  pers : Option Pers

/-- AccessTimeMap.h:64-68. -/
def St.new : St := ⟨fun _ => [], fun _ => none, 0, none⟩

/-- AccessTimeMap.h:167-172: the loop over one shard. -/
def copyLoop (room : Nat) (out : M) : M → M
  | [] => out
  | e :: l => if room ≤ out.length then out else copyLoop room (out ++ [e]) l

/-- What can be observed, with results; `tau` stands for steps inside of calls. -/
inductive Ev
  | set (k v : Nat) | get (k : Nat) (r : Option Nat) | getAndRemove (k : Nat) (r : Option Nat) | remove (k : Nat) | size (n : Nat)
  | pBegin | pEnd (img : Option M) | tau

/-- One step of some thread. -/
inductive Step (c : Cfg) (s : St) : Ev → St → Prop
  /-- AccessTimeMap.h:73-93 -/
  | set (k v : Nat) (order : M) (m : M) (d : Option Bool) (hl : s.lk (c.shard k) = none) (ho : order.Perm (put (s.sh (c.shard k)) k v))
      (h : c.set (s.sh (c.shard k)) k v order = some (m, d)) :
      Step c s (.set k v) { s with sh := upd s.sh (c.shard k) m, lk := upd s.lk (c.shard k) d }
  /-- AccessTimeMap.h:96-107 -/
  | get (k : Nat) (hl : s.lk (c.shard k) = none) : Step c s (.get k ((s.sh (c.shard k)).lookup k)) s
  /-- AccessTimeMap.h:111-125 -/
  | getAndRemove (k : Nat) (m : M) (d : Option Bool) (r : Option Nat) (hl : s.lk (c.shard k) = none)
      (h : getAndRemove (s.sh (c.shard k)) k = (m, d, r)) :
      Step c s (.getAndRemove k r) { s with sh := upd s.sh (c.shard k) m, lk := upd s.lk (c.shard k) d }
  /-- AccessTimeMap.h:128-135 -/
  | remove (k : Nat) (m : M) (d : Option Bool) (hl : s.lk (c.shard k) = none) (h : remove (s.sh (c.shard k)) k = (m, d)) :
      Step c s (.remove k) { s with sh := upd s.sh (c.shard k) m, lk := upd s.lk (c.shard k) d }
  /-- AccessTimeMap.h:90, 122, 133, then the end of the scope. -/
  | addSize (i : Nat) (d : Bool) (hi : i < c.n) (hl : s.lk i = some d) :
      Step c s .tau { s with size := addSize s.size d, lk := upd s.lk i none }
  /-- AccessTimeMap.h:140 -/
  | size : Step c s (.size s.size) s
  /-- AccessTimeMap.h:142-145 -/
  | pBegin (h : s.pers = none) : Step c s .pBegin { s with pers := some (.counting 0 0) }
  /-- AccessTimeMap.h:146-149 -/
  | pCount (i acc : Nat) (h : s.pers = some (.counting i acc)) (hi : i < c.n) (hl : s.lk i = none) :
      Step c s .tau { s with pers := some (.counting (i + 1) (acc + (s.sh i).length)) }
  /-- AccessTimeMap.h:155-158 -/
  | pEmpty (h : s.pers = some (.counting c.n 0)) : Step c s (.pEnd none) { s with pers := none }
  /-- AccessTimeMap.h:160-164 -/
  | pStart (acc : Nat) (h : s.pers = some (.counting c.n acc)) (ha : acc ≠ 0) :
      Step c s .tau { s with pers := some (.copying 0 acc []) }
  /-- AccessTimeMap.h:165-176 -/
  | pCopy (i room : Nat) (out order : M) (h : s.pers = some (.copying i room out)) (hi : i < c.n) (hr : out.length < room)
      (hl : s.lk i = none) (ho : order.Perm (s.sh i)) :
      Step c s .tau { s with pers := some (.copying (i + 1) room (copyLoop room out order)) }
  /-- AccessTimeMap.h:178-194 -/
  | pEnd (i room : Nat) (out : M) (h : s.pers = some (.copying i room out)) (hi : i = c.n ∨ (0 < i ∧ room ≤ out.length)) :
      Step c s (.pEnd (some out)) { s with pers := none }

/-- The two segments: version and count of entries; entries. -/
structure Shm where
  info : Option (Nat × Nat)
  data : Option M

/-- AccessTimeMap.h:151-153, 182: what a call of persist leaves. -/
def Shm.ofImg : Option M → Shm
  | none => ⟨none, none⟩
  | some out => ⟨some (1, out.length), some out⟩

/-- AccessTimeMap.h:259-263: the entries for shard `i`. -/
def Cfg.group (c : Cfg) (es : M) (i : Nat) : M := es.foldl (fun m e => if c.shard e.1 = i then put m e.1 e.2 else m) []

/-- AccessTimeMap.h:271-279: the shard and the number of entries inserted. -/
def Cfg.fill (c : Cfg) (m : M) (inserted : Nat) : M → M × Nat
  | [] => (m, inserted)
  | e :: l => if 0 < c.cap ∧ c.cap ≤ m.length then (m, inserted) else Cfg.fill c (put m e.1 e.2) (inserted + 1) l

/-- AccessTimeMap.h:201-254: the entries that are used, none if the map starts empty. -/
def Shm.entries (h : Shm) : Option M :=
  match h.info with
  | none => none
  | some (version, count) =>
    if version ≠ 1 then none
    else if count = 0 then none
    else
      match h.data with
      | none => none
      | some es => if es.length < count then none else some (es.take count)

/-- AccessTimeMap.h:198-296 recover, of a map in state `s`; `order` is how the groups are iterated. -/
inductive Recovers (c : Cfg) (s : St) (h : Shm) : St → Prop
  | empty (he : h.entries = none) : Recovers c s h s
  | entries (es : M) (order : Nat → M) (he : h.entries = some es) (ho : ∀ i, (order i).Perm (c.group es i)) :
      Recovers c s h { s with
        sh := fun i => if i < c.n then (c.fill (s.sh i) 0 (order i)).1 else s.sh i
        size := s.size + ((List.range c.n).map fun i => (c.fill (s.sh i) 0 (order i)).2).sum }

/-- AccessTimeMap.h:209-212: the segments after recover. -/
def Shm.afterRecover (h : Shm) : Shm := if h.info.isSome then ⟨none, none⟩ else h

end Verif.Atm
