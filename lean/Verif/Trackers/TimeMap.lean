import Mathlib.Data.List.Basic
/-
Model of allocator/nvmcache/AccessTimeMap.h, the sharded map from key hashes to access times.

What is simplified: each call takes one shard lock, so calls are atomic. A shard is the list of its entries in iteration order;
the order F14 gives after an insertion is unspecified, so it is an input of the call (`ord`), and an input that is not a
permutation of the entries makes the call `none` (no such execution). The statistics counters are left out; size_ is kept.
persist and recover are modelled as the list of entries written to, and read from, the data segment.
-/
namespace Verif.Trackers.TimeMap

/-- key hash and time -/
abbrev Entry := Nat × Nat

/-- computeMaxEntriesPerShard (AccessTimeMap.h:325-330), 64-bit -/
def perShard (numShards maxSize : Nat) : Nat := if 0 < maxSize then (maxSize + numShards - 1) % 2 ^ 64 / numShards else 0

/-- the fields (AccessTimeMap.h:340-344) -/
structure TMap where
  n : Nat
  cap : Nat
  size : Nat
  shards : Nat → List Entry

/-- the constructor (AccessTimeMap.h:64-68); numShards = 0 throws (326-328) -/
def TMap.new (numShards maxSize : Nat) : Option TMap :=
  if numShards = 0 then none else some { n := numShards, cap := perShard numShards maxSize, size := 0, shards := fun _ => [] }

/-- find in a shard -/
def find (l : List Entry) (k : Nat) : Option Nat := (l.find? fun e => e.1 == k).map Prod.snd

/-- insert_or_assign (AccessTimeMap.h:77), the order is not significant -/
def upsert (l : List Entry) (k v : Nat) : List Entry :=
  if (find l k).isSome then l.map fun e => if e.1 = k then (k, v) else e else l ++ [(k, v)]

/-- replacing one shard -/
def TMap.setShard (m : TMap) (i : Nat) (l : List Entry) : TMap := { m with shards := fun j => if j = i then l else m.shards j }

/-- the entry evicted: the first in iteration order, or the second if the first is the one just inserted (AccessTimeMap.h:83-87) -/
def evict (k : Nat) : List Entry → Option (List Entry)
  | [] => none
  | e :: l =>
    if e.1 = k then
      match l with
      | [] => none
      | _ :: l => some (e :: l)
    else some l

/-- set (AccessTimeMap.h:73-93); ord is the iteration order after insert_or_assign -/
def TMap.set (m : TMap) (k v : Nat) (ord : List Entry) : Option TMap :=
  let sh := m.shards (k % m.n)
  if ord.isPerm (upsert sh k v) then
    if (find sh k).isSome then some (m.setShard (k % m.n) ord)
    else if 0 < m.cap ∧ m.cap < ord.length then
      match evict k ord with
      | none => none
      | some l => some (m.setShard (k % m.n) l)
    else some { m.setShard (k % m.n) ord with size := m.size + 1 }
  else none

/-- get (AccessTimeMap.h:96-107) -/
def TMap.get (m : TMap) (k : Nat) : Option Nat := find (m.shards (k % m.n)) k

/-- erase of a key in a shard -/
def eraseKey (l : List Entry) (k : Nat) : List Entry := l.filter fun e => !(e.1 == k)

/-- getAndRemove (AccessTimeMap.h:111-125) -/
def TMap.getAndRemove (m : TMap) (k : Nat) : TMap × Option Nat :=
  let sh := m.shards (k % m.n)
  match find sh k with
  | none => (m, none)
  | some v => ({ m.setShard (k % m.n) (eraseKey sh k) with size := m.size - 1 }, some v)

/-- remove (AccessTimeMap.h:128-135) -/
def TMap.remove (m : TMap) (k : Nat) : TMap :=
  let sh := m.shards (k % m.n)
  if (find sh k).isSome then { m.setShard (k % m.n) (eraseKey sh k) with size := m.size - 1 } else m

/-- persist (AccessTimeMap.h:142-195): the entries written to the data segment -/
def TMap.persist (m : TMap) : List Entry := (List.range m.n).flatMap m.shards

/-- grouping by shard (AccessTimeMap.h:259-263), entries of shard i -/
def group (n : Nat) (es : List Entry) (i : Nat) : List Entry := (es.filter fun e => e.1 % n == i).foldl (fun l e => upsert l e.1 e.2) []

/-- the loop over the entries of one shard (AccessTimeMap.h:271-279): the shard and the number inserted -/
def fill (cap : Nat) : List Entry → List Entry → Nat → List Entry × Nat
  | [], sh, c => (sh, c)
  | e :: l, sh, c => if 0 < cap ∧ cap ≤ sh.length then (sh, c) else fill cap l (upsert sh e.1 e.2) (c + 1)

/-- the loop over the shards (AccessTimeMap.h:264-282); ord i is the iteration order of perShard[i] -/
def recoverShards (es : List Entry) (ord : Nat → List Entry) : List Nat → TMap → Option TMap
  | [], m => some m
  | i :: l, m =>
    if (ord i).isPerm (group m.n es i) then
      let r := fill m.cap (ord i) (m.shards i) 0
      recoverShards es ord l { m.setShard i r.1 with size := m.size + r.2 }
    else none

/-- recover (AccessTimeMap.h:198-296), when both segments are present and the version matches -/
def TMap.recover (m : TMap) (es : List Entry) (ord : Nat → List Entry) : Option TMap := recoverShards es ord (List.range m.n) m

end Verif.Trackers.TimeMap
