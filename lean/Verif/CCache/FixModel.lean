import Verif.CCache.VarModel

/-!
# Compact cache: buckets with values of a fixed size

Model of `/repo/cachelib/compact_cache/CCacheFixedLruBucket.h`.  A bucket is an array of
`kEntriesPerBucket` (key, value) structs; a slot is free iff its key is empty.  Each `memmove` /
`memcpy` moves whole entries, as in the code.  Caches without values are the case where `V` has one
element.
-/
namespace Verif.CCache

/-- `EntriesPerBucket`, the all-zero entry that `bzero` writes, and `Key::isEmpty`
(`CCacheFixedLruBucket.h:42, 51-61, 225`). -/
structure FCfg (K V : Type) where
  num : Nat
  zero : K × V
  isEmpty : K → Bool

/-- `EntryHandle::operator bool` (`CCacheFixedLruBucket.h:88-91`), for a non-negative position. -/
def fValid {K V : Type} (c : FCfg K V) (b : Nat → K × V) (pos : Nat) : Bool :=
  pos < c.num && !c.isEmpty (b pos).1

/-- `insert` (`CCacheFixedLruBucket.h:155-183`): whether an entry was evicted, the bucket, and the
eviction callbacks. -/
def fInsert {K V : Type} (c : FCfg K V) (b : Nat → K × V) (k : K) (v : V) :
    Bool × (Nat → K × V) × List (K × V) :=
  let evicted := !c.isEmpty (b (c.num - 1)).1
  (evicted, put (memmove b 1 0 (c.num - 1)) 0 (k, v), if evicted then [b (c.num - 1)] else [])

/-- `promote` (`CCacheFixedLruBucket.h:192-202`). -/
def fPromote {K V : Type} (b : Nat → K × V) (pos : Nat) : Nat → K × V :=
  if pos ≠ 0 then
    let winner := b pos
    put (memmove b 1 0 pos) 0 winner
  else b

/-- `needs_promote` (`CCacheFixedLruBucket.h:204-210`). -/
def fNeedsPromote {K V : Type} (c : FCfg K V) (pos : Nat) : Bool := pos > c.num / 4

/-- `del` (`CCacheFixedLruBucket.h:220-226`). -/
def fDel {K V : Type} (c : FCfg K V) (b : Nat → K × V) (pos : Nat) : Nat → K × V :=
  put (memmove b pos (pos + 1) (c.num - pos - 1)) (c.num - 1) c.zero

/-- `updateVal` (`CCacheFixedLruBucket.h:240-248`): the value is overwritten in place. -/
def fUpdate {K V : Type} (b : Nat → K × V) (pos : Nat) (v : V) : Nat → K × V :=
  put b pos ((b pos).1, v)

end Verif.CCache
