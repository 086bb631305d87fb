import Verif.Base.Bytes
/-!
Byte-level model of cachelib/navy/bighash/BucketStorage.{h,cpp}. Addresses are offsets from `data_`.
-/
namespace Verif.BigHash
open Verif Mem

/-- BucketStorage, BucketStorage.h:110-113. -/
structure Store where
  cap : Nat
  num : Nat
  endOff : Nat
  data : Mem

/-- BucketStorage::Allocation, BucketStorage.h:41-60: the view (offset of its first byte in data_, size) and the position. A null
view (`done()`) is `none` in `Option Alloc`. -/
structure Alloc where
  off : Nat
  size : Nat
  pos : Nat
deriving DecidableEq

/-- kAllocationOverhead = sizeof(Slot), BucketStorage.cpp:24, BucketStorage.h:98-102. -/
def kAllocationOverhead : Nat := 4

/-- slotSize (32-bit sum), BucketStorage.h:62. -/
def slotSize (size : Nat) : Nat := (kAllocationOverhead + size) % 2 ^ 32

/-- Constructor, BucketStorage.h:65 (the bytes of data_ are whatever they were). -/
def Store.new (cap : Nat) (data : Mem) : Store := ⟨cap, 0, 0, data⟩

/-- remainingCapacity, BucketStorage.h:75. -/
def Store.remaining (s : Store) : Nat := s.cap - s.endOff

/-- canAllocate, BucketStorage.h:104-106 (64-bit sum). -/
def Store.canAllocate (s : Store) (size : Nat) : Bool := decide (s.endOff + slotSize size ≤ s.cap)

/-- allocate, BucketStorage.cpp:28-37. -/
def Store.allocate (s : Store) (size : Nat) : Store × Option Alloc :=
  if !s.canAllocate size then (s, none)
  else ({ s with data := s.data.store s.endOff 4 size, endOff := s.endOff + slotSize size, num := s.num + 1 },
        some ⟨s.endOff + 4, size, s.num⟩)

/-- std::memmove within data_. -/
def move (m : Mem) (dst src len : Nat) : Mem := m.write dst (m.read src len)

/-- The loop of remove, BucketStorage.cpp:56-72; state (data, numAllocations_, srcOffset, dstOffset). -/
def removeLoop : List Alloc → Mem × Nat × Nat × Nat → Mem × Nat × Nat × Nat
  | [], st => st
  | a :: as, (m, num, src, dst) =>
    let allocOffset := a.off
    let removedOffset := allocOffset - kAllocationOverhead
    let (m, dst) :=
      if src ≠ removedOffset then
        let len := removedOffset - src
        (if dst ≠ src then move m dst src len else m, dst + len)
      else (m, dst)
    removeLoop as (m, num - 1, allocOffset + a.size, dst)

/-- remove(vector), BucketStorage.cpp:43-82. -/
def Store.removeMany (s : Store) (allocs : List Alloc) : Store :=
  if allocs.isEmpty then s
  else
    let (m, num, src, dst) := removeLoop allocs (s.data, s.num, 0, 0)
    let (m, dst) :=
      if src ≠ s.endOff then
        let len := s.endOff - src
        (move m dst src len, dst + len)
      else (m, dst)
    { s with data := m, num := num, endOff := dst }

/-- remove, BucketStorage.cpp:39-41. -/
def Store.remove (s : Store) (a : Alloc) : Store := s.removeMany [a]

/-- removeUntil, BucketStorage.cpp:84-107. -/
def Store.removeUntil (s : Store) (alloc : Option Alloc) : Store :=
  match alloc with
  | none => s
  | some a =>
    let offset := a.off + a.size
    if offset > s.endOff then s
    else { s with data := move s.data 0 offset (s.endOff - offset), endOff := s.endOff - offset, num := s.num - (a.pos + 1) }

/-- getFirst, BucketStorage.cpp:109-115. -/
def Store.getFirst (s : Store) : Option Alloc :=
  if s.endOff = 0 then none else some ⟨4, s.data.load 0 4, 0⟩

/-- getNext, BucketStorage.cpp:117-129. -/
def Store.getNext (s : Store) (a : Alloc) : Option Alloc :=
  let next := a.off + a.size
  if next ≥ s.endOff then none else some ⟨next + 4, s.data.load next 4, a.pos + 1⟩

/-- Iteration makes progress (used for termination of the loops over a bucket). -/
theorem Store.getNext_lt {s : Store} {a b : Alloc} (h : s.getNext a = some b) : s.endOff + 4 - b.off < s.endOff + 4 - a.off := by
  simp only [Store.getNext] at h
  split at h
  · cases h
  · injection h with h; subst h; simp only; omega

end Verif.BigHash
