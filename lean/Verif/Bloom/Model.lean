import Verif.Base.Bytes
/-!
Byte-level model of cachelib/common/BloomFilter.{h,cpp}. Hash functions are a parameter: `comb key seed` models
combineHashes (common/Hash.h:74-76), `hashInt` models hashInt (common/Hash.h:78).
-/
namespace Verif.Bloom
open Verif

/-- BloomFilter, BloomFilter.h:127-131. -/
structure BF where
  numFilters : Nat
  tableBits : Nat
  filterBytes : Nat
  seeds : List Nat
  bits : Mem

/-- bitsToBytes, BloomFilter.cpp:30-33. -/
def bitsToBytes (bits : Nat) : Nat := (bits + 7) / 8 * 8 / 8

/-- byteIndex, bitMask, bitSet, common/Utils.h:459-470. `ptr` is an address. -/
def bitMask (i : Nat) : UInt8 := UInt8.ofNat (1 <<< (i % 8))
def bitSet (m : Mem) (ptr i : Nat) : Mem := fun a => if a = ptr + i / 8 then m a ||| bitMask i else m a
/-- bitGet, common/Utils.h:472-474. -/
def bitGet (m : Mem) (ptr i : Nat) : Bool := (m (ptr + i / 8) &&& bitMask i) ≠ 0

/-- getByteSize, BloomFilter.h:104. -/
def BF.byteSize (b : BF) : Nat := b.numFilters * b.filterBytes

/-- getFilterBytes, BloomFilter.h:117-120. -/
def BF.filterPtr (b : BF) (idx : Nat) : Nat := idx * b.filterBytes

/-- Constructor, BloomFilter.cpp:64-81. -/
def make (hashInt : Nat → Nat) (numFilters numHashes tableBits : Nat) : Option BF :=
  if numFilters = 0 ∨ numHashes = 0 ∨ tableBits = 0 then none
  else some ⟨numFilters, tableBits, bitsToBytes (numHashes * tableBits), (List.range numHashes).map hashInt, fun _ => 0⟩

/-- Loop of set, BloomFilter.cpp:84-92. -/
def setLoop (comb : Nat → Nat → Nat) (tableBits ptr key : Nat) : List Nat → Nat → Mem → Mem
  | [], _, m => m
  | seed :: seeds, firstBit, m =>
    setLoop comb tableBits ptr key seeds (firstBit + tableBits) (bitSet m ptr (firstBit + comb key seed % tableBits))

/-- set, BloomFilter.cpp:83-93. -/
def BF.set (comb : Nat → Nat → Nat) (b : BF) (idx key : Nat) : BF :=
  { b with bits := setLoop comb b.tableBits (b.filterPtr idx) key b.seeds 0 b.bits }

/-- Loop of couldExist, BloomFilter.cpp:96-108. -/
def existLoop (comb : Nat → Nat → Nat) (tableBits ptr key : Nat) (m : Mem) : List Nat → Nat → Bool
  | [], _ => true
  | seed :: seeds, firstBit =>
    if !bitGet m ptr (firstBit + comb key seed % tableBits) then false
    else existLoop comb tableBits ptr key m seeds (firstBit + tableBits)

/-- couldExist, BloomFilter.cpp:95-109. -/
def BF.couldExist (comb : Nat → Nat → Nat) (b : BF) (idx key : Nat) : Bool :=
  existLoop comb b.tableBits (b.filterPtr idx) key b.bits b.seeds 0

/-- std::memset(ptr, 0, n). -/
def zero (m : Mem) (ptr n : Nat) : Mem := fun a => if ptr ≤ a ∧ a < ptr + n then 0 else m a

/-- clear, BloomFilter.cpp:111-116. -/
def BF.clear (b : BF) (idx : Nat) : BF := { b with bits := zero b.bits (b.filterPtr idx) b.filterBytes }

/-- reset, BloomFilter.cpp:118-123. -/
def BF.reset (b : BF) : BF := { b with bits := zero b.bits 0 b.byteSize }

/-- Records of the metadata stream: the serialized BloomFilterPersistentData (BloomFilter.h:136-146) or raw bytes. -/
inductive Rec
  | cfg (numFilters tableBits filterBytes fragmentSize : Nat) (seeds : List Nat)
  | raw (bytes : List UInt8)

/-- kPersistFragmentSize, BloomFilter.h:125. -/
def kFrag : Nat := 1048576

/-- First loop of serializeBits, BloomFilter.cpp:128-133. -/
def serLoop (m : Mem) (size off : Nat) : List Rec :=
  if off < size then
    let n := min (size - off) kFrag
    .raw (m.read off n) :: serLoop m size (off + n)
  else []
termination_by size - off
decreasing_by simp only [kFrag]; omega

/-- persist, BloomFilter.h:134-148 and serializeBits, BloomFilter.cpp:125-147 (the second loop writes zero bytes, which is the same
loop over a zeroed memory). -/
def BF.persist (b : BF) : List Rec :=
  .cfg b.numFilters b.tableBits b.filterBytes kFrag b.seeds ::
    (serLoop b.bits b.byteSize 0 ++ serLoop (fun _ => 0) (bitsToBytes b.numFilters) 0)

/-- First loop of deserializeBits, BloomFilter.cpp:152-160; `none` models the exception. -/
def desLoop (size : Nat) : List Rec → Nat → Mem → Option (Mem × List Rec)
  | [], off, m => if off < size then none else some (m, [])
  | r :: rs, off, m =>
    if off < size then
      match r with
      | .raw bs => desLoop size rs (off + bs.length) (m.write off bs)
      | .cfg .. => none
    else some (m, r :: rs)

/-- Second loop, BloomFilter.cpp:168-175. -/
def skipLoop (size : Nat) : List Rec → Nat → Option (List Rec)
  | [], off => if off < size then none else some []
  | r :: rs, off =>
    if off < size then
      match r with
      | .raw bs => skipLoop size rs (off + bs.length)
      | .cfg .. => none
    else some (r :: rs)

/-- Copy of the persisted seeds over the first entries of seeds_, BloomFilter.h:163-165 (entries beyond seeds_ would be written
out of bounds; they are dropped here). -/
def copySeeds : List Nat → List Nat → List Nat
  | _ :: old, s :: new => s :: copySeeds old new
  | old, [] => old
  | [], _ => []

/-- recover, BloomFilter.h:150-167: new filter and rest of the stream; `none` models an exception. -/
def BF.recover (b : BF) : List Rec → Option (BF × List Rec)
  | .cfg nf tb fb fs seeds :: rs =>
    if b.numFilters ≠ nf ∨ b.tableBits ≠ tb ∨ b.filterBytes ≠ fb ∨ fs ≠ kFrag then none
    else
      match desLoop b.byteSize rs 0 b.bits with
      | none => none
      | some (m, rs) =>
        match skipLoop (bitsToBytes b.numFilters) rs 0 with
        | none => none
        | some rs => some ({ b with seeds := copySeeds b.seeds seeds, bits := m }, rs)
  | _ => none

end Verif.Bloom
