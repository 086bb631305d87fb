/-
Model of `cachelib/allocator/memory/CompressedPtr.h` (CompressedPtr4B, CompressedPtr5B) and of
`SlabAllocator::compress` / `unCompress` (SlabAllocator.h:229-310).

Compressed words are `BitVec`s and use the same shifts, masks and wrapping additions as the code.  Addresses are `Nat`s
(64-bit virtual addresses never wrap here); a null pointer is address 0.
-/
namespace Verif.CPtr

/-- Slab.h:81 -/
def kNumSlabBits : Nat := 22
/-- Slab.h:84 -/
def kMinAllocPower : Nat := 6
/-- Slab.h:87 -/
def slabSize : Nat := 2 ^ kNumSlabBits
/-- CompressedPtr.h:113-114, 258-259 -/
def kNumAllocIdxBits : Nat := kNumSlabBits - kMinAllocPower

/-! ### 4 bytes -/

/-- CompressedPtr.h:96 -/
def null4 : BitVec 32 := 0xffffffff#32
/-- CompressedPtr.h:117 -/
def tierOffset4 : Nat := 31
/-- CompressedPtr.h:119 -/
def allocIdxMask : BitVec 32 := (1#32 <<< kNumAllocIdxBits) - 1
/-- CompressedPtr.h:122 -/
def tierMask4 : BitVec 32 := 1#32 <<< tierOffset4
/-- CompressedPtr.h:130-132 -/
def numSlabIdxBits4 (multi : Bool) : Nat := tierOffset4 - kNumAllocIdxBits + (if multi then 0 else 1)
/-- CompressedPtr.h:136-147 -/
def compress4 (slabIdx allocIdx : BitVec 32) (multi : Bool) (tid : BitVec 32) : BitVec 32 :=
  if !multi then (slabIdx <<< kNumAllocIdxBits) + allocIdx
  else (tid <<< tierOffset4) + (slabIdx <<< kNumAllocIdxBits) + allocIdx
/-- CompressedPtr.h:66 -/
def isNull4 (p : BitVec 32) : Bool := p == null4
/-- CompressedPtr.h:150-154 -/
def getSlabIdx4 (p : BitVec 32) (multi : Bool) : BitVec 32 :=
  let noTierIdPtr := if multi then p &&& ~~~ tierMask4 else p
  noTierIdPtr >>> kNumAllocIdxBits
/-- CompressedPtr.h:157-162 -/
def getAllocIdx4 (p : BitVec 32) : BitVec 32 := p &&& allocIdxMask
/-- CompressedPtr.h:164-167 -/
def getTierId4 (p : BitVec 32) (multi : Bool) : BitVec 32 := if multi then p >>> tierOffset4 else 0
/-- CompressedPtr.h:169-171 -/
def setTierId4 (p tid : BitVec 32) : BitVec 32 := p + (tid <<< tierOffset4)
/-- CompressedPtr.h:87-89: to `int64_t` (zero extension). -/
def save4 (p : BitVec 32) : BitVec 64 := p.setWidth 64
/-- CompressedPtr.h:84-85: truncation. -/
def restore4 (x : BitVec 64) : BitVec 32 := x.setWidth 32
/-- CompressedPtr.h:75-78 -/
def maxAddressable4 : Nat := 2 ^ (numSlabIdxBits4 false + kNumSlabBits)

/-! ### 5 bytes -/

/-- CompressedPtr.h:240-241: fields `ptr_` and `regionIdx_`. -/
structure Ptr5 where
  ptr : BitVec 32
  region : BitVec 8
  deriving DecidableEq, Repr

/-- CompressedPtr.h:236-241 -/
def null5 : Ptr5 := ⟨0xffffffff#32, 0xff#8⟩
/-- CompressedPtr.h:196-198 -/
def isNull5 (p : Ptr5) : Bool := p.ptr == 0xffffffff#32 && p.region == 0xff#8
/-- CompressedPtr.h:263: `kRegionNumBits - 2`. -/
def tierOffset5 : Nat := 8 - 2
/-- CompressedPtr.h:269-270 -/
def tierMask5 : BitVec 8 := 1#8 <<< tierOffset5
/-- CompressedPtr.h:275-278 -/
def numSlabIdxBits5 (multi : Bool) : Nat := tierOffset5 + (32 - kNumAllocIdxBits) + (if multi then 0 else 1)
/-- CompressedPtr.h:282-293 (64-bit result; the shifts of `slabIdx` are 32-bit). -/
def compress5 (slabIdx allocIdx : BitVec 32) (multi : Bool) (tid : BitVec 32) : BitVec 64 :=
  if !multi then ((slabIdx <<< kNumAllocIdxBits) + allocIdx).setWidth 64
  else (tid.setWidth 64 <<< (tierOffset5 + 32)) + (slabIdx <<< kNumAllocIdxBits).setWidth 64 + allocIdx.setWidth 64
/-- CompressedPtr.h:305-316; `~kTierIdxMask` is computed as `int`, so all higher bits are kept before the cast to 8 bits. -/
def getRegionIdx5 (slabIdx : BitVec 32) (multi : Bool) (tid : BitVec 32) : BitVec 8 :=
  if multi then
    (tid <<< tierOffset5).setWidth 8 +
      ((slabIdx >>> (32 - kNumAllocIdxBits)) &&& ~~~ (tierMask5.setWidth 32)).setWidth 8
  else (slabIdx >>> (32 - kNumAllocIdxBits)).setWidth 8
/-- CompressedPtr.h:244-250 constructor. -/
def mk5 (slabIdx allocIdx : BitVec 32) (multi : Bool) (tid : BitVec 32) : Ptr5 :=
  ⟨(compress5 slabIdx allocIdx multi tid).setWidth 32, getRegionIdx5 slabIdx multi tid⟩
/-- CompressedPtr.h:319-328 -/
def getSlabIdx5 (p : Ptr5) (multi : Bool) : BitVec 32 :=
  let noTierIdPtr := if multi then p.region.setWidth 32 &&& ~~~ (tierMask5.setWidth 32) else p.region.setWidth 32
  (noTierIdPtr <<< (32 - kNumAllocIdxBits)) + (p.ptr >>> kNumAllocIdxBits)
/-- CompressedPtr.h:331-336 -/
def getAllocIdx5 (p : Ptr5) : BitVec 32 := p.ptr &&& allocIdxMask
/-- CompressedPtr.h:338-343 -/
def getTierId5 (p : Ptr5) (multi : Bool) : BitVec 32 := if multi then (p.region >>> tierOffset5).setWidth 32 else 0
/-- CompressedPtr.h:347-349 -/
def setTierId5 (p : Ptr5) (tid : BitVec 32) : Ptr5 := { p with region := p.region + (tid <<< tierOffset5).setWidth 8 }
/-- CompressedPtr.h:226-231 `saveState` / `getRaw`. -/
def save5 (p : Ptr5) : BitVec 64 := (p.region.setWidth 64 <<< 32) + p.ptr.setWidth 64
/-- CompressedPtr.h:223-224, 295-303. -/
def restore5 (x : BitVec 64) : Ptr5 := ⟨x.setWidth 32, (x.sshiftRight 32).setWidth 8⟩
/-- CompressedPtr.h:214-217 -/
def maxAddressable5 : Nat := 2 ^ (numSlabIdxBits5 false + kNumSlabBits)

/-! ### SlabAllocator -/

/-- The part of SlabAllocator used here: SlabAllocator.h:461-472 and the `allocSize` field of the header of each slab. -/
structure Alloc where
  memoryStart : Nat
  memorySize : Nat
  slabMemoryStart : Nat
  nextSlab : Nat                 -- nextSlabAllocation_ (an address)
  allocSize : Nat → Nat          -- getSlabHeader(idx)->getAllocSize()

/-- SlabHeader is 7 bytes, packed (Slab.h:119-239). -/
def sizeofSlabHeader : Nat := 7
/-- SlabAllocator.cpp:352-354 -/
def numSlabs (memorySize : Nat) : Nat := memorySize / slabSize
/-- SlabAllocator.cpp:355-359 -/
def numSlabsForHeaders (memorySize : Nat) : Nat :=
  (sizeofSlabHeader * numSlabs memorySize + slabSize - 1) / slabSize
/-- SlabAllocator.cpp:375-392; `none` = invalid_argument. -/
def computeSlabMemoryStart (memoryStart memorySize : Nat) : Option Nat :=
  if numSlabs memorySize ≤ numSlabsForHeaders memorySize then none
  else if memoryStart = 0 ∨ memoryStart % slabSize ≠ 0 then none
  else some (memoryStart + numSlabsForHeaders memorySize * slabSize)
/-- SlabAllocator.cpp:146-163 constructor with roundDownToSlabSize (44-46) and checkState (74-103). -/
def Alloc.create (memoryStart memorySize : Nat) : Option Alloc :=
  let memorySize := memorySize - memorySize % slabSize
  match computeSlabMemoryStart memoryStart memorySize with
  | none => none
  | some s => if memorySize ≤ slabSize then none else some ⟨memoryStart, memorySize, s, s, fun _ => 0⟩

/-- SlabAllocator.h:229-235 with kAddressMask (516-518): round down to the slab boundary. -/
def getSlabForMemory (p : Nat) : Nat := p - p % slabSize
/-- SlabAllocator.h:218-224 -/
def Alloc.isValidSlab (a : Alloc) (slab : Nat) : Bool :=
  decide (a.slabMemoryStart ≤ slab) && decide (slab < a.nextSlab) && getSlabForMemory slab == slab
/-- slab index and allocation index computed by SlabAllocator.h:251-265; `none` = invalid_argument. -/
def Alloc.indices (a : Alloc) (p : Nat) : Option (Nat × Nat) :=
  let slab := getSlabForMemory p
  if !a.isValidSlab slab then none
  else
    let slabIndex := (slab - a.slabMemoryStart) / slabSize
    some (slabIndex, (p - slab) / a.allocSize slabIndex)

/-- SlabAllocator.h:245-267 with CompressedPtr4B. -/
def Alloc.compressPtr4 (a : Alloc) (p : Nat) (multi : Bool) : Option (BitVec 32) :=
  if p = 0 then some null4
  else (a.indices p).map (fun i => compress4 (BitVec.ofNat 32 i.1) (BitVec.ofNat 32 i.2) multi 0)
/-- SlabAllocator.h:273-310 with CompressedPtr4B (32-bit product). -/
def Alloc.unCompressPtr4 (a : Alloc) (c : BitVec 32) (multi : Bool) : Nat :=
  if isNull4 c then 0
  else
    let slabIndex := (getSlabIdx4 c multi).toNat
    let allocIdx := (getAllocIdx4 c).toNat
    a.slabMemoryStart + slabIndex * slabSize + (a.allocSize slabIndex * allocIdx) % 2 ^ 32
/-- SlabAllocator.h:245-267 with CompressedPtr5B. -/
def Alloc.compressPtr5 (a : Alloc) (p : Nat) (multi : Bool) : Option Ptr5 :=
  if p = 0 then some null5
  else (a.indices p).map (fun i => mk5 (BitVec.ofNat 32 i.1) (BitVec.ofNat 32 i.2) multi 0)
/-- SlabAllocator.h:273-310 with CompressedPtr5B. -/
def Alloc.unCompressPtr5 (a : Alloc) (c : Ptr5) (multi : Bool) : Nat :=
  if isNull5 c then 0
  else
    let slabIndex := (getSlabIdx5 c multi).toNat
    let allocIdx := (getAllocIdx5 c).toNat
    a.slabMemoryStart + slabIndex * slabSize + (a.allocSize slabIndex * allocIdx) % 2 ^ 32

/-- SlabAllocator.cpp:605-615 `compressAlt` (benchmark variant): distance in 64-byte units. -/
def Alloc.compressAlt (a : Alloc) (p : Nat) : BitVec 32 :=
  if p = 0 then null4 else BitVec.ofNat 32 ((p - a.slabMemoryStart) / 2 ^ 6)

/-- SlabAllocator.cpp:617-655 `unCompressAlt`; `cPtr.getRaw() << kMarkerBits` is a 32-bit shift.  The header lookup of
line 626 would return null (then a null dereference) for an address outside the slabs: outcome `none`. -/
def Alloc.unCompressAlt (a : Alloc) (c : BitVec 32) : Option Nat :=
  if isNull4 c then some 0
  else
    let marker := a.slabMemoryStart + (c <<< 6).toNat
    let slab := getSlabForMemory marker
    if !a.isValidSlab slab then none
    else
      let allocSize := a.allocSize ((slab - a.slabMemoryStart) / slabSize)
      let slabOffset := marker - slab
      let delta := slabOffset % allocSize
      some (slab + (if delta ≠ 0 then slabOffset + (allocSize - delta) else slabOffset))

end Verif.CPtr
