/-!
# `cachelib/datatype/Buffer.h`, `Buffer.cpp`: byte-level model of `Buffer`

The storage of a `cachelib::Map` / `cachelib::RangeMap` is a chain of items, each holding a `Buffer`:
a bump allocator of slots with a 4-byte header.  The model works on bytes: headers are written to and
read from the same memory as the data of the slots.
-/

namespace Verif.Datatype

abbrev Byte := UInt8
/-- The flexible array `uint8_t data_[]` (Buffer.h:176). -/
abbrev Mem := Nat → Byte

/-- Little-endian load of the `uint32_t size_` of a slot header (Buffer.h:166). -/
def rd32 (m : Mem) (o : Nat) : Nat :=
  (m o).toNat + 256 * (m (o + 1)).toNat + 65536 * (m (o + 2)).toNat + 16777216 * (m (o + 3)).toNat

/-- Little-endian store of the `uint32_t size_` of a slot header (Buffer.h:154, 162). -/
def wr32 (m : Mem) (o v : Nat) : Mem := fun x =>
  if x = o then UInt8.ofNat v
  else if x = o + 1 then UInt8.ofNat (v / 256)
  else if x = o + 2 then UInt8.ofNat (v / 65536)
  else if x = o + 3 then UInt8.ofNat (v / 16777216)
  else m x

/-- The bytes read by a `memcpy` of `n` bytes from `&data_[o]`. -/
def rdBytes (m : Mem) (o n : Nat) : List Byte := (List.range n).map (fun i => m (o + i))

/-- `memcpy(&data_[o], l, l.length)`. -/
def wrBytes (m : Mem) (o : Nat) (l : List Byte) : Mem := fun x =>
  if o ≤ x ∧ x < o + l.length then l.getD (x - o) 0 else m x

/-- `uint32_t` wrap-around. -/
def u32 (n : Nat) : Nat := n % 4294967296

/-- Buffer.h:169 -/
def kRemovalMask : Nat := 2147483648
/-- Buffer.h:170 -/
def kSizeMask : Nat := 4194303
/-- Buffer.h:57-58 -/
def kInvalidOffset : Nat := 4294967295

/-- Buffer.h:150-152 and 48-50 `Slot::getAllocSize(size)`; `sizeof(Slot)` is 4 (the class is packed and has
one `uint32_t` and a flexible array). -/
def getAllocSize (size : Nat) : Nat := u32 (4 + size)

/-- Buffer.h:173-176: the fields of `Buffer`. -/
structure Buffer where
  cap : Nat
  deleted : Nat
  next : Nat
  data : Mem

namespace Buffer

/-- Buffer.h:156 `Slot::getSize` of the slot whose header is at byte `so`. -/
def slotSize (b : Buffer) (so : Nat) : Nat := rd32 b.data so &&& kSizeMask
/-- Buffer.h:160 `Slot::getAllocSize()`. -/
def slotAllocSize (b : Buffer) (so : Nat) : Nat := getAllocSize (b.slotSize so)
/-- Buffer.h:163 `Slot::isRemoved`. -/
def slotRemoved (b : Buffer) (so : Nat) : Bool := (rd32 b.data so &&& kRemovalMask) != 0

/-- Buffer.h:52 `Buffer(capacity)`: the data bytes are whatever the item's memory contains (`junk`). -/
def fresh (cap : Nat) (junk : Mem) : Buffer := ⟨cap, 0, 0, junk⟩

/-- Buffer.cpp:33-38 `Buffer(capacity, other)`: only the first `other.nextByte_` bytes are copied. -/
def copyOf (cap : Nat) (o : Buffer) (junk : Mem) : Buffer :=
  ⟨cap, o.deleted, o.next, fun x => if x < o.next then o.data x else junk x⟩

/-- Buffer.h:76 -/
def remainingBytes (b : Buffer) : Nat := u32 (b.cap + 4294967296 - b.next)
/-- Buffer.h:77 -/
def wastedBytes (b : Buffer) : Nat := b.deleted

/-- Buffer.cpp:29-31 -/
def canAllocateWithoutCompaction (b : Buffer) (size : Nat) : Bool :=
  decide (getAllocSize size ≤ b.remainingBytes)

/-- Buffer.cpp:40-54 `Buffer::allocate`: the new state and the offset of the data (or `kInvalidOffset`). -/
def allocate (b : Buffer) (size : Nat) : Buffer × Nat :=
  let allocSize := u32 (4 + size)
  if u32 (b.next + allocSize) > b.cap then (b, kInvalidOffset)
  else
    let m := wr32 b.data b.next (size &&& kSizeMask)
    let b' : Buffer := { b with data := m }
    ({ b' with next := u32 (b.next + b'.slotAllocSize b.next) }, b.next + 4)

/-- Buffer.cpp:99-111 `getSlotImpl`: the offset of the slot header, `none` is the `invalid_argument` throw. -/
def getSlot (b : Buffer) (dataOffset : Nat) : Option Nat :=
  if dataOffset ≥ b.next ∨ dataOffset < 4 then none else some (dataOffset - 4)

/-- Buffer.cpp:56-62 `Buffer::remove` (with Buffer.h:162 `markRemoved`). -/
def remove (b : Buffer) (offset : Nat) : Option Buffer :=
  match b.getSlot offset with
  | none => none
  | some so =>
    if b.slotRemoved so then some b
    else
      let b' : Buffer := { b with data := wr32 b.data so (rd32 b.data so ||| kRemovalMask) }
      some { b' with deleted := u32 (b.deleted + b'.slotAllocSize so) }

/-- Buffer.cpp:78-88, the loop of `Buffer::compact`.  `none` stands for undefined behaviour: writing at
`kInvalidOffset`, or not terminating (fuel). -/
def compactLoop (src : Buffer) : Nat → Nat → Buffer → Option Buffer
  | 0, _, _ => none
  | f + 1, srcOffset, dest =>
    if srcOffset < src.next then
      if src.slotRemoved srcOffset then
        compactLoop src f (srcOffset + src.slotAllocSize srcOffset) dest
      else
        let r := dest.allocate (src.slotSize srcOffset)
        if r.2 = kInvalidOffset then none
        else
          compactLoop src f (srcOffset + src.slotAllocSize srcOffset)
            { r.1 with data := wrBytes r.1.data r.2 (rdBytes src.data (srcOffset + 4) (src.slotSize srcOffset)) }
    else some dest

/-- Buffer.cpp:68-89 `Buffer::compact(dest)`; `none` is the `invalid_argument` throw or undefined
behaviour. -/
def compact (b dest : Buffer) : Option Buffer :=
  if dest.cap < u32 (b.cap + 2 * 4294967296 - b.wastedBytes - b.remainingBytes) then none
  else compactLoop b (b.next + 1) 0 dest

/-- Buffer.cpp:113-118 `getFirstSlot`: outer `none` is a throw, inner `none` is `nullptr`; slots are named by
the offset of their data (Buffer.cpp:130-134 `getDataOffset`). -/
def getFirstSlot (b : Buffer) : Option (Option Nat) :=
  if b.next < getAllocSize 0 then some none
  else match b.getSlot (getAllocSize 0) with
    | none => none
    | some so => some (some (so + 4))

/-- Buffer.cpp:120-128 `getNextSlot`. -/
def getNextSlot (b : Buffer) (cur : Nat) : Option (Option Nat) :=
  let nextDataOffset := u32 (cur + b.slotAllocSize (cur - 4))
  if nextDataOffset ≥ b.next then some none
  else match b.getSlot nextDataOffset with
    | none => none
    | some so => some (some (so + 4))

/-- Buffer.h:84-124 the iterator of a buffer: the data offsets it visits, from the slot `cur` on
(constructor 86-94 and `increment` 108-124 both skip removed slots).  `none` is a throw or (fuel) not
terminating. -/
def iterFrom (b : Buffer) : Nat → Option Nat → Option (List Nat)
  | 0, _ => none
  | _ + 1, none => some []
  | f + 1, some cur =>
    match b.getNextSlot cur with
    | none => none
    | some nx =>
      match iterFrom b f nx with
      | none => none
      | some l => if b.slotRemoved (cur - 4) then some l else some (cur :: l)

/-- Buffer.h:143 `for (it = begin(); it != end(); ++it)`. -/
def iter (b : Buffer) : Option (List Nat) :=
  match b.getFirstSlot with
  | none => none
  | some c => b.iterFrom (b.next + 1) c

end Buffer

end Verif.Datatype
