import Verif.Base.Bytes
/-!
Byte-level model of an item's key/value area: cachelib/allocator/KAllocation.h, the size computations and the
constructors of CacheItem.h and cachelib/common/BytesEqual.h. A memory `Mem` is the address space; an
object is given by its address.
-/
namespace Verif.KAlloc
open Verif Mem

/-- A `folly::StringPiece` passed by the user: its bytes and whether its start pointer is non-null
(KAllocation.h:73-87). -/
structure Piece where
  data : List UInt8
  nonNull : Bool

/-- kKeyMaxLenSmall, KAllocation.h:46-47. -/
def kKeyMaxLenSmall : Nat := 2 ^ 8 - 1
/-- kMaxValSizeBits / kMaxValSize, KAllocation.h:51-55. -/
def kMaxValSizeBits : Nat := 32 - 8
def kMaxValSize : Nat := 2 ^ kMaxValSizeBits - 1
/-- kKeyMaxLen, KAllocation.h:60. -/
def kKeyMaxLen : Nat := kMaxValSize
/-- sizeof(PackedSize), KAllocation.h:167-171. -/
def sizeofPackedSize : Nat := 4
/-- sizeof(LargeKey) = sizeof(LargeKeyLenT), KAllocation.h:57,180-183. -/
def sizeofLargeKey : Nat := 4

/-- extraBytesForLargeKeys, KAllocation.h:66-68. -/
def extraBytesForLargeKeys (keySize : Nat) : Nat := if keySize ≤ kKeyMaxLenSmall then 0 else sizeofLargeKey

/-- isKeyValid, KAllocation.h:211-214. -/
def isKeyValid (k : Piece) : Bool := decide (k.data.length ≤ kKeyMaxLen) && !k.data.isEmpty && k.nonNull

/-- isSmallKeyValid, KAllocation.h:249-251. -/
def isSmallKeyValid (k : Piece) : Bool := decide (k.data.length ≤ kKeyMaxLenSmall) && !k.data.isEmpty && k.nonNull

/-- size_.valSize_: bit field of 24 low bits, KAllocation.h:167-170. -/
def valSizeField (m : Mem) (p : Nat) : Nat := m.load p 4 % 2 ^ kMaxValSizeBits
/-- size_.keySize_: bit field of 8 high bits, KAllocation.h:167-170. -/
def keySizeField (m : Mem) (p : Nat) : Nat := m.load p 4 / 2 ^ kMaxValSizeBits
/-- Assignment `size_.valSize_ = v` (truncated to the field), KAllocation.h:107. -/
def setValSize (m : Mem) (p v : Nat) : Mem :=
  m.store p 4 (keySizeField m p * 2 ^ kMaxValSizeBits + v % 2 ^ kMaxValSizeBits)
/-- Assignment `size_.keySize_ = v` (truncated to the field), KAllocation.h:109,111. -/
def setKeySize (m : Mem) (p v : Nat) : Mem :=
  m.store p 4 (v % 2 ^ 8 * 2 ^ kMaxValSizeBits + valSizeField m p)

/-- Address of data_, KAllocation.h:178 (directly after size_). -/
def dataField (p : Nat) : Nat := p + sizeofPackedSize

/-- isSmallKey, KAllocation.h:185-188 (the NoAsan variant is identical). -/
def isSmallKey (m : Mem) (p : Nat) : Bool := keySizeField m p != 0
/-- getData, KAllocation.h:190-197. -/
def getData (m : Mem) (p : Nat) : Nat := if isSmallKey m p then dataField p else dataField p + sizeofLargeKey
/-- getKeySize, KAllocation.h:199-207. -/
def getKeySize (m : Mem) (p : Nat) : Nat := if isSmallKey m p then keySizeField m p else m.load (dataField p) 4

/-- The constructor, KAllocation.h:99-118. `size_{}` zero-initialises the word (line 172). The exception text is dropped. -/
def construct (m : Mem) (p : Nat) (key : Piece) (valSize : Nat) : Option Mem :=
  if valSize > kMaxValSize then none
  else if !isKeyValid key then none
  else
    let m := m.store p 4 0
    let m := setValSize m p valSize
    let m :=
      if key.data.length ≤ kKeyMaxLenSmall then setKeySize m p key.data.length
      else (setKeySize m p 0).store (dataField p) 4 key.data.length
    some (m.write (getData m p) key.data)

/-- getKey, KAllocation.h:129-131. -/
def getKey (m : Mem) (p : Nat) : List UInt8 := m.read (getData m p) (getKeySize m p)

/-- getKeyCheckedNoAsan, KAllocation.h:135-146: address and size of the key returned (`none`: the empty key). -/
def getKeyChecked (m : Mem) (p allocSize : Nat) : Option (Nat × Nat) :=
  let headerSize := if isSmallKey m p then sizeofPackedSize else sizeofPackedSize + sizeofLargeKey
  let keySize := getKeySize m p
  if allocSize < headerSize ∨ keySize > allocSize - headerSize then none else some (getData m p, keySize)

/-- changeKey, KAllocation.h:149-154. -/
def changeKey (m : Mem) (p : Nat) (key : Piece) : Option Mem :=
  if key.data.length ≠ getKeySize m p then none else some (m.write (getData m p) key.data)

/-- getMemory, KAllocation.h:159. -/
def getMemory (m : Mem) (p : Nat) : Nat := getData m p + getKeySize m p

/-- getSize, KAllocation.h:162. -/
def getSize (m : Mem) (p : Nat) : Nat := valSizeField m p

/-! ### CacheItem: the KAllocation is its last member; `hdr` is the size of the members before it
(accessHook_, mmHook_, ref_, creationTime_, expiryTime_: CacheItem.h:445-472). The class is packed, so sizeof(Item) = hdr + 4. -/

/-- sizeof(Item), CacheItem.h:445-472. -/
def sizeofItem (hdr : Nat) : Nat := hdr + sizeofPackedSize

/-- Item::getRequiredSize, CacheItem.h:617-630 (and 633-643): zero if it does not fit 32 bits. -/
def itemRequiredSize (hdr keyLen size : Nat) : Nat :=
  let r := size + keyLen + sizeofItem hdr + extraBytesForLargeKeys keyLen
  if r > 2 ^ 32 - 1 then 0 else r

/-- The part of CacheItem's constructor that concerns the KAllocation, CacheItem.h:651-655. -/
def itemConstruct (hdr : Nat) (m : Mem) (it : Nat) (key : Piece) (size : Nat) : Option Mem :=
  construct m (it + hdr) key size

/-- CacheAllocator::allocateInternal's check and construction, CacheAllocator.h:3155-3165. -/
def allocateItem (allowLargeKeys : Bool) (hdr : Nat) (m : Mem) (it : Nat) (key : Piece) (size : Nat) : Option Mem :=
  if !allowLargeKeys && decide (key.data.length > kKeyMaxLenSmall) then none
  else itemConstruct hdr m it key size

/-- CacheAllocator::isKeyValid, CacheAllocator.h:4782-4785. -/
def cacheIsKeyValid (allowLargeKeys : Bool) (key : Piece) : Bool :=
  if allowLargeKeys then isKeyValid key else isSmallKeyValid key

/-- CacheItem::getOffsetForMemory, CacheItem.h:693-696 (non-chained case of getMemoryInternal 684-690). -/
def itemOffsetForMemory (hdr : Nat) (m : Mem) (it : Nat) : Nat := getMemory m (it + hdr) - it

/-- CacheItem::getTotalSize, CacheItem.h:708-712. -/
def itemTotalSize (hdr : Nat) (m : Mem) (it : Nat) : Nat := (getMemory m (it + hdr) - it) + getSize m (it + hdr)

/-- CacheAllocator::getUsableSize for a regular item, CacheAllocator.h:4773-4779. -/
def itemUsableSize (hdr : Nat) (m : Mem) (it allocSize : Nat) : Nat :=
  allocSize - itemRequiredSize hdr (getKey m (it + hdr)).length 0

/-! ### Chained items. `c` = sizeof(CompressedPtrType) (4 or 5) = kKeySize = sizeof(Payload) (one SListHook). -/

/-- CacheChainedItem::getRequiredSize, CacheItem.h:1050-1061. -/
def chainedRequiredSize (hdr c size : Nat) : Nat :=
  let r := size + c + sizeofItem hdr + c
  if r > 2 ^ 32 - 1 then 0 else r

/-- CacheChainedItem's constructor, CacheItem.h:1064-1075: key = compressed parent pointer, value size grown by the payload header
(32-bit sum), then the payload's hook is set to null (CompressedPtr's raw null is 0). -/
def chainedConstruct (hdr c : Nat) (m : Mem) (it parent size : Nat) : Option Mem :=
  match itemConstruct hdr m it ⟨le c parent, true⟩ ((size + c) % 2 ^ 32) with
  | none => none
  | some m => some (m.store (getMemory m (it + hdr)) c 0)

/-- CacheChainedItem::getMemory, CacheItem.h:1096-1098 with getPayload 1153-1161 and Payload::getMemory 1035. -/
def chainedMemory (hdr c : Nat) (m : Mem) (it : Nat) : Nat := getMemory m (it + hdr) + c

/-- CacheChainedItem::getSize, CacheItem.h:1101-1105. -/
def chainedSize (hdr c : Nat) (m : Mem) (it : Nat) : Nat := getSize m (it + hdr) - c

/-- CacheChainedItem::getParentItem (the compressed value), CacheItem.h:1089-1093. -/
def chainedParent (hdr c : Nat) (m : Mem) (it : Nat) : Nat := m.load (getData m (it + hdr)) c

/-- Payload::setNext / getNext on the raw compressed pointer, CacheItem.h:1037-1046. -/
def chainedSetNext (hdr c : Nat) (m : Mem) (it next : Nat) : Mem := m.store (getMemory m (it + hdr)) c next
def chainedGetNext (hdr c : Nat) (m : Mem) (it : Nat) : Nat := m.load (getMemory m (it + hdr)) c

/-- CacheChainedItem::changeKey, CacheItem.h:1078-1085 (the not-accessible check is left out). -/
def chainedChangeKey (hdr c : Nat) (m : Mem) (it parent : Nat) : Option Mem := changeKey m (it + hdr) ⟨le c parent, true⟩

/-! ### bytesEqual, cachelib/common/BytesEqual.h -/

/-- `eq<T>` with sizeof(T) = n, BytesEqual.h:34-42. -/
def eqT (n : Nat) (m : Mem) (a b : Nat) : Bool := m.load a n == m.load b n

/-- The while loop, BytesEqual.h:64-68. -/
def loop8 (m : Mem) (a b len : Nat) : Nat × Nat × Nat :=
  if h : len ≥ 8 then
    if eqT 8 m a b then loop8 m (a + 8) (b + 8) (len - 8) else (a, b, len)
  else (a, b, len)
termination_by len

/-- One `if (len >= n && eq<T>(a, b))` step, BytesEqual.h:74-78 (n = 4) and 84-88 (n = 2). -/
def step (n : Nat) (m : Mem) (s : Nat × Nat × Nat) : Nat × Nat × Nat :=
  if s.2.2 ≥ n ∧ eqT n m s.1 s.2.1 then (s.1 + n, s.2.1 + n, s.2.2 - n) else s

/-- bytesEqual, BytesEqual.h:54-91. memcmp of the long case is modelled as equality of the byte ranges. -/
def bytesEqual (m : Mem) (a b len : Nat) : Bool :=
  if len ≥ 1024 then m.read a len == m.read b len
  else
    let s := loop8 m a b len
    if s.2.2 ≥ 8 then false
    else
      let s := step 4 m s
      if s.2.2 ≥ 4 then false
      else
        let s := step 2 m s
        (s.2.2 == 1 && m s.1 == m s.2.1) || s.2.2 == 0

/-- Key::operator==, KAllocation.h:82-84, on two keys given by address and size. -/
def keyEq (m : Mem) (a asz b bsz : Nat) : Bool := asz == bsz && bytesEqual m a b asz

end Verif.KAlloc
