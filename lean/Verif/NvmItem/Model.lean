import Verif.Base.Bytes
/-!
Byte-level model of cachelib/allocator/nvmcache/NvmItem.{h,cpp}: the record an item (with its chained items) is packed into
for flash. An NvmItem is given by the address `p` of its first byte.
-/
namespace Verif.NvmItem
open Verif Mem

/-- Blob, NvmItem.h:31-38. -/
structure Blob where
  origAllocSize : Nat
  data : List UInt8
deriving DecidableEq

/-- sizeof(NvmItem): packed id_ (1), flags_ (1), creationTime_ (4), expTime_ (4), numBlobs_ (8), NvmItem.h:169-181. -/
def sizeofNvmItem : Nat := 18
/-- sizeof(BlobInfo), NvmItem.h:140-143. -/
def sizeofBlobInfo : Nat := 8
/-- numeric_limits<uint32_t>::max(), the type of endOffset, NvmItem.h:142. -/
def maxOffset : Nat := 2 ^ 32 - 1

/-- Field addresses, NvmItem.h:169-181. -/
def poolId (m : Mem) (p : Nat) : Nat := m.load p 1
def creationTime (m : Mem) (p : Nat) : Nat := m.load (p + 2) 4
def expiryTime (m : Mem) (p : Nat) : Nat := m.load (p + 6) 4
def numBlobs (m : Mem) (p : Nat) : Nat := m.load (p + 10) 8

/-- getBlobInfo(index): address of the entry, NvmItem.h:146-152. -/
def blobInfo (p index : Nat) : Nat := p + sizeofNvmItem + index * sizeofBlobInfo
/-- blobInfo.origAllocSize / blobInfo.endOffset, NvmItem.h:140-143. -/
def origAllocSize (m : Mem) (p index : Nat) : Nat := m.load (blobInfo p index) 4
def endOffset (m : Mem) (p index : Nat) : Nat := m.load (blobInfo p index + 4) 4
/-- getDataCBegin, NvmItem.h:132-134. -/
def dataBegin (m : Mem) (p : Nat) : Nat := p + sizeofNvmItem + numBlobs m p * sizeofBlobInfo

/-- Member initialisers of the constructor, NvmItem.cpp:48-51. -/
def header (m : Mem) (p id ct et n : Nat) : Mem :=
  ((((m.store p 1 id).store (p + 1) 1 0).store (p + 2) 4 ct).store (p + 6) 4 et).store (p + 10) 8 n

/-- The loop of the constructor, NvmItem.cpp:52-71. `none`: std::out_of_range. -/
def fill (p db : Nat) : List Blob → Nat → Nat → Mem → Option Mem
  | [], _, _, m => some m
  | b :: bs, index, offset, m =>
    if offset + b.data.length > maxOffset then none
    else
      let m := m.write (db + offset) b.data
      let offset := offset + b.data.length
      let m := m.store (blobInfo p index) 4 b.origAllocSize
      let m := m.store (blobInfo p index + 4) 4 offset
      fill p db bs (index + 1) offset m

/-- The constructor from a vector of blobs, NvmItem.cpp:44-72. -/
def construct (m : Mem) (p id ct et : Nat) (blobs : List Blob) : Option Mem :=
  let m := header m p id ct et blobs.length
  fill p (dataBegin m p) blobs 0 0 m

/-- The constructor from one blob, NvmItem.cpp:74-88. -/
def construct1 (m : Mem) (p id ct et : Nat) (b : Blob) : Option Mem :=
  let m := header m p id ct et 1
  if b.data.length > maxOffset then none
  else
    let m := m.write (dataBegin m p) b.data
    let m := m.store (blobInfo p 0) 4 b.origAllocSize
    some (m.store (blobInfo p 0 + 4) 4 b.data.length)

/-- getBlob, NvmItem.cpp:30-42. `none`: std::invalid_argument. -/
def getBlob (m : Mem) (p index : Nat) : Option Blob :=
  if index ≥ numBlobs m p then none
  else
    let begin := if index = 0 then 0 else endOffset m p (index - 1)
    let size := endOffset m p index - begin
    some ⟨origAllocSize m p index, m.read (dataBegin m p + begin) size⟩

/-- totalSize, NvmItem.cpp:104-108. -/
def totalSize (m : Mem) (p : Nat) : Nat :=
  sizeofNvmItem + numBlobs m p * sizeofBlobInfo + endOffset m p (numBlobs m p - 1)

/-- estimateVariableSize of one blob, NvmItem.cpp:118-120. -/
def estimate1 (b : Blob) : Nat := sizeofBlobInfo + b.data.length

/-- estimateVariableSize of a vector, NvmItem.cpp:110-116. -/
def estimate : List Blob → Nat
  | [] => 0
  | b :: bs => estimate1 b + estimate bs

/-- isExpired, NvmItem.cpp:122-125, `now` the clock. -/
def isExpired (m : Mem) (p now : Nat) : Bool := decide (expiryTime m p > 0) && decide (expiryTime m p < now)

end Verif.NvmItem
