import Verif.BigHash.Storage
/-!
Model of cachelib/navy/bighash/Bucket.{h,cpp}: entries inside a bucket's storage.
The header fields checksum_, generationTime_ (Bucket.h:131-133) are handled in Engine.lean.
-/
namespace Verif.BigHash
open Verif Mem

/-- HashedKey, cachelib/common/Hash.h:82-112. -/
structure HKey where
  key : List UInt8
  hash : Nat
deriving DecidableEq

/-- DestructorEvent as used here (Bucket.cpp:117,150,167). -/
inductive Event | recycled | removed
deriving DecidableEq

/-- One invocation of the destructor callback: hashed key, value, event. -/
structure Call where
  hk : HKey
  value : List UInt8
  event : Event
deriving DecidableEq

/-- sizeof(BucketEntry), Bucket.h:172,177-180. -/
def sizeofEntry : Nat := 16

/-- BucketEntry::computeSize (32-bit), Bucket.h:140-142. -/
def computeSize (keySize valueSize : Nat) : Nat := (sizeofEntry + keySize + valueSize) % 2 ^ 32

/-- The fields of the BucketEntry at offset `o`, Bucket.h:155-180. -/
def entKeySize (m : Mem) (o : Nat) : Nat := m.load o 4
def entValueSize (m : Mem) (o : Nat) : Nat := m.load (o + 4) 4
def entHash (m : Mem) (o : Nat) : Nat := m.load (o + 8) 8
def entKey (m : Mem) (o : Nat) : List UInt8 := m.read (o + 16) (entKeySize m o)
def entValue (m : Mem) (o : Nat) : List UInt8 := m.read (o + 16 + entKeySize m o) (entValueSize m o)
def entHashedKey (m : Mem) (o : Nat) : HKey := ⟨entKey m o, entHash m o⟩

/-- HashedKey::operator==, common/Hash.h:98-101; bytesEqual is byte equality (proved in Verif.KAlloc.bytesEqual_iff). -/
def hkEq (a b : HKey) : Bool := a.hash == b.hash && a.key.length == b.key.length && a.key == b.key

/-- BucketEntry::keyEqualsTo, Bucket.h:161. -/
def entKeyEq (m : Mem) (o : Nat) (hk : HKey) : Bool := hkEq hk (entHashedKey m o)

/-- BucketEntry::create, Bucket.h:148-153,168-175. -/
def entCreate (m : Mem) (o : Nat) (hk : HKey) (value : List UInt8) : Mem :=
  let m := m.store o 4 hk.key.length
  let m := m.store (o + 4) 4 value.length
  let m := m.store (o + 8) 8 hk.hash
  let m := m.write (o + 16) hk.key
  m.write (o + 16 + entKeySize m o) value

/-- Loop of find, Bucket.cpp:62-69. -/
def findLoop (s : Store) (hk : HKey) (itr : Option Alloc) : Option (List UInt8) :=
  match itr with
  | none => none
  | some a =>
    if entKeyEq s.data a.off hk then some (entValue s.data a.off)
    else
      match h : s.getNext a with
      | none => none
      | some b => findLoop s hk (some b)
termination_by match itr with | none => 0 | some a => s.endOff + 4 - a.off
decreasing_by exact Store.getNext_lt h

/-- Bucket::find, Bucket.cpp:61-71. -/
def bfind (s : Store) (hk : HKey) : Option (List UInt8) := findLoop s hk s.getFirst

/-- Loop of remove, Bucket.cpp:161-173. -/
def removeKeyLoop (s : Store) (hk : HKey) (itr : Option Alloc) : Store × List Call × Nat :=
  match itr with
  | none => (s, [], 0)
  | some a =>
    if entKeyEq s.data a.off hk then
      (s.remove a, [⟨entHashedKey s.data a.off, entValue s.data a.off, .removed⟩], 1)
    else
      match h : s.getNext a with
      | none => (s, [], 0)
      | some b => removeKeyLoop s hk (some b)
termination_by match itr with | none => 0 | some a => s.endOff + 4 - a.off
decreasing_by exact Store.getNext_lt h

/-- Bucket::remove, Bucket.cpp:160-175 (with a callback). -/
def bremove (s : Store) (hk : HKey) : Store × List Call × Nat := removeKeyLoop s hk s.getFirst

/-- Loop of removeExpired, Bucket.cpp:138-155: collected allocations and callback invocations. -/
def expiredLoop (s : Store) (chk : List UInt8 → Bool) (itr : Option Alloc) : List Alloc × List Call :=
  match itr with
  | none => ([], [])
  | some a =>
    let call : Call := ⟨entHashedKey s.data a.off, entValue s.data a.off, .recycled⟩
    match h : s.getNext a with
    | none => if !chk (entValue s.data a.off) then ([], []) else ([a], [call])
    | some b =>
      let rest := expiredLoop s chk (some b)
      if !chk (entValue s.data a.off) then rest else (a :: rest.1, call :: rest.2)
termination_by match itr with | none => 0 | some a => s.endOff + 4 - a.off
decreasing_by exact Store.getNext_lt h

/-- Bucket::removeExpired, Bucket.cpp:131-158. `chk = none` models an empty `std::function`. -/
def removeExpired (s : Store) (chk : Option (List UInt8 → Bool)) : Store × List Call × Nat :=
  match chk with
  | none => (s, [], 0)
  | some c =>
    let r := expiredLoop s c s.getFirst
    (s.removeMany r.1, r.2, r.1.length)

/-- The while loop of makeSpace, Bucket.cpp:110-127. `none`: the iterator ran off the end (undefined behaviour in the C++). -/
def evictLoop (s : Store) (req free : Nat) (itr : Option Alloc) : Option (Store × List Call) :=
  match itr with
  | none => none
  | some a =>
    let call : Call := ⟨entHashedKey s.data a.off, entValue s.data a.off, .recycled⟩
    let free := free + slotSize a.size
    if free ≥ req then some (s.removeUntil (some a), [call])
    else
      match h : s.getNext a with
      | none => none
      | some b =>
        match evictLoop s req free (some b) with
        | none => none
        | some (s', calls) => some (s', call :: calls)
termination_by match itr with | none => 0 | some a => s.endOff + 4 - a.off
decreasing_by exact Store.getNext_lt h

/-- Bucket::makeSpace, Bucket.cpp:90-129: new storage, callback invocations, evictions, expirations. -/
def makeSpace (s : Store) (size : Nat) (chk : Option (List UInt8 → Bool)) : Option (Store × List Call × Nat × Nat) :=
  let req := slotSize size
  if s.remaining ≥ req then some (s, [], 0, 0)
  else
    let (s1, calls1, n1) := removeExpired s chk
    let free := s1.remaining
    if n1 > 0 ∧ free ≥ req then some (s1, calls1, n1, n1)
    else
      match evictLoop s1 req free s1.getFirst with
      | none => none
      | some (s2, calls2) => some (s2, calls1 ++ calls2, n1 + calls2.length, n1)

/-- Bucket::insert, Bucket.cpp:73-88. -/
def binsert (s : Store) (hk : HKey) (value : List UInt8) (chk : Option (List UInt8 → Bool)) :
    Option (Store × List Call × Nat × Nat) :=
  let size := computeSize hk.key.length value.length
  match makeSpace s size chk with
  | none => none
  | some (s1, calls, ev, ex) =>
    match s1.allocate size with
    | (_, none) => none
    | (s2, some a) => some ({ s2 with data := entCreate s2.data a.off hk value }, calls, ev, ex)

/-- The hashes visited by the iteration of Bucket::getFirst/getNext (Bucket.cpp:194-200), as BigHash::bfRebuild uses it
(BigHash.cpp:561-565). -/
def hashLoop (s : Store) (itr : Option Alloc) : List Nat :=
  match itr with
  | none => []
  | some a =>
    entHash s.data a.off ::
      match h : s.getNext a with
      | none => []
      | some b => hashLoop s (some b)
termination_by match itr with | none => 0 | some a => s.endOff + 4 - a.off
decreasing_by exact Store.getNext_lt h

def bhashes (s : Store) : List Nat := hashLoop s s.getFirst

/-- A C string starting at `o`: std::string built from `const char*` (bytes up to the first NUL), at most `fuel` bytes. -/
def cstring (m : Mem) (o : Nat) : Nat → List UInt8
  | 0 => []
  | fuel + 1 => if m o = 0 then [] else m o :: cstring m (o + 1) fuel

/-- Loop of getRandomAlloc, Bucket.cpp:180-191, `rand` the random offset. The key is converted through `const char*`
(line 186): it extends to the first NUL byte; `fuel` bounds the scan. -/
def randomLoop (s : Store) (rand fuel : Nat) (itr : Option Alloc) : Option (List UInt8 × List UInt8) :=
  match itr with
  | none => none
  | some a =>
    if rand < a.off + a.size then some (cstring s.data (a.off + 16) fuel, entValue s.data a.off)
    else
      match h : s.getNext a with
      | none => none
      | some b => randomLoop s rand fuel (some b)
termination_by match itr with | none => 0 | some a => s.endOff + 4 - a.off
decreasing_by exact Store.getNext_lt h

def brandom (s : Store) (rand fuel : Nat) : Option (List UInt8 × List UInt8) := randomLoop s rand fuel s.getFirst

end Verif.BigHash
