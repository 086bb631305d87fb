/-
Model of bytesEqual (common/BytesEqual.h:34-91) and of the comparison of keys with it (allocator/KAllocation.h:82-86, common/Hash.h:98-103) (C67).
A pointer is the list of the readable bytes from there on; `none` is a read outside them.
-/
namespace Verif.Bytes

/-- memcpy of an integer of `n` bytes (little endian). -/
def load : Nat → List UInt8 → Option Nat
  | 0, _ => some 0
  | _ + 1, [] => none
  | n + 1, b :: l => (load n l).map fun x => b.toNat + 256 * x

/-- BytesEqual.h:34-42 eq<T>, for sizeof(T) = `n`. -/
def eqT (n : Nat) (a b : List UInt8) : Option Bool := do
  let x ← load n a
  let y ← load n b
  return x == y

/-- memcmp(a, b, n) == 0 of the C library. -/
def memEq : Nat → List UInt8 → List UInt8 → Option Bool
  | 0, _, _ => some true
  | n + 1, x :: a, y :: b => (memEq n a b).map fun r => x == y && r
  | _ + 1, _, _ => none

/-- BytesEqual.h:64-68: `len`, `a` and `b` after the loop. -/
def words (len : Nat) (a b : List UInt8) : Option (Nat × List UInt8 × List UInt8) :=
  if h : 8 ≤ len then
    match eqT 8 a b with
    | none => none
    | some true => words (len - 8) (a.drop 8) (b.drop 8)
    | some false => some (len, a, b)
  else some (len, a, b)
termination_by len

/-- BytesEqual.h:74-78 and 84-88: the steps of 4 and of 2 bytes. -/
def chunk (n : Nat) (len : Nat) (a b : List UInt8) : Option (Nat × List UInt8 × List UInt8) :=
  if n ≤ len then
    match eqT n a b with
    | none => none
    | some true => some (len - n, a.drop n, b.drop n)
    | some false => some (len, a, b)
  else some (len, a, b)

/-- BytesEqual.h:90. -/
def last (len : Nat) (a b : List UInt8) : Option Bool :=
  if len = 1 then (eqT 1 a b) else some (len == 0)

/-- BytesEqual.h:54-91 bytesEqual. -/
def bytesEqual (a b : List UInt8) (len : Nat) : Option Bool :=
  if 1024 ≤ len then memEq len a b
  else do
    let (len, a, b) ← words len a b
    if 8 ≤ len then return false
    let (len, a, b) ← chunk 4 len a b
    if 4 ≤ len then return false
    let (len, a, b) ← chunk 2 len a b
    last len a b

/-- KAllocation.h:82-84 Key::operator==; a key is its bytes. -/
def keyEq (a b : List UInt8) : Option Bool :=
  if a.length = b.length then bytesEqual a b a.length else some false

/-- Hash.h:81-118 HashedKey. -/
structure HashedKey where
  key : List UInt8
  hash : UInt64

/-- Hash.h:98-101 HashedKey::operator==. -/
def HashedKey.eq (a b : HashedKey) : Option Bool :=
  if a.hash = b.hash ∧ a.key.length = b.key.length then bytesEqual a.key b.key a.key.length else some false

end Verif.Bytes
