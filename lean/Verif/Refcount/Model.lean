/-
Model of `cachelib/allocator/Refcount.h` (class `RefcountWithFlags`).

The packed word is a `BitVec 32`, and every member function is written with the same
masks, shifts and 32-bit wrap-around arithmetic as the C++ source.  Exceptions are the
`Except` error channel.  `atomicUpdateValue` (Refcount.h:510-533) is a CAS loop: its linearization point is
either the iteration whose predicate fails or the successful compare-exchange, so one call is one
atomic function of the current word; failed CAS iterations have no effect and are not modelled.
`XDCHECK`s are debug-only and are not modelled as checks: they show up as caller obligations in
`Props.lean`.
-/
namespace Verif.Refcount

/-- Refcount.h:53 `using Value = uint32_t`. -/
abbrev Word := BitVec 32

/-- Refcount.h:58 -/
def kNumAdminRefBits : Nat := 3
/-- Refcount.h:59 -/
def kNumAccessRefBits : Nat := 18
/-- Refcount.h:57 -/
def kNumFlags : Nat := 11

/-- Refcount.h:65-67: `max() >> (32 - 18)`. -/
def kAccessRefMask : Word := (BitVec.allOnes 32) >>> (32 - kNumAccessRefBits)
/-- Refcount.h:68-70: `max() >> (32 - 3 - 18)`. -/
def kRefMask : Word := (BitVec.allOnes 32) >>> (32 - kNumAdminRefBits - kNumAccessRefBits)

/-- Refcount.h:78-88 `enum AdminRef` : bit positions 18, 19, 20. -/
def kLinked : Nat := kNumAccessRefBits
def kAccessible : Nat := kNumAccessRefBits + 1
def kExclusive : Nat := kNumAccessRefBits + 2

/-- Refcount.h:99-130 `enum Flags`: bit positions 21.. in declaration order. -/
inductive Flag where
  | mmFlag0 | mmFlag1 | mmFlag2 | isChainedItem | hasChainedItem | nvmClean | nvmEvicted
  | unevictableNoop | nvmLargeItem | removedByReplacement
  deriving DecidableEq, Repr

/-- Refcount.h:99-130: numeric value of a flag enumerator. -/
def Flag.pos : Flag → Nat
  | .mmFlag0 => kNumAccessRefBits + kNumAdminRefBits
  | .mmFlag1 => kNumAccessRefBits + kNumAdminRefBits + 1
  | .mmFlag2 => kNumAccessRefBits + kNumAdminRefBits + 2
  | .isChainedItem => kNumAccessRefBits + kNumAdminRefBits + 3
  | .hasChainedItem => kNumAccessRefBits + kNumAdminRefBits + 4
  | .nvmClean => kNumAccessRefBits + kNumAdminRefBits + 5
  | .nvmEvicted => kNumAccessRefBits + kNumAdminRefBits + 6
  | .unevictableNoop => kNumAccessRefBits + kNumAdminRefBits + 7
  | .nvmLargeItem => kNumAccessRefBits + kNumAdminRefBits + 8
  | .removedByReplacement => kNumAccessRefBits + kNumAdminRefBits + 9

/-- Refcount.h:535-549 `getFlag` / `getAdminRef`: `1 << bit`. -/
def bitMask (i : Nat) : Word := (1#32) <<< i

/-- Refcount.h:142 `enum IncResult`. -/
inductive IncResult where
  | ok | failedMoving | failedEviction
  deriving DecidableEq, Repr

/-- Refcount.h:35 `enum class MarkForEvictionResult`. -/
inductive MarkRes where
  | success | unlinked | exclusive | refHeld
  deriving DecidableEq, Repr

/-- `cachelib/common/Exceptions.h`: the two exceptions thrown. -/
inductive Err where
  | refcountOverflow | refcountUnderflow
  deriving DecidableEq, Repr

/-- Refcount.h:153-177 `incRef`. -/
def incRef (w : Word) : Except Err (Word × IncResult) :=
  let exclusiveBitIsSet := w &&& bitMask kExclusive != 0
  if w &&& kAccessRefMask == kAccessRefMask then .error .refcountOverflow
  else if exclusiveBitIsSet then
    .ok (w, if w &&& kAccessRefMask == 0 then .failedEviction else .failedMoving)
  else .ok (w + 1, .ok)

/-- Refcount.h:184-204 `decRef`; the result is `retValue & kRefMask`. -/
def decRef (w : Word) : Except Err (Word × Word) :=
  if w &&& kAccessRefMask == 0 then .error .refcountUnderflow
  else let r := w - 1; .ok (r, r &&& kRefMask)

/-- Refcount.h:207-217 `getAccessRef`. -/
def getAccessRef (w : Word) : Word :=
  let accessRef := w &&& kAccessRefMask
  if (w &&& bitMask kExclusive != 0) && decide (1 ≤ accessRef.toNat) then accessRef - 1 else accessRef

/-- Refcount.h:220-222 `getRefWithAccessAndAdmin`. -/
def getRefWithAccessAndAdmin (w : Word) : Word := w &&& kRefMask

/-- Refcount.h:242-245, 260-263 `markInMMContainer`, `markAccessible`, and 479-486 `setFlag`:
`__atomic_or_fetch`. -/
def setBit (i : Nat) (w : Word) : Word := w ||| bitMask i
/-- Refcount.h:246-249, 264-267 `unmarkInMMContainer`, `unmarkAccessible`: `__atomic_and_fetch` with `~mask`. -/
def clearBit (i : Nat) (w : Word) : Word := w &&& ~~~ (bitMask i)
/-- Refcount.h:487-495 `unSetFlag`: mask is `max() - (1 << flagBit)`. -/
def unSetFlag (f : Flag) (w : Word) : Word := w &&& (BitVec.allOnes 32 - bitMask f.pos)
/-- Refcount.h:250-252, 268-270, 496-499: `getRaw() & mask` tested as bool. -/
def isBit (i : Nat) (w : Word) : Bool := w &&& bitMask i != 0

/-- Refcount.h:296-329 `markForEviction`. -/
def markForEviction (w : Word) : Word × MarkRes :=
  let unlinked := !(w &&& bitMask kLinked != 0)
  let alreadyExclusive := w &&& bitMask kExclusive != 0
  if unlinked then (w, .unlinked)
  else if alreadyExclusive then (w, .exclusive)
  else if w &&& kAccessRefMask != 0 then (w, .refHeld)
  else (w ||| bitMask kExclusive, .success)

/-- Refcount.h:331-335 `unmarkForEviction`. -/
def unmarkForEviction (w : Word) : Word × Word :=
  let r := w &&& ~~~ (bitMask kExclusive)
  (r, r &&& kRefMask)

/-- Refcount.h:337-340 `isMarkedForEviction`. -/
def isMarkedForEviction (w : Word) : Bool :=
  (w &&& bitMask kExclusive != 0) && (w &&& kAccessRefMask == 0)

/-- Refcount.h:358-384 `markMoving`. -/
def markMoving (w : Word) : Word × Bool :=
  let unlinked := !(w &&& bitMask kLinked != 0)
  let alreadyExclusive := w &&& bitMask kExclusive != 0
  if decide (0 < (w &&& kAccessRefMask).toNat) || unlinked || alreadyExclusive then (w, false)
  else ((w + 1) ||| bitMask kExclusive, true)

/-- Refcount.h:386-404 `unmarkMoving`. -/
def unmarkMoving (w : Word) : Word × Word :=
  let r := (w - 1) &&& ~~~ (bitMask kExclusive)
  (r, r &&& kRefMask)

/-- Refcount.h:406-409 `isMoving`. -/
def isMoving (w : Word) : Bool :=
  (w &&& bitMask kExclusive != 0) && (w &&& kAccessRefMask != 0)

/-- Refcount.h:415-426 `markForEvictionWhenMoving`: always succeeds, drops the internal reference. -/
def markForEvictionWhenMoving (w : Word) : Word := w - 1

/-- Refcount.h:470 `isDrained`. -/
def isDrained (w : Word) : Bool := getRefWithAccessAndAdmin w == 0

end Verif.Refcount
