import Verif.Datatype.Coh

/-! # `FixedSizeArray` (cachelib/datatype/FixedSizeArray.h), on bytes

Several cache items exist; each of them may hold an array.  An access outside the memory of the item is undefined
behaviour. -/

namespace Verif.Datatype

/-- The element type: its bytes (`E`, `E.ks = sizeof(T)`), the value `T{}`, and `sizeof(FixedSizeArrayLayout)`, which
is also the offset of `elements_` (4 rounded up to the alignment of `T`). -/
structure FACfg (T : Type) where
  E : KeyEnc T
  dflt : T
  hd : Nat

/-- The memory of an item and its size (`getSize()`). -/
structure FAItem where
  sz : Nat
  mem : Mem

inductive FAOp (T : Type) where
  /-- the constructor, FixedSizeArray.h:194-206 -/
  | construct (i n : Nat)
  /-- FixedSizeArray.h:230 -/
  | size (i : Nat)
  /-- reading through FixedSizeArray.h:235-236 -/
  | at (i j : Nat)
  /-- writing through FixedSizeArray.h:235 -/
  | setAt (i j : Nat) (x : T)
  /-- reading through FixedSizeArray.h:232-233 -/
  | get (i j : Nat)
  /-- writing through FixedSizeArray.h:232 -/
  | set (i j : Nat) (x : T)
  /-- FixedSizeArray.h:240-243, into an empty container; also iteration, 222-227 -/
  | copyTo (i : Nat)
  /-- FixedSizeArray.h:247-251 -/
  | copyFrom (i : Nat) (l : List T)
  /-- FixedSizeArray.h:215-217 -/
  | eq (i j : Nat)
  /-- FixedSizeArray.h:218-220 -/
  | ne (i j : Nat)
  /-- FixedSizeArray.h:150-160 -/
  | isEqual (i : Nat) (v : List T)

inductive FAOut (T : Type) where
  | ub
  /-- `std::invalid_argument` or `std::out_of_range` -/
  | throws
  | unit
  | num (n : Nat)
  | val (x : T)
  | vals (l : List T)
  | bool (b : Bool)
  deriving DecidableEq

namespace FA
variable {T : Type} [DecidableEq T]

/-- FixedSizeArray.h:35-37, 187-189: `numElements * sizeof(T)` is computed in `size_t`, the result is a `uint32_t`. -/
def computeStorageSize (cfg : FACfg T) (numElements : Nat) : Nat := u32 (cfg.hd + numElements * cfg.E.ks)

/-- Reading `elements_[i]` (FixedSizeArray.h:134-135); `none` is a read outside the item. -/
def rdE (cfg : FACfg T) (it : FAItem) (i : Nat) : Option T :=
  if cfg.hd + (i + 1) * cfg.E.ks ≤ it.sz then some (cfg.E.dec (rdBytes it.mem (cfg.hd + i * cfg.E.ks) cfg.E.ks))
  else none

/-- Writing `elements_[i]`; `none` is a write outside the item. -/
def wrE (cfg : FACfg T) (it : FAItem) (i : Nat) (x : T) : Option FAItem :=
  if cfg.hd + (i + 1) * cfg.E.ks ≤ it.sz then
    some { it with mem := wrBytes it.mem (cfg.hd + i * cfg.E.ks) (cfg.E.enc x) }
  else none

/-- `numElements_` (FixedSizeArray.h:47, 123). -/
def numElements (it : FAItem) : Nat := rd32 it.mem 0

/-- FixedSizeArray.h:41-43: the loop of the layout's constructor from element `i` on; `m` elements remain. -/
def initFrom (cfg : FACfg T) : Nat → Nat → FAItem → Option FAItem
  | 0, _, it => some it
  | m + 1, i, it => match wrE cfg it i cfg.dflt with
    | none => none
    | some it' => initFrom cfg m (i + 1) it'

/-- FixedSizeArray.h:195-206 with 40: `none` is undefined behaviour, `some none` a throw. -/
def construct (cfg : FACfg T) (it : FAItem) (n : Nat) : Option (Option FAItem) :=
  let requiredSize := computeStorageSize cfg (u32 n)
  if requiredSize > it.sz then some none
  else if it.sz < 4 then none
  else
    let it1 : FAItem := { it with mem := wr32 it.mem 0 (u32 n) }
    match initFrom cfg (numElements it1) 0 it1 with
    | none => none
    | some it' => some (some it')

/-- FixedSizeArray.h:67-73 `copyTo` with the iterators of 88-105: from element `i` on, `m` elements remain. -/
def copyToFrom (cfg : FACfg T) (it : FAItem) : Nat → Nat → Option (List T)
  | 0, _ => some []
  | m + 1, i => match rdE cfg it i with
    | none => none
    | some x => match copyToFrom cfg it m (i + 1) with
      | none => none
      | some l => some (x :: l)

/-- FixedSizeArray.h:77-85 `copyFrom`; the iterator's increment (DataTypes.h:43-46, 56-64) throws only after the
write. -/
def copyFromFrom (cfg : FACfg T) : List T → Nat → FAItem → Option (FAItem × FAOut T)
  | [], _, it => some (it, .unit)
  | x :: l, i, it => match wrE cfg it i x with
    | none => none
    | some it' => if i ≥ numElements it' then some (it', .throws) else copyFromFrom cfg l (i + 1) it'

/-- FixedSizeArray.h:111-116: the loop of `operator==`; `m` elements remain. -/
def eqFrom (cfg : FACfg T) (a b : FAItem) : Nat → Nat → Option Bool
  | 0, _ => some true
  | m + 1, i => match rdE cfg a i, rdE cfg b i with
    | some x, some y => if x ≠ y then some false else eqFrom cfg a b m (i + 1)
    | _, _ => none

/-- FixedSizeArray.h:107-117 `operator==`. -/
def eq (cfg : FACfg T) (a b : FAItem) : Option Bool :=
  if numElements a ≠ numElements b then some false else eqFrom cfg a b (numElements a) 0

/-- FixedSizeArray.h:138-148 `isEqual` on iterators, the first being a position in the array. -/
def isEqualFrom (cfg : FACfg T) (it : FAItem) : Nat → Nat → List T → Option Bool
  | 0, _, _ => some true
  | _ + 1, _, [] => some true
  | m + 1, i, y :: l => match rdE cfg it i with
    | none => none
    | some x => if x ≠ y then some false else isEqualFrom cfg it m (i + 1) l

/-- FixedSizeArray.h:150-160 `isEqual`. -/
def isEqual (cfg : FACfg T) (it : FAItem) (v : List T) : Option Bool :=
  if numElements it = v.length then isEqualFrom cfg it (numElements it) 0 v else some false

/-- FixedSizeArray.h:126-132 -/
def checkBounds (it : FAItem) (j : Nat) : Bool := ! decide (j ≥ numElements it)

/-- One call.  Indices are converted to `uint32_t` at the call. -/
def step (cfg : FACfg T) (W : List FAItem) : FAOp T → List FAItem × FAOut T
  | .construct i n => match W[i]? with
    | none => (W, .ub)
    | some it => match construct cfg it n with
      | none => (W, .ub)
      | some none => (W, .throws)
      | some (some it') => (W.set i it', .unit)
  | .size i => match W[i]? with
    | none => (W, .ub)
    | some it => (W, .num (numElements it))
  | .at i j => match W[i]? with
    | none => (W, .ub)
    | some it => if checkBounds it (u32 j) then
        (match rdE cfg it (u32 j) with
        | none => (W, .ub)
        | some x => (W, .val x))
      else (W, .throws)
  | .setAt i j x => match W[i]? with
    | none => (W, .ub)
    | some it => if checkBounds it (u32 j) then
        (match wrE cfg it (u32 j) x with
        | none => (W, .ub)
        | some it' => (W.set i it', .unit))
      else (W, .throws)
  | .get i j => match W[i]? with
    | none => (W, .ub)
    | some it => match rdE cfg it (u32 j) with
      | none => (W, .ub)
      | some x => (W, .val x)
  | .set i j x => match W[i]? with
    | none => (W, .ub)
    | some it => match wrE cfg it (u32 j) x with
      | none => (W, .ub)
      | some it' => (W.set i it', .unit)
  | .copyTo i => match W[i]? with
    | none => (W, .ub)
    | some it => match copyToFrom cfg it (numElements it) 0 with
      | none => (W, .ub)
      | some l => (W, .vals l)
  | .copyFrom i l => match W[i]? with
    | none => (W, .ub)
    | some it => match copyFromFrom cfg l 0 it with
      | none => (W, .ub)
      | some (it', r) => (W.set i it', r)
  | .eq i j => match W[i]?, W[j]? with
    | some a, some b => (match eq cfg a b with
      | none => (W, .ub)
      | some r => (W, .bool r))
    | _, _ => (W, .ub)
  | .ne i j => match W[i]?, W[j]? with
    | some a, some b => (match eq cfg a b with
      | none => (W, .ub)
      | some r => (W, .bool (!r)))
    | _, _ => (W, .ub)
  | .isEqual i v => match W[i]? with
    | none => (W, .ub)
    | some it => match isEqual cfg it v with
      | none => (W, .ub)
      | some r => (W, .bool r)

/-- A sequence of calls and their results. -/
def run (cfg : FACfg T) : List FAItem → List (FAOp T) → List (FAOp T × FAOut T)
  | _, [] => []
  | W, op :: l => (op, (step cfg W op).2) :: run cfg (step cfg W op).1 l

end FA
end Verif.Datatype
