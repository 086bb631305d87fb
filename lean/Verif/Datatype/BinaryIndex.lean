import Verif.Datatype.BufMgr

/-! # `detail::BinaryIndex` (cachelib/datatype/RangeMap.h:214-443): a sorted array of keys and addresses -/

namespace Verif.Datatype

/-- RangeMap.h:214-278.  `ents i` is `entries_[i]`; positions from `num` on hold garbage. -/
structure BI (K : Type) where
  cap : Nat
  num : Nat
  ents : Nat → K × Nat

namespace BI
variable {K : Type} [DecidableEq K]

/-- `memmove(&entries_[dst], &entries_[src], n * sizeof(Entry))`. -/
def memmove (m : Nat → K × Nat) (dst src n : Nat) : Nat → K × Nat := fun x =>
  if dst ≤ x ∧ x < dst + n then m (src + (x - dst)) else m x

/-- RangeMap.h:317-321, 331-332: a new index over uninitialised memory. -/
def new (cap : Nat) (junk : Nat → K × Nat) : BI K := ⟨cap, 0, junk⟩

/-- RangeMap.h:323-329 `cloneIndex`. -/
def cloneIndex (dst src : BI K) : BI K :=
  { dst with num := src.num, ents := fun x => if x < src.num then src.ents x else dst.ents x }

/-- RangeMap.h:263-266 `overLimit`; `capacity_ - 1` wraps for an empty index. -/
def overLimit (t : BI K) : Bool :=
  decide (t.num ≥ u32 (4294967295 + t.cap)) || decide (2 * t.num > t.cap)

/-- RangeMap.h:355-361 `std::lower_bound` (the standard halving algorithm, on `[first, first + len)`). -/
def lowerLoop (lt : K → K → Bool) (m : Nat → K × Nat) (key : K) : Nat → Nat → Nat → Nat
  | 0, first, _ => first
  | f + 1, first, len =>
    if len = 0 then first
    else
      let half := len / 2
      let mid := first + half
      if lt (m mid).1 key then lowerLoop lt m key f (mid + 1) (len - half - 1)
      else lowerLoop lt m key f first half

/-- RangeMap.h:355-361 `lookupLowerbound`: an index in `[0, num]` (`num` is `end()`). -/
def lookupLowerbound (lt : K → K → Bool) (t : BI K) (key : K) : Nat :=
  lowerLoop lt t.ents key (t.num + 1) 0 t.num

/-- RangeMap.h:339-347 `lookup`. -/
def lookup (lt : K → K → Bool) (t : BI K) (key : K) : Nat :=
  let res := t.lookupLowerbound lt key
  if res = t.num ∨ (t.ents res).1 ≠ key then t.num else res

/-- RangeMap.h:427-443 `insertInternal`; `none` is a write outside the array. -/
def insertInternal (lt : K → K → Bool) (t : BI K) (key : K) (addr : Nat) : Option (BI K) :=
  let res := t.lookupLowerbound lt key
  if t.num ≥ t.cap then none
  else
    let m := if res < t.num then memmove t.ents (res + 1) res (t.num - res) else t.ents
    some { t with num := t.num + 1, ents := fun x => if x = res then (key, addr) else m x }

/-- RangeMap.h:373-383 `insertOrReplace`: the new index and the previous address (null if none). -/
def insertOrReplace (lt : K → K → Bool) (t : BI K) (key : K) (addr : Nat) : Option (BI K × Nat) :=
  let e := t.lookup lt key
  if e ≠ t.num then
    some ({ t with ents := fun x => if x = e then ((t.ents e).1, addr) else t.ents x }, (t.ents e).2)
  else match t.insertInternal lt key addr with
    | none => none
    | some t' => some (t', nullAddr)

/-- RangeMap.h:385-404 `remove`. -/
def remove (lt : K → K → Bool) (t : BI K) (key : K) : BI K × Nat :=
  let e := t.lookup lt key
  if e = t.num then (t, nullAddr)
  else
    let num := t.num - 1
    let m := if e < num then memmove t.ents e (e + 1) (num - e) else t.ents
    ({ t with num := num, ents := m }, (t.ents e).2)

/-- RangeMap.h:407-414: the loop of `removeBefore`: how many entries precede `key`. -/
def countBefore (lt : K → K → Bool) (t : BI K) (key : K) : Nat → Nat → Nat
  | 0, cur => cur
  | f + 1, cur => if cur ≠ t.num ∧ lt (t.ents cur).1 key then countBefore lt t key f (cur + 1) else cur

/-- RangeMap.h:406-425 `removeBefore`: the new index, the count, and the addresses passed to the delete
callback, in order. -/
def removeBefore (lt : K → K → Bool) (t : BI K) (key : K) : BI K × Nat × List Nat :=
  let count := t.countBefore lt key (t.num + 1) 0
  if count = 0 then (t, 0, [])
  else
    let m := if count ≠ t.num then memmove t.ents 0 count (t.num - count) else t.ents
    ({ t with num := t.num - count, ents := m }, count, (List.range count).map (fun i => (t.ents i).2))

end BI
end Verif.Datatype
