import Verif.DList.Props
/-
Model of `cachelib/allocator/datastruct/MultiDList.h` (class `MultiDList`): a vector of DLists over the same nodes
and the iterator that goes through all of them, from the tail of the last list to the head of the first.

`lists` is total: entries from `num` on do not exist in the code and are empty here.  `none` as iterator index
is kInvalidIndex.
-/
namespace Verif.MultiDList
open Verif

variable {N : Type} [DecidableEq N]

/-- MultiDList.h:190 `lists_`, and the hooks of the nodes. -/
structure MState (N : Type) where
  hooks : DList.Hooks N
  lists : Nat → DList.DList N
  num : Nat

/-- MultiDList.h:48-52 constructor. -/
def new (num : Nat) (hooks : DList.Hooks N) : MState N := ⟨hooks, fun _ => DList.DList.empty, num⟩

/-- MultiDList.h:75-77 `getList(q).op(...)`. -/
def onList (m : MState N) (q : Nat) (op : DList.Op N) : MState N :=
  { m with hooks := (DList.step (m.hooks, m.lists q) op).1,
           lists := upd m.lists q (DList.step (m.hooks, m.lists q) op).2 }

/-- MultiDList.h:79-85 size: the loop over the first `k` lists. -/
def sizeUpTo (m : MState N) : Nat → Nat
  | 0 => 0
  | k + 1 => sizeUpTo m k + (m.lists k).size
/-- MultiDList.h:79-85 size. -/
def size (m : MState N) : Nat := sizeUpTo m m.num

/-- MultiDList.h:87-94 insertEmptyListAt; `none`: it throws. -/
def insertEmptyListAt (m : MState N) (pos : Nat) : Option (MState N) :=
  if pos > m.num then none
  else some { m with num := m.num + 1,
                     lists := fun i => if i < pos then m.lists i else if i = pos then DList.DList.empty else m.lists (i - 1) }

/-- MultiDList.h:171-175: index and current node of an iterator. -/
structure It (N : Type) where
  idx : Option Nat
  cur : Option N

/-- MultiDList.h:237-248 initToValidRBeginFrom. -/
def rbeginFrom (m : MState N) : Nat → It N
  | 0 => if (m.lists 0).size = 0 then ⟨none, none⟩ else ⟨some 0, (m.lists 0).tail⟩
  | i + 1 => if (m.lists (i + 1)).size = 0 then rbeginFrom m i else ⟨some (i + 1), (m.lists (i + 1)).tail⟩

/-- MultiDList.h:160-162, 265-268: resetToBegin, rbegin. -/
def rbegin (m : MState N) : It N := rbeginFrom m (m.num - 1)

/-- MultiDList.h:205-211: the loop of goForward. -/
def settle (m : MState N) : Nat → Option N → It N
  | i, some x => ⟨some i, some x⟩
  | 0, none => ⟨none, none⟩
  | i + 1, none => settle m i (m.lists i).tail

/-- MultiDList.h:198-212 goForward. -/
def goForward (m : MState N) (it : It N) : It N :=
  match it.idx with
  | none => it
  | some i => settle m i (DList.iterNext m.hooks .fromTail it.cur)

/-- `for (it = ...; it; ++it) visit(*it)` with at most `fuel` iterations. -/
def visit (m : MState N) : Nat → It N → List N
  | 0, _ => []
  | k + 1, it => match it.idx, it.cur with
    | some _, some x => x :: visit m k (goForward m it)
    | _, _ => []

/-- MultiDList.h:225-233: the loop of goBackward from the beginning of list `i`; the index stops at `num`.  `fuel` is
the number of lists left. -/
def backLoop (m : MState N) : Nat → Nat → Option N → It N
  | 0, i, c => ⟨some i, c⟩
  | f + 1, i, c =>
    if i < m.num ∧ c = (m.lists i).tail then
      backLoop m f (i + 1) (if i + 1 < m.num then (m.lists (i + 1)).head else c)
    else ⟨some i, c⟩

/-- MultiDList.h:215-234 goBackward of a valid iterator. -/
def goBackward (m : MState N) (it : It N) : It N :=
  match it.idx with
  | none => it
  | some i =>
    if i = m.num then it
    else if it.cur ≠ (m.lists i).tail then ⟨some i, DList.iterPrev m.hooks .fromTail it.cur⟩
    else backLoop m (m.num - i) i it.cur

/-- MultiDList.h:67-73 saveState. -/
def saveState (m : MState N) : List (Option N × Option N × Nat) :=
  (List.range m.num).map fun i => DList.saveState (m.lists i)

/-- MultiDList.h:58-62 restoring constructor. -/
def restore (o : List (Option N × Option N × Nat)) (hooks : DList.Hooks N) : MState N :=
  ⟨hooks, fun i => match o[i]? with | some d => DList.restore d | none => DList.DList.empty, o.length⟩

end Verif.MultiDList
