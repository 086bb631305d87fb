import Verif.Base.Chain
/-
Model of `cachelib/allocator/datastruct/SList.h` (class `SList`).

As for DList: nodes are elements of `N`, pointers `Option N`, hooks live in a heap shared by all lists; compressed
pointers are modelled by the pointer they decode to (C13); sizes are `Nat`.  Exceptions are `Except.error`;
dereferencing a null pointer would be undefined behaviour and is the explicit outcome `ub`.
-/
namespace Verif.SList
open Verif

variable {N : Type} [DecidableEq N]

/-- SList.h:238-243 -/
structure SList (N : Type) where
  size : Nat
  head : Option N
  tail : Option N

/-- SList.h:81-82 and the initialisers 239-243. -/
def SList.new : SList N := ⟨0, none, none⟩

inductive Err where
  | popEmpty        -- std::logic_error("Attempting to pop an empty list")
  | wrongList       -- std::logic_error("iterator does not belong to this list")
  | removeEnd       -- std::logic_error("Can not remove end")
  | corruptHead     -- std::invalid_argument
  | corruptTail     -- std::invalid_argument
  | ub              -- null dereference
  deriving DecidableEq, Repr

/-- SList.h:132 -/
def SList.isEmpty (s : SList N) : Bool := s.size == 0
/-- SList.h:130 -/
def SList.getHead (s : SList N) : Option N := if s.isEmpty then none else s.head

/-- SList.h:227-234 `checkStateOrThrow`. -/
def checkStateOrThrow (s : SList N) : Except Err Unit :=
  if (s.size == 0 && s.head.isSome) || (s.head.isNone && s.size != 0) then .error .corruptHead
  else if s.head.isNone != s.tail.isNone then .error .corruptTail
  else .ok ()

/-- SList.h:246-264 `insert`. -/
def insert (nx : N → Option N) (s : SList N) (node : N) : (N → Option N) × SList N :=
  let nx := upd nx node s.head
  let head := some node
  (nx, { size := s.size + 1, head := head, tail := if s.tail.isNone then head else s.tail })

/-- SList.h:266-287 `pop`. -/
def pop (nx : N → Option N) (s : SList N) : Except Err ((N → Option N) × SList N) :=
  if s.isEmpty then .error .popEmpty
  else match s.head with
    | none => .error .ub
    | some node =>
      let head := nx node
      let s' : SList N := { size := s.size - 1, head := head, tail := if head.isNone then none else s.tail }
      match checkStateOrThrow s' with
      | .error e => .error e
      | .ok () => .ok (upd nx node none, s')

/-- SList.h:289-315 `splice(other)`: returns the heap, this list and the other list. -/
def splice (nx : N → Option N) (s other : SList N) : Except Err ((N → Option N) × SList N × SList N) :=
  if other.isEmpty then .ok (nx, s, other)
  else match other.tail with
    | none => .error .ub
    | some t =>
      .ok (upd nx t s.head,
           { head := other.head, size := s.size + other.size, tail := if s.tail.isNone then other.tail else s.tail },
           { head := none, size := 0, tail := none })

/-- SList.h:70-79 move assignment `this = std::move(rhs)`: returns this and rhs. -/
def moveAssign (_s rhs : SList N) : SList N × SList N :=
  ({ size := rhs.size, head := rhs.head, tail := rhs.tail }, { size := 0, head := none, tail := none })

/-- SList.h:149-197 `Iterator`: current and previous node, and the identity of the list iterated. -/
structure Iter (N : Type) where
  curr : Option N
  prev : Option N
  list : Nat

/-- SList.h:333-336 `begin`. -/
def iterBegin (self : Nat) (s : SList N) : Iter N := ⟨s.head, none, self⟩
/-- SList.h:317-331 `operator++` with `goForward`; on a null iterator nothing happens. -/
def Iter.inc (nx : N → Option N) (it : Iter N) : Iter N :=
  match it.curr with
  | none => it
  | some x => { it with prev := it.curr, curr := nx x }
/-- `++` repeated `k` times from `begin()`. -/
def iterAt (nx : N → Option N) (self : Nat) (s : SList N) : Nat → Iter N
  | 0 => iterBegin self s
  | k + 1 => (iterAt nx self s k).inc nx

/-- SList.h:343-378 `remove(it)` on the list with identity `self`. -/
def remove (nx : N → Option N) (self : Nat) (s : SList N) (it : Iter N) :
    Except Err ((N → Option N) × SList N × Iter N) :=
  if it.list ≠ self then .error .wrongList
  else match it.curr with
    | none => .error .removeEnd
    | some curr =>
      let next := nx curr
      match it.prev with
      | none =>
        match pop nx s with
        | .error e => .error e
        | .ok (nx', s') => .ok (nx', s', ⟨next, none, self⟩)
      | some p =>
        let nx' := upd nx p next
        let s' : SList N := { s with size := s.size - 1, tail := if s.tail = some curr then some p else s.tail }
        match checkStateOrThrow s' with
        | .error e => .error e
        | .ok () => .ok (upd nx' curr none, s', ⟨next, some p, self⟩)

/-- SList.h:94-99: recompute the tail by walking from the head (fuel bounds the loop). -/
def lastOf (nx : N → Option N) : Nat → N → N
  | 0, x => x
  | k + 1, x => match nx x with | none => x | some y => lastOf nx k y

/-- SList.h:107-113 `saveState`. -/
def saveState (s : SList N) : Option N × Option (Option N) × Nat := (s.head, some s.tail, s.size)

/-- SList.h:84-102 restoring constructor; the saved tail is absent (`none`) in the old format (a negative
`compressedTail`). -/
def restore (nx : N → Option N) (o : Option N × Option (Option N) × Nat) : Except Err (SList N) :=
  let head := o.1
  let tail := match o.2.1 with
    | some t => t
    | none => match head with | some x => some (lastOf nx o.2.2 x) | none => none
  let s : SList N := ⟨o.2.2, head, tail⟩
  match checkStateOrThrow s with
  | .error e => .error e
  | .ok () => .ok s

end Verif.SList
