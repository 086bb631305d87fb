import Verif.Base.Chain
/-
Model of `cachelib/allocator/datastruct/DList.h` (class `DList`).

Nodes are elements of an arbitrary type `N`; a pointer is `Option N` (`none` = nullptr).  The hooks live in the nodes,
not in the list object, so several lists may share one hook heap (as MM2Q and MultiDList do): every function takes
the hook heap and the list header and returns the new pair.  Compressed pointers are modelled by the pointer they decode to
(round trip: property C13).  `size_` is a `Nat`: 2^64 nodes never exist.
-/
namespace Verif.DList
open Verif

variable {N : Type} [DecidableEq N]

/-- DList.h:33-82 `DListHook` fields `next_`, `prev_` of every node (`updateTime_` belongs to the container models). -/
structure Hooks (N : Type) where
  next : N → Option N
  prev : N → Option N

/-- DList.h:256-263: `head_`, `tail_`, `size_`. -/
structure DList (N : Type) where
  head : Option N
  tail : Option N
  size : Nat

/-- DList.h:93,97-98: a new list, initialisers of DList.h:257-263. -/
def DList.empty : DList N := ⟨none, none, 0⟩

/-- DList.h:131-133 -/
def setNext (h : Hooks N) (x : N) (v : Option N) : Hooks N := { h with next := upd h.next x v }
/-- DList.h:139-141 -/
def setPrev (h : Hooks N) (x : N) (v : Option N) : Hooks N := { h with prev := upd h.prev x v }
/-- `if (p != nullptr) setNext(*p, v)` -/
def setNext? (h : Hooks N) (p : Option N) (v : Option N) : Hooks N :=
  match p with | some x => setNext h x v | none => h
/-- `if (p != nullptr) setPrev(*p, v)` -/
def setPrev? (h : Hooks N) (p : Option N) (v : Option N) : Hooks N :=
  match p with | some x => setPrev h x v | none => h

/-- DList.h:267-283 `linkAtHead`. -/
def linkAtHead (h : Hooks N) (d : DList N) (node : N) : Hooks N × DList N :=
  let h := setNext h node d.head
  let h := setPrev h node none
  let h := setPrev? h d.head (some node)
  (h, { head := some node, tail := if d.tail.isNone then some node else d.tail, size := d.size + 1 })

/-- DList.h:285-301 `linkAtTail`. -/
def linkAtTail (h : Hooks N) (d : DList N) (node : N) : Hooks N × DList N :=
  let h := setNext h node none
  let h := setPrev h node d.tail
  let h := setNext? h d.tail (some node)
  (h, { tail := some node, head := if d.head.isNone then some node else d.head, size := d.size + 1 })

/-- DList.h:303-325 `insertBefore`. -/
def insertBefore (h : Hooks N) (d : DList N) (nextNode node : N) : Hooks N × DList N :=
  let prev := h.prev nextNode
  let h := setPrev h node prev
  let hd := match prev with
    | some p => (setNext h p (some node), d.head)
    | none => (h, some node)
  let h := setPrev hd.1 nextNode (some node)
  let h := setNext h node (some nextNode)
  (h, { d with head := hd.2, size := d.size + 1 })

/-- DList.h:327-349 `unlink`: note that `setNextFrom(*prev, node)` and `setPrevFrom(*next, node)` re-read the node's hook. -/
def unlink (h : Hooks N) (d : DList N) (node : N) : Hooks N × DList N :=
  let prev := h.prev node
  let next := h.next node
  let head := if some node = d.head then next else d.head
  let tail := if some node = d.tail then prev else d.tail
  let h := setNext? h prev (h.next node)
  let h := setPrev? h next (h.prev node)
  (h, { head := head, tail := tail, size := d.size - 1 })

/-- DList.h:351-356 `remove`. -/
def remove (h : Hooks N) (d : DList N) (node : N) : Hooks N × DList N :=
  let r := unlink h d node
  (setPrev (setNext r.1 node none) node none, r.2)

/-- DList.h:358-385 `replace`. -/
def replace (h : Hooks N) (d : DList N) (oldNode newNode : N) : Hooks N × DList N :=
  let head := if some oldNode = d.head then some newNode else d.head
  let tail := if some oldNode = d.tail then some newNode else d.tail
  let prev := h.prev oldNode
  let next := h.next oldNode
  let h := setNext? h prev (some newNode)
  let h := setPrev? h next (some newNode)
  let h := setPrev h newNode prev
  let h := setNext h newNode next
  let h := setPrev h oldNode none
  let h := setNext h oldNode none
  (h, { d with head := head, tail := tail })

/-- DList.h:387-394 `moveToHead`. -/
def moveToHead (h : Hooks N) (d : DList N) (node : N) : Hooks N × DList N :=
  if some node = d.head then (h, d)
  else
    let r := unlink h d node
    linkAtHead r.1 r.2 node

/-- DList.h:185 `enum class Direction`. -/
inductive Direction where | fromHead | fromTail
  deriving DecidableEq, Repr

/-- DList.h:397-404, 415-423 `Iterator::operator++` on the current node. -/
def iterNext (h : Hooks N) (dir : Direction) (curr : Option N) : Option N :=
  match curr with
  | none => none
  | some x => match dir with | .fromTail => h.prev x | .fromHead => h.next x

/-- DList.h:406-413, 425-433 `Iterator::operator--`. -/
def iterPrev (h : Hooks N) (dir : Direction) (curr : Option N) : Option N :=
  match curr with
  | none => none
  | some x => match dir with | .fromTail => h.next x | .fromHead => h.prev x

/-- DList.h:435-446 `begin` / `rbegin` and 224-226 `resetToBegin`. -/
def iterBegin (d : DList N) : Direction → Option N
  | .fromHead => d.head
  | .fromTail => d.tail

/-- `for (it = begin(); it; ++it) visit(*it)` with at most `fuel` iterations. -/
def visit (h : Hooks N) (dir : Direction) : Nat → Option N → List N
  | 0, _ => []
  | _, none => []
  | k + 1, some x => x :: visit h dir k (iterNext h dir (some x))

/-- DList.h:104-121: `saveState` then the restoring constructor (pointers survive compression: C13). -/
def saveState (d : DList N) : Option N × Option N × Nat := (d.head, d.tail, d.size)
def restore (o : Option N × Option N × Nat) : DList N := ⟨o.1, o.2.1, o.2.2⟩

end Verif.DList
