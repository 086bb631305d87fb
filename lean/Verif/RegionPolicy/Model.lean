import Verif.DList.Model
/-
Model of the policies that choose the flash region to reclaim: `cachelib/navy/block_cache/FifoPolicy.{h,cpp}` and
`LruPolicy.{h,cpp}`.

Every public function holds the policy's mutex throughout (FifoPolicy.cpp:40-116, LruPolicy.cpp:38-91), so a history is a
sequence of calls.  A region is its index, a natural number; `none` is the invalid index 0xffffffff.  Time stamps and hit
counts only feed counters (LruPolicy.cpp:84-86) and are left out, except the track time that FifoPolicy persists.
-/
namespace Verif.RegionPolicy
open Verif Verif.DList

/-! ### FifoPolicy -/

/-- FifoPolicy.h:31-39: a region and its track time. -/
abbrev Node := Nat × Nat

/-- FifoPolicy.h:77: the queue, its front first. -/
abbrev Fifo := List Node

/-- FifoPolicy.cpp:39-42 -/
def Fifo.track (q : Fifo) (rid now : Nat) : Fifo := q ++ [(rid, now)]

/-- FifoPolicy.cpp:44-52 -/
def Fifo.evict (q : Fifo) : Fifo × Option Nat :=
  match q with
  | [] => ([], none)
  | x :: q => (q, some x.1)

/-- FifoPolicy.cpp:54-57 -/
def Fifo.reset (_ : Fifo) : Fifo := []

/-- FifoPolicy.h:50 -/
def Fifo.touch (q : Fifo) (_ : Nat) : Fifo := q

/-- FifoPolicy.cpp:59-71: what is written, a list of idx and trackTime (objects.thrift: i64, i64); the other variants of the
union are `none`. -/
def Fifo.persist (q : Fifo) : Option (List (Nat × Nat)) := some (q.map fun x => (x.1, x.2))

/-- FifoPolicy.cpp:73-86; `none` if it throws. -/
def Fifo.recover (_ : Fifo) (o : Option (List (Nat × Nat))) : Option Fifo :=
  match o with
  | none => none
  | some l => some (l.map fun x => (x.1 % 2 ^ 32, x.2))

/-! ### SegmentedFifoPolicy -/

/-- FifoPolicy.h:146-149: per segment its ratio and its queue; the lowest priority first. -/
structure Seg where
  ratio : Nat
  q : List Node

abbrev SFifo := List Seg

/-- FifoPolicy.cpp:25-34 and 97: unsigned int. -/
def totalWeight (ratios : List Nat) : Nat := ratios.foldl (fun a b => (a + b) % 2 ^ 32) 0

/-- FifoPolicy.cpp:25-34, 95-103; `none` if it throws. -/
def SFifo.make (ratios : List Nat) : Option SFifo :=
  if ratios.contains 0 then none
  else if ratios.isEmpty then none
  else some (ratios.map fun r => ⟨r, []⟩)

/-- FifoPolicy.cpp:153-159 -/
def SFifo.numElements (s : SFifo) : Nat := s.foldl (fun n x => n + x.q.length) 0

/-- FifoPolicy.cpp:142-145: move the front of the current segment to the back of the next until at most `limit` are left. -/
def drain (limit : Nat) : List Node → List Node → List Node × List Node
  | [], next => ([], next)
  | x :: cur, next => if limit < cur.length + 1 then drain limit cur (next ++ [x]) else (x :: cur, next)

/-- FifoPolicy.cpp:136-150, on the segments from the highest priority to the lowest. -/
def rebalanceRev (tracked weight : Nat) (cur : Seg) : List Seg → List Seg
  | [] => [cur]
  | next :: rest =>
    match drain (tracked * cur.ratio / weight) cur.q next.q with
    | (c, n) => ⟨cur.ratio, c⟩ :: rebalanceRev tracked weight ⟨next.ratio, n⟩ rest

/-- FifoPolicy.cpp:127-151 -/
def SFifo.rebalance (s : SFifo) : SFifo :=
  match s.reverse with
  | [] => []
  | cur :: l => (rebalanceRev s.numElements (totalWeight (s.map Seg.ratio)) cur l).reverse

/-- FifoPolicy.cpp:109-110: push_back to one segment (the index is in range: XDCHECK 107). -/
def pushAt : Nat → Node → List Seg → List Seg
  | _, _, [] => []
  | 0, x, s :: l => ⟨s.ratio, s.q ++ [x]⟩ :: l
  | i + 1, x, s :: l => s :: pushAt i x l

/-- FifoPolicy.cpp:105-112; `none` if the priority is out of range (undefined behaviour). -/
def SFifo.track (s : SFifo) (rid pri now : Nat) : Option SFifo :=
  if pri < s.length then some (SFifo.rebalance (pushAt pri (rid, now) s)) else none

/-- FifoPolicy.cpp:114-125; segments_.front() exists (99-101). -/
def SFifo.evict (s : SFifo) : SFifo × Option Nat :=
  match s with
  | [] => ([], none)
  | low :: l =>
    match low.q with
    | [] => (low :: l, none)
    | x :: q => (SFifo.rebalance (⟨low.ratio, q⟩ :: l), some x.1)

/-- FifoPolicy.cpp:161-166 -/
def SFifo.reset (s : SFifo) : SFifo := s.map fun x => ⟨x.ratio, []⟩

/-! ### LruPolicy -/

/-- LruPolicy.h:68-70, 100-102: `size` is array_.size(); the nodes beyond it have their initial values. -/
structure Lru where
  h : Hooks Nat
  size : Nat
  head : Option Nat
  tail : Option Nat

/-- LruPolicy.cpp:27-33 -/
def Lru.init : Lru := ⟨⟨fun _ => none, fun _ => none⟩, 0, none, none⟩

/-- LruPolicy.h:76-78 inList -/
def Lru.inList (s : Lru) (i : Nat) : Bool := (s.h.prev i).isSome || (s.h.next i).isSome

/-- LruPolicy.cpp:39-41, 55-57 -/
def Lru.grow (s : Lru) (i : Nat) : Lru := if s.size ≤ i then { s with size := i + 1 } else s

/-- `array_[p].prev = v`; `none` if `p` is not an index of the array -/
def Lru.setPrevAt (s : Lru) (p : Option Nat) (v : Option Nat) : Option Lru :=
  match p with
  | some j => if j < s.size then some { s with h := setPrev s.h j v } else none
  | none => none

/-- `array_[p].next = v` -/
def Lru.setNextAt (s : Lru) (p : Option Nat) (v : Option Nat) : Option Lru :=
  match p with
  | some j => if j < s.size then some { s with h := setNext s.h j v } else none
  | none => none

/-- LruPolicy.cpp:99-105, the tail side of unlink -/
def Lru.unlinkT (s : Lru) (i : Nat) : Option Lru :=
  if s.tail = some i then some { s with tail := s.h.prev i }
  else s.setPrevAt (s.h.next i) (s.h.prev i)

/-- LruPolicy.cpp:106-112, the head side of unlink -/
def Lru.unlinkH (s : Lru) (i : Nat) : Option Lru :=
  if s.head = some i then some { s with head := s.h.next i }
  else s.setNextAt (s.h.prev i) (s.h.next i)

/-- LruPolicy.cpp:97-115 unlink -/
def Lru.unlink (s : Lru) (i : Nat) : Option Lru :=
  match s.unlinkT i with
  | none => none
  | some s =>
    match s.unlinkH i with
    | none => none
    | some s => some { s with h := setPrev (setNext s.h i none) i none }

/-- LruPolicy.cpp:119-121 -/
def Lru.linkPrev (s : Lru) (i : Nat) : Option Lru :=
  if s.head ≠ none then s.setPrevAt s.head (some i) else some s

/-- LruPolicy.cpp:117-128 linkAtHead -/
def Lru.linkAtHead (s : Lru) (i : Nat) : Option Lru :=
  if some i ≠ s.head then
    match s.linkPrev i with
    | none => none
    | some s => some { s with h := setNext s.h i s.head, head := some i, tail := if s.tail = none then some i else s.tail }
  else some s

/-- LruPolicy.cpp:35-48 touch -/
def Lru.touch (s : Lru) (i : Nat) : Option Lru :=
  let s := s.grow i
  if s.inList i then
    match s.unlink i with
    | none => none
    | some s => s.linkAtHead i
  else some s

/-- LruPolicy.cpp:50-64 track -/
def Lru.track (s : Lru) (i : Nat) : Option Lru :=
  let s := s.grow i
  if !s.inList i then s.linkAtHead i else some s

/-- LruPolicy.cpp:66-88 evict -/
def Lru.evict (s : Lru) : Option (Lru × Option Nat) :=
  match s.tail with
  | none => some (s, none)
  | some i =>
    match s.unlink i with
    | none => none
    | some s => some (s, some i)

/-- LruPolicy.cpp:90-95 reset -/
def Lru.reset (_ : Lru) : Lru := Lru.init

end Verif.RegionPolicy
