/-! # The consistency check of CacheBench (cachelib/cachebench/consistency/ValueHistory.{h,cpp}, RingBuffer.h)

One `ValueHistory` logs the operations on one key. Every method holds `mutex_` from beginning to end, so that the calls
of all threads form one sequence. Thread ids, times and the event stream are left out; indices are natural numbers
(32 and 64 bits in the code). An exception is `none`. -/

namespace Verif.Consist

/-- ValueHistory.h:158-167 -/
inductive Event
  | beginGet | beginMiss | beginSet | beginDelete | endGet | endMiss | endSet | endDelete
  deriving DecidableEq, Repr

/-- ValueHistory.h:169-189 without thread id and time. -/
structure Rec where
  event : Event := .beginGet
  other : Nat := 0
  value : Nat := 0
  deriving DecidableEq, Repr

/-- `RingBuffer<LogRecord, kCapacity>` (RingBuffer.h:33-97) and `openSetCount_` (ValueHistory.h:203-205). -/
structure Hist where
  data : Nat → Rec := fun _ => {}
  first : Nat := 0
  last : Nat := 0
  openSets : Nat := 0

/-- RingBuffer.h:43-51 -/
def Hist.write (K : Nat) (h : Hist) (r : Rec) : Option (Hist × Nat) :=
  if K ≤ h.last - h.first then none
  else some ({ h with data := fun x => if x = h.last % K then r else h.data x, last := h.last + 1 }, h.last)

/-- RingBuffer.h:53-60; the value is not used. -/
def Hist.read (h : Hist) : Option Hist :=
  if h.last ≤ h.first then none else some { h with first := h.first + 1 }

/-- RingBuffer.h:62-70 -/
def Hist.getAt (K : Nat) (h : Hist) (i : Nat) : Option Rec :=
  if h.first ≤ i ∧ i < h.last then some (h.data (i % K)) else none

/-- RingBuffer.h:72-80 -/
def Hist.setAt (K : Nat) (h : Hist) (i : Nat) (r : Rec) : Option Hist :=
  if h.first ≤ i ∧ i < h.last then some { h with data := fun x => if x = i % K then r else h.data x } else none

/-- ValueHistory.cpp:48-57 isWriteEnd -/
def Event.isWriteEnd : Event → Bool
  | .endMiss | .endSet | .endDelete => true
  | _ => false

/-- ValueHistory.cpp:303-308 cleanupIfFull -/
def Hist.cleanupIfFull (K : Nat) (h : Hist) : Option Hist :=
  if h.last - h.first = K then h.read else some h

/-- The three begin methods, ValueHistory.cpp:100-132. -/
def Hist.begin (K : Nat) (h : Hist) (e : Event) (value : Nat) : Option (Hist × Nat) :=
  (h.cleanupIfFull K).bind fun h => h.write K { event := e, other := h.last, value := value }

/-- ValueHistory.cpp:100-110 -/
def Hist.beginGet (K : Nat) (h : Hist) : Option (Hist × Nat) := h.begin K .beginGet 0

/-- ValueHistory.cpp:112-122 -/
def Hist.beginSet (K : Nat) (h : Hist) (value : Nat) : Option (Hist × Nat) :=
  (h.begin K .beginSet value).map fun p => ({ p.1 with openSets := p.1.openSets + 1 }, p.2)

/-- ValueHistory.cpp:124-132 -/
def Hist.beginDelete (K : Nat) (h : Hist) : Option (Hist × Nat) := h.begin K .beginDelete 0

/-- ValueHistory.cpp:286-301 findInOrderSetBegin: the loop, `ri` before its decrement. -/
def findBegin (at_ : Nat → Rec) (first : Nat) : Nat → Nat
  | 0 => first
  | ri + 1 =>
    if first < ri + 1 then
      if (at_ ri).event.isWriteEnd then (at_ ri).other else findBegin at_ first ri
    else first

/-- ValueHistory.cpp:237-264, the loop of isConsistent, `i` before its decrement; `v` is the value of the get, `bg` the
index of its begin, `bs` beginSetIdx. -/
def scan (at_ : Nat → Rec) (first openSets v bg bs : Nat) : Nat → Nat → Nat → Bool
  | 0, _, _ => false
  | i + 1, setIdxMin, counter =>
    if first < i + 1 ∧ (bs < i + 1 ∨ counter < openSets) then
      let rec_ := at_ i
      let counter := if rec_.event = .beginSet ∧ rec_.other = i then counter + 1 else counter
      if i ≠ rec_.other ∧ i < setIdxMin then scan at_ first openSets v bg bs i setIdxMin counter
      else if (rec_.event = .beginSet ∨ rec_.event = .endSet) ∧ rec_.value = v then true
      else if ¬ (rec_.event = .beginSet ∨ rec_.event = .endSet) ∧ i = first ∧
          (rec_.event = .beginGet ∨ rec_.event = .endGet) then true
      else
        let setIdxMin := if rec_.event.isWriteEnd ∧ i < bg then max setIdxMin rec_.other else setIdxMin
        scan at_ first openSets v bg bs i setIdxMin counter
    else false

/-- ValueHistory.cpp:214-284 isConsistent. -/
def Hist.isConsistent (K : Nat) (h : Hist) (endGetIdx : Nat) : Option Bool :=
  (h.getAt K endGetIdx).map fun r =>
    let at_ := fun i => h.data (i % K)
    scan at_ h.first h.openSets r.value r.other (findBegin at_ h.first r.other) endGetIdx h.first 0

/-- ValueHistory.cpp:134-175 endGet: `res` is the value found, if any. -/
def Hist.endGet (K : Nat) (h : Hist) (beginIdx : Nat) (res : Option Nat) : Option (Hist × Bool) :=
  (h.cleanupIfFull K).bind fun h =>
  (h.getAt K beginIdx).bind fun begin_ =>
  let rec_ : Rec := { event := .endGet, other := beginIdx, value := res.getD 0 }
  (h.write K rec_).bind fun (h, pos) =>
  let begin_ := { begin_ with other := pos }
  (h.setAt K beginIdx begin_).bind fun h =>
  match res with
  | some _ => (h.isConsistent K pos).map fun ok => (h, ok)
  | none =>
    (h.setAt K pos { rec_ with event := .endMiss }).bind fun h =>
    (h.setAt K beginIdx { begin_ with event := .beginMiss }).map fun h => (h, true)

/-- ValueHistory.cpp:177-195 endSet -/
def Hist.endSet (K : Nat) (h : Hist) (beginIdx : Nat) : Option Hist :=
  (h.cleanupIfFull K).bind fun h =>
  (h.getAt K beginIdx).bind fun begin_ =>
  (h.write K { event := .endSet, other := beginIdx, value := begin_.value }).bind fun (h, pos) =>
  (h.setAt K beginIdx { begin_ with other := pos }).map fun h => { h with openSets := h.openSets - 1 }

/-- ValueHistory.cpp:197-212 endDelete -/
def Hist.endDelete (K : Nat) (h : Hist) (beginIdx : Nat) : Option Hist :=
  (h.cleanupIfFull K).bind fun h =>
  (h.getAt K beginIdx).bind fun begin_ =>
  (h.write K { event := .endDelete, other := beginIdx }).bind fun (h, pos) =>
  h.setAt K beginIdx { begin_ with other := pos }

/-- A call: the end methods get the index that the begin method returned (ValueTracker.cpp:44-75). -/
inductive Call
  | beginGet | beginSet (v : Nat) | beginDelete
  | endGet (b : Nat) (res : Option Nat) | endSet (b : Nat) | endDelete (b : Nat)
  deriving DecidableEq, Repr

/-- One call; the answer is the returned `bool`, `true` for the others. -/
def Hist.call (K : Nat) (h : Hist) : Call → Option (Hist × Bool)
  | .beginGet => (h.beginGet K).map fun p => (p.1, true)
  | .beginSet v => (h.beginSet K v).map fun p => (p.1, true)
  | .beginDelete => (h.beginDelete K).map fun p => (p.1, true)
  | .endGet b res => h.endGet K b res
  | .endSet b => (h.endSet K b).map fun h => (h, true)
  | .endDelete b => (h.endDelete K b).map fun h => (h, true)

/-- A sequence of calls, and their answers. -/
def Hist.calls (K : Nat) : Hist → List Call → Option (Hist × List Bool)
  | h, [] => some (h, [])
  | h, c :: cs =>
    (h.call K c).bind fun p => (Hist.calls K p.1 cs).map fun q => (q.1, p.2 :: q.2)

/-- ValueHistory.h:128 kCapacity -/
def kCapacity : Nat := 480

end Verif.Consist
