/-
Model of RateLimiter (allocator/MemoryMonitor.h:39-70, MemoryMonitor.cpp:320-354), which slows down the growth of the cache while memory use
rises (C66). Samples and rates are integers of any size; size_t and int64_t do not overflow.
-/
namespace Verif.Rate

/-- MemoryMonitor.h:58-69; the front of values_ comes first. -/
structure State where
  values : List Int := []
  up : Bool
  window : Nat := 0
  rate : Int := 0
deriving DecidableEq

/-- MemoryMonitor.cpp:320-321. -/
def init (up : Bool) : State := { up := up }

/-- MemoryMonitor.h:47 setWindowSize. -/
def State.setWindow (s : State) (w : Nat) : State := { s with window := w + 1 }

/-- MemoryMonitor.cpp:332-334: pop_front while the list is too long. -/
def trim (w : Nat) : List Int → List Int
  | [] => []
  | v :: l => if w < l.length + 1 then trim w l else v :: l

/-- MemoryMonitor.cpp:323-340 addValue. -/
def State.add (s : State) (v : Int) : State :=
  if s.window < 2 then s
  else
    let l := s.values ++ [v]
    let prev := l.headD v
    { s with values := trim s.window l
             rate := (if s.up then v - prev else prev - v).tdiv s.window }

/-- MemoryMonitor.cpp:342-354 throttle. -/
def State.throttle (s : State) (d : Int) : Int :=
  if s.rate < 0 ∨ s.window < 2 then d
  else if s.values.length < s.window ∨ d < s.rate then 0
  else d - s.rate

end Verif.Rate
