import Verif.Rate.Props
/-
C66: examples, and what does not hold.
-/
namespace Verif.Rate

example : (after true 1 [130, 120, 100]).throttle 40 = 25 := by decide
example : Spec.rise true [130, 120, 100] 2 = 30 := by decide
example : (after false 2 [70, 80, 90, 100, 110]).throttle 40 = 30 := by decide
example : (after true 3 [100, 90]).throttle 40 = 0 ∧ (after true 3 [80, 90]).throttle 40 = 40 := by decide
example : (after true 1 [160, 120, 100]).throttle 30 = 0 ∧ (30 : Int) * (1 + 1 : Nat) ≤ Spec.rise true [160, 120, 100] (1 + 1) := by decide

/-- **The first full window is not averaged over its own length**: after exactly `w + 1` samples the rise over `w` steps is divided by `w + 1`.
A value that rose by 20 in every step so far: 10 of 20 are granted all the same. -/
theorem violated_first_window : ∃ h : List Int, h.length = 2 ∧ Spec.rise true h 1 = 20 ∧ (after true 1 h).throttle 20 = 10 :=
  ⟨[120, 100], by decide⟩

/-- **Nearly empty windows give full rate**: with two samples of a window of 9 a fall by 10 grants everything although the window is
not full ("fully throttled when we have insufficient number of samples", MemoryMonitor.cpp:346). -/
theorem violated_insufficient_samples : ∃ h : List Int, h.length = 2 ∧ (after true 9 h).throttle 1000 = 1000 := ⟨[90, 100], by decide⟩

/-- **A shrunk window misjudges the rate once**: the first sample after the change is compared with the oldest one of the long window but
divided by the short one. A value that rises by 10 per sample: of 40 nothing is granted, then 30 again. -/
theorem violated_shrink : ∃ s : State, s = after true 9 [110, 100, 90, 80, 70, 60, 50, 40, 30, 20, 10, 0] ∧ s.throttle 40 = 30 ∧
    ((s.setWindow 1).add 120).throttle 40 = 0 ∧ (((s.setWindow 1).add 120).add 130).throttle 40 = 30 := ⟨_, rfl, by decide⟩

end Verif.Rate
