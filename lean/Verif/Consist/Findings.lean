import Verif.Consist.Props
/-! # Limits of the consistency check -/

namespace Verif.Consist
open Spec

/-- Two overlapping sets: both values remain possible for the lookups that follow. With 478 more begins of lookups the
log drops its oldest record at each call (`cleanupIfFull`). -/
def dropped : List Call :=
  [.beginSet 1, .beginSet 2, .endSet 1, .endSet 0] ++ List.replicate 478 .beginGet ++ [.endGet 100 (some 2)]

/-- **Finding.** When the log has dropped the records of a set, a lookup that finds its value is reported although the
value is possible: ValueHistory.cpp:304 asks "Check if cleanup can lead to false detections"; it can. -/
theorem violated_false_alarm_after_cleanup :
    ((Hist.calls kCapacity {} dropped).map fun p => p.2[482]?) = some (some false) := by decide +kernel

/-- The same lookup is accepted while the log still has the records. -/
theorem accepted_before_cleanup :
    ((Hist.calls kCapacity {} ([.beginSet 1, .beginSet 2, .endSet 1, .endSet 0] ++ List.replicate 470 .beginGet ++
      [.endGet 100 (some 2)])).map fun p => p.2[474]?) = some (some true) := by decide +kernel

/-- **Finding.** An operation during which 480 other events happen throws `std::out_of_range` at its end, for its begin
has been dropped. -/
theorem violated_exception_long_operation :
    (Hist.calls kCapacity {} ([.beginSet 1] ++ List.replicate 480 .beginGet ++ [.endSet 0])).isNone = true := by
  decide +kernel

/-- Two lookups, one after the other, during a set: the first finds the new value and the second the old one. -/
def inversion : List Call :=
  [.beginSet 1, .endSet 0, .beginSet 2, .beginGet, .endGet 3 (some 2), .beginGet, .endGet 5 (some 1), .endSet 2]

/-- **Finding.** Each lookup is checked by itself: a history that no single schedule explains is not reported. -/
theorem violated_atomic_complete :
    WF inversion ∧ ¬ Atomic inversion ∧
      ((Hist.calls kCapacity {} inversion).map fun p => p.2) = some (List.replicate 8 true) := by
  refine ⟨wf_of (by decide), ?_, by decide +kernel⟩
  rintro ⟨S, hS⟩
  obtain ⟨p1, _, b1, c1⟩ := hS 3 4 2 rfl
  obtain ⟨p2, a2, _, c2⟩ := hS 5 6 1 rfl
  have h45 := S.mono 4 5 (by omega)
  have hnu : ¬ UnknownAtFirst inversion := by rintro ⟨h, _⟩; cases h
  have hst : ∀ s v, Stores inversion s v → (s = 0 ∧ v = 1) ∨ (s = 2 ∧ v = 2) := by
    intro s v h
    have hl : s < 8 := (List.getElem?_eq_some_iff.mp h).1
    have : s = 0 ∨ s = 1 ∨ s = 2 ∨ s = 3 ∨ s = 4 ∨ s = 5 ∨ s = 6 ∨ s = 7 := by omega
    rcases this with rfl | rfl | rfl | rfl | rfl | rfl | rfl | rfl <;>
      (injection h with h; first | (injection h with h; subst h; simp) | cases h)
  rcases c1 with ⟨s, q, hs, hq, hqp, _⟩ | ⟨h, _⟩
  · have : s = 2 := by have := hst _ _ hs; omega
    subst this
    rcases c2 with ⟨s', q', hs', hq', hqp', hl'⟩ | ⟨h, _⟩
    · have : s' = 0 := by have := hst _ _ hs'; omega
      subst this
      have h1 := hl' 2 q (Or.inr ⟨2, rfl⟩) hq (by omega)
      have h2 := (S.inside 0 q' hq').2 1 ⟨_, rfl, rfl⟩
      have h3 := (S.inside 2 q hq).1
      have h4 := S.mono 1 2 (by omega)
      omega
    · exact hnu h
  · exact hnu h

end Verif.Consist
