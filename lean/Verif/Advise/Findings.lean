import Verif.Advise.Props
/-
C65: examples, and what does not hold.
-/
namespace Verif.Advise

/-- Three pools using 10, 5 and 3 slabs; one slab given up by the second. -/
def pools : List Pool := [⟨10, 0⟩, ⟨5, 1⟩, ⟨3, 0⟩]

example : 0 < Spec.used pools := by decide
example : targets 7 18 pools = some [4, 2, 1] := by decide
example : plan 7 pools = some (true, [4, 1, 1]) := by decide
example : plan 0 pools = some (false, [0, 1, 0]) := by decide
example : plan 1 [⟨10, 2⟩, ⟨10, 2⟩] = some (false, [1, 2]) := by decide
example : (Cfg.mk 10 5).adviseAway 8 8 92 50 = 10 := by decide
example : reclaim 8 8 50 3 = some 5 := by decide

/-- **The limit is not kept when releases lag**: the room left is computed from the slabs already given up, not from those already asked for.
With a limit of 10 slabs of 100 and no release finished between the iterations, 15 are asked for. -/
theorem violated_limit : ∃ (c : Cfg) (t1 t2 t3 : Nat), c.maxPercent = 10 ∧ t1 = c.adviseAway 0 0 100 100 ∧ t2 = c.adviseAway t1 0 100 100 ∧
    t3 = c.adviseAway t2 0 100 100 ∧ c.maxPercent * 100 < t3 * 100 := ⟨⟨10, 5⟩, 5, 10, 15, rfl, by decide, by decide, by decide, by decide⟩

/-- **Growing back can fail**: if more slabs have been given up than are asked for (reclaiming lags), a further reclaim throws. -/
theorem violated_reclaim : ∃ t, reclaim 5 5 100 5 = some t ∧ reclaim t 5 100 5 = none := ⟨0, by decide, by decide⟩

end Verif.Advise
