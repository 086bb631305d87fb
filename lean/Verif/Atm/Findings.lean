import Verif.Atm.Main
/-
C61: concrete histories, and what the map of access times does not give.
-/
namespace Verif.Atm
open Verif

/-! ### Concrete histories -/

/-- Two shards, a limit of 2 for each. -/
def c2 : Cfg := ⟨2, 3⟩

/-- Three even hashes: the first one iterated that is not new is dropped. The counter is updated late. -/
theorem demo_evict : ∃ s, Reach c2 (fun _ => none)
    [.size 2, .get 0 none, .get 2 (some 20), .get 4 (some 41), .set 4 41, .set 4 40, .tau, .size 1, .set 2 20, .tau, .size 0, .set 0 10] s := by
  refine ⟨_, Reach.step (Reach.step (Reach.step (Reach.step (Reach.step (Reach.step (Reach.step (Reach.step (Reach.step (Reach.step (Reach.step
    (Reach.step Reach.fresh (.set 0 10 [(0, 10)] [(0, 10)] (some true) rfl (.refl _) rfl)) .size)
    (.addSize 0 true (by decide) rfl)) (.set 2 20 [(0, 10), (2, 20)] [(2, 20), (0, 10)] (some true) rfl (by decide) rfl)) .size)
    (.addSize 0 true (by decide) rfl)) (.set 4 40 [(4, 40), (0, 10), (2, 20)] [(4, 40), (2, 20)] none rfl (by decide) rfl))
    (.set 4 41 [(4, 41), (2, 20)] [(4, 41), (2, 20)] none rfl (by decide) rfl)) (.get 4 rfl)) (.get 2 rfl)) (.get 0 rfl)) .size⟩

/-- The hypotheses of `reads_exact`. -/
example : Fits c2 [0, 1, 2, 3] := ⟨.inr fun i => by
  rcases i with _ | _ | i
  · decide
  · decide
  · have : ([0, 1, 2, 3].filter fun k => k % c2.n = i + 1 + 1) = [] := by
      simp [List.filter_eq_nil_iff, c2]
    rw [this]; decide⟩

/-- Saved while nothing changes. -/
theorem demo_persist : ∃ tr s, Reach c2 (fun _ => none) (.pEnd (some [(0, 10), (1, 11)]) :: tr) s ∧ Spec.Quiet tr := by
  refine ⟨_, _, Reach.step (Reach.step (Reach.step (Reach.step (Reach.step (Reach.step (Reach.step (Reach.step (Reach.step (Reach.step
    Reach.fresh (.set 0 10 [(0, 10)] [(0, 10)] (some true) rfl (.refl _) rfl))
    (.set 1 11 [(1, 11)] [(1, 11)] (some true) rfl (.refl _) rfl)) (.pBegin rfl)) (.addSize 0 true (by decide) rfl)) (.pCount 0 0 rfl (by decide) rfl))
    (.addSize 1 true (by decide) rfl)) (.pCount 1 1 rfl (by decide) rfl)) (.pStart 2 rfl (by decide)))
    (.pCopy 0 2 [] [(0, 10)] rfl (by decide) (by decide) rfl (.refl _))) (.pCopy 1 2 [(0, 10)] [(1, 11)] rfl (by decide) (by decide) rfl (.refl _)) |>.step
    (.pEnd 2 2 _ rfl (.inl rfl)), ?_⟩
  simp [Spec.Quiet]

/-- And restored by a map of three shards. -/
example : ∃ s, Recovers ⟨3, 0⟩ St.new (Shm.ofImg (some [(0, 10), (1, 11)])) s ∧ s.size = 2 ∧ (s.sh (1 % 3)).lookup 1 = some 11 :=
  ⟨_, .entries [(0, 10), (1, 11)] (fun i => Cfg.group ⟨3, 0⟩ [(0, 10), (1, 11)] i) rfl (fun _ => .refl _), by decide, by decide⟩

/-! ### Findings -/

/-- persist while times are set: a hash that was there all the time, and still is, is not saved, because another one, set after the count,
takes its place (AccessTimeMap.h:145-149, 168-175). -/
theorem violated_persist_omits_untouched_hash :
    ∃ tr s, Reach c2 (fun _ => none) (.get 1 (some 11) :: .pEnd (some [(2, 12), (0, 10)]) :: tr) s ∧
      ∀ a b, tr = a ++ .pBegin :: b → Spec.last (fun _ => none) b 1 = some 11 := by
  refine ⟨_, _, Reach.step (Reach.step (Reach.step (Reach.step (Reach.step (Reach.step (Reach.step (Reach.step (Reach.step (Reach.step (Reach.step
    (Reach.step Reach.fresh (.set 0 10 [(0, 10)] [(0, 10)] (some true) rfl (.refl _) rfl))
    (.set 1 11 [(1, 11)] [(1, 11)] (some true) rfl (.refl _) rfl)) (.addSize 0 true (by decide) rfl)) (.addSize 1 true (by decide) rfl))
    (.pBegin rfl)) (.pCount 0 0 rfl (by decide) rfl)) (.pCount 1 1 rfl (by decide) rfl)) (.pStart 2 rfl (by decide)))
    (.set 2 12 [(2, 12), (0, 10)] [(2, 12), (0, 10)] (some true) rfl (by decide) rfl)) (.addSize 0 true (by decide) rfl))
    (.pCopy 0 2 [] [(2, 12), (0, 10)] rfl (by decide) (by decide) rfl (.refl _))) (.pEnd 1 2 _ rfl (.inr (by decide))) |>.step
    (.get 1 rfl), ?_⟩
  intro a b hab
  rcases a with _ | ⟨_, _ | ⟨_, _ | ⟨_, _ | ⟨_, _ | ⟨_, _ | ⟨_, _ | ⟨_, _ | ⟨_, _ | ⟨_, _ | ⟨_, _ | ⟨_, a⟩⟩⟩⟩⟩⟩⟩⟩⟩⟩⟩ <;>
    simp at hab <;> (try (obtain ⟨-, -, -, -, -, -, -, hab⟩ := hab)) <;> (try subst hab) <;> simp_all [Spec.last]

/-- A hash is dropped although the map holds fewer than maxSize. -/
theorem violated_dropped_below_limit : ∃ s, Reach ⟨2, 4⟩ (fun _ => none) [.get 0 none, .set 4 40, .tau, .set 2 20, .tau, .set 0 10] s := by
  refine ⟨_, Reach.step (Reach.step (Reach.step (Reach.step (Reach.step
    (Reach.step Reach.fresh (.set 0 10 [(0, 10)] [(0, 10)] (some true) rfl (.refl _) rfl))
    (.addSize 0 true (by decide) rfl)) (.set 2 20 [(0, 10), (2, 20)] [(2, 20), (0, 10)] (some true) rfl (by decide) rfl))
    (.addSize 0 true (by decide) rfl)) (.set 4 40 [(4, 40), (0, 10), (2, 20)] [(4, 40), (2, 20)] none rfl (by decide) rfl)) (.get 0 rfl)⟩

/-- recover of a map that is not empty counts a hash twice (AccessTimeMap.h:277-278). -/
theorem violated_recover_counts_twice :
    ∃ s, Recovers c2 { St.new with sh := fun i => if i = 0 then [(0, 10)] else [], size := 1 } (Shm.ofImg (some [(0, 9)])) s ∧
      s.size = 2 ∧ s.sh 0 = [(0, 9)] ∧ s.sh 1 = [] :=
  ⟨_, .entries [(0, 9)] (fun i => c2.group [(0, 9)] i) rfl (fun _ => .refl _), by decide, by decide, by decide⟩

end Verif.Atm
