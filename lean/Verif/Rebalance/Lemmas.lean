import Verif.Rebalance.Model
/-! Lemmas about the building blocks of the rebalancing strategies. -/
namespace Verif.Rebalance
open Verif

theorem foldl_pick_mem {α : Type} (f : α → α → Bool) (xs : List α) (x : α) :
    xs.foldl (fun m y => if f m y then y else m) x ∈ x :: xs := by
  induction xs generalizing x with
  | nil => simp
  | cons y ys ih =>
    simp only [List.foldl_cons]
    have := ih (if f x y then y else x)
    split at this <;> split <;> simp_all <;> grind

theorem maxElement_mem {α : Type} {lt : α → α → Bool} {l : List α} {m : α} (h : maxElement lt l = some m) : m ∈ l := by
  cases l with
  | nil => cases h
  | cons x xs => simp only [maxElement, Option.some.injEq] at h; rw [← h]; exact foldl_pick_mem lt xs x

theorem minElement_mem {α : Type} {lt : α → α → Bool} {l : List α} {m : α} (h : minElement lt l = some m) : m ∈ l := by
  cases l with
  | nil => cases h
  | cons x xs => simp only [minElement, Option.some.injEq] at h; rw [← h]; exact foldl_pick_mem (fun m y => lt y m) xs x

theorem maxElement_none {α : Type} {lt : α → α → Bool} {l : List α} : maxElement lt l = none ↔ l = [] := by
  cases l <;> simp [maxElement]

theorem minElement_none {α : Type} {lt : α → α → Bool} {l : List α} : minElement lt l = none ↔ l = [] := by
  cases l <;> simp [minElement]

theorem foldl_pick_max (f : Nat → Nat) (xs : List Nat) (x : Nat) :
    ∀ y ∈ x :: xs, f y ≤ f (xs.foldl (fun m y => if decide (f m < f y) then y else m) x) := by
  induction xs generalizing x with
  | nil => simp
  | cons z zs ih =>
    intro y hy
    simp only [List.foldl_cons]
    by_cases hz : f x < f z
    · simp only [hz, decide_true, if_true]
      have h1 := ih z z (by simp)
      simp only [List.mem_cons] at hy
      rcases hy with rfl | rfl | hy
      · omega
      · exact h1
      · exact ih z y (by simp [hy])
    · simp only [hz, decide_false, Bool.false_eq_true, if_false]
      have h1 := ih x x (by simp)
      simp only [List.mem_cons] at hy
      rcases hy with rfl | rfl | hy
      · exact h1
      · omega
      · exact ih x y (by simp [hy])

theorem maxElement_max {f : Nat → Nat} {l : List Nat} {m : Nat} (h : maxElement (fun a b => decide (f a < f b)) l = some m) :
    ∀ y ∈ l, f y ≤ f m := by
  cases l with
  | nil => cases h
  | cons x xs => simp only [maxElement, Option.some.injEq] at h; rw [← h]; exact foldl_pick_max f xs x

theorem not_decide {q : Prop} [Decidable q] : ((!decide q) = true) ↔ ¬ q := by by_cases h : q <;> simp [h]

theorem mem_filterSlabs {s : Stats} {l : List ClassId} {m c : Nat} : c ∈ filterSlabs s l m ↔ c ∈ l ∧ m < s.freeSlabs c + s.usedSlabs c := by
  unfold filterSlabs
  rw [List.mem_filter, not_decide]
  simp only [Stats.slabs]
  constructor
  · rintro ⟨h, g⟩; exact ⟨h, by omega⟩
  · rintro ⟨h, g⟩; exact ⟨h, by omega⟩

theorem mem_filterNoEvictions {p : Pool} {s : Stats} {l : List ClassId} {c : Nat} :
    c ∈ filterNoEvictions p s l ↔ c ∈ l ∧ s.freeSlabs c = 0 ∧ s.evictions c ≠ (p.info c).evictions := by
  unfold filterNoEvictions
  rw [List.mem_filter, Bool.not_or, Bool.and_eq_true, not_decide, not_decide]
  simp only [deltaEvictions]
  constructor
  · rintro ⟨h, g1, g2⟩; exact ⟨h, by omega, by omega⟩
  · rintro ⟨h, g1, g2⟩; exact ⟨h, by omega, by omega⟩

/-- the records apart from hold-off and hits -/
def Same (p q : Pool) : Prop :=
  ∀ c, (q.info c).nSlabs = (p.info c).nSlabs ∧ (q.info c).evictions = (p.info c).evictions ∧ (q.info c).allocFailures = (p.info c).allocFailures

theorem Same.refl (p : Pool) : Same p p := fun _ => ⟨rfl, rfl, rfl⟩
theorem Same.trans {p q r : Pool} (h : Same p q) (g : Same q r) : Same p r :=
  fun c => ⟨(g c).1.trans (h c).1, (g c).2.1.trans (h c).2.1, (g c).2.2.trans (h c).2.2⟩

theorem Same.delta {p q : Pool} (h : Same p q) (s : Stats) (c : ClassId) : deltaEvictions q s c = deltaEvictions p s c := by
  simp only [deltaEvictions]; rw [(h c).2.1]

/-- what the hold-off filter does -/
theorem filterHoldOff_spec (p : Pool) (s : Stats) (l : List ClassId) (hn : l.Nodup) :
    Same p (filterHoldOff p s l).1 ∧ (filterHoldOff p s l).1.ents = p.ents ∧ (filterHoldOff p s l).1.ranks = p.ranks ∧
    (∀ c, ((filterHoldOff p s l).1.info c).hits = (p.info c).hits) ∧
    (∀ c, c ∈ (filterHoldOff p s l).2 ↔ c ∈ l ∧ ((p.info c).holdOff = 0 ∨ s.evictions c ≠ (p.info c).evictions)) ∧
    (∀ c, ((filterHoldOff p s l).1.info c).holdOff =
      if c ∈ l then (if s.evictions c = (p.info c).evictions then (p.info c).holdOff - 1 else 0) else (p.info c).holdOff) := by
  induction l generalizing p with
  | nil => exact ⟨Same.refl p, rfl, rfl, fun _ => rfl, by simp [filterHoldOff], by simp [filterHoldOff]⟩
  | cons x xs ih =>
    have hx : x ∉ xs := (List.nodup_cons.mp hn).1
    have hd : deltaEvictions p s x = 0 ↔ s.evictions x = (p.info x).evictions := by simp only [deltaEvictions]; omega
    unfold filterHoldOff
    split
    · rename_i h0
      obtain ⟨i1, i2, i3, i4, i5, i6⟩ := ih p (List.nodup_cons.mp hn).2
      refine ⟨i1, i2, i3, i4, ?_, ?_⟩
      · intro c; simp only [List.mem_cons]; rw [i5]; grind
      · intro c; rw [i6]; simp only [List.mem_cons]; grind
    · rename_i h0
      split
      · rename_i h1
        obtain ⟨i1, i2, i3, i4, i5, i6⟩ := ih { p with info := upd p.info x { p.info x with holdOff := (p.info x).holdOff - 1 } } (List.nodup_cons.mp hn).2
        refine ⟨?_, i2, i3, ?_, ?_, ?_⟩
        · intro c; have := i1 c; simp only [upd] at this; grind
        · intro c; have := i4 c; simp only [upd] at this; grind
        · intro c; rw [i5]; simp only [upd, List.mem_cons]; grind
        · intro c; rw [i6]; simp only [upd, List.mem_cons]; grind
      · rename_i h1
        obtain ⟨i1, i2, i3, i4, i5, i6⟩ := ih { p with info := upd p.info x { p.info x with holdOff := 0 } } (List.nodup_cons.mp hn).2
        refine ⟨?_, i2, i3, ?_, ?_, ?_⟩
        · intro c; have := i1 c; simp only [upd] at this; grind
        · intro c; have := i4 c; simp only [upd] at this; grind
        · intro c; simp only [List.mem_cons]; rw [i5]; simp only [upd]; grind
        · intro c; rw [i6]; simp only [upd, List.mem_cons]; grind

/-- pickVictimByFreeMem picks, if some candidate is not evicting, the candidate with the most free memory -/
theorem freeMem_spec {p : Pool} {r : Round} {victims : List ClassId} {t : Nat} {v : ClassId}
    (h : pickVictimByFreeMem p r victims t = some (some v)) :
    v ∈ r.ids ∧ t < r.freeMem v ∧ t ≠ 0 ∧
    ((v ∈ victims ∧ r.evictions v ≤ (p.info v).evictions ∧ ∀ c ∈ victims, r.evictions c ≤ (p.info c).evictions → r.freeMem c ≤ r.freeMem v) ∨
     (v = r.junk ∧ ∀ c ∈ victims, (p.info c).evictions < r.evictions c)) := by
  unfold pickVictimByFreeMem at h
  dsimp only at h
  split at h
  · cases h
  · split at h
    · cases h
    · rename_i ht
      split at h
      · cases h
      · rename_i hm
        split at h
        · cases h
        · rename_i hf
          simp only [Option.some.injEq] at h
          rw [h] at hm hf
          refine ⟨Classical.not_not.mp hm, by omega, ht, ?_⟩
          have key : ∀ c, c ∈ victims.filter (fun c => !decide (0 < deltaEvictions p r.toStats c)) ↔ c ∈ victims ∧ r.evictions c ≤ (p.info c).evictions := by
            intro c
            rw [List.mem_filter, not_decide]
            simp only [deltaEvictions]
            constructor
            · rintro ⟨a, b⟩; exact ⟨a, by omega⟩
            · rintro ⟨a, b⟩; exact ⟨a, by omega⟩
          cases he : maxElement (fun a b => decide (r.freeMem a < r.freeMem b)) (victims.filter fun c => !decide (0 < deltaEvictions p r.toStats c)) with
          | none =>
            right
            rw [he] at h
            refine ⟨by simpa using h.symm, ?_⟩
            rw [maxElement_none] at he
            intro c hc
            apply Classical.byContradiction
            intro hcon
            have := (key c).mpr ⟨hc, by omega⟩
            rw [he] at this
            cases this
          | some m =>
            left
            rw [he] at h
            simp only [Option.getD_some] at h
            subst h
            have := (key m).mp (maxElement_mem he)
            refine ⟨this.1, this.2, ?_⟩
            intro c hc hce
            exact maxElement_max (f := r.freeMem) he c ((key c).mpr ⟨hc, hce⟩)

/-- it does not fail if some candidate is not evicting -/
theorem freeMem_ok {p : Pool} {r : Round} {victims : List ClassId} {t : Nat} (hs : ∀ c ∈ victims, c ∈ r.ids)
    (h : t = 0 ∨ victims = [] ∨ ∃ c ∈ victims, r.evictions c ≤ (p.info c).evictions) : pickVictimByFreeMem p r victims t ≠ none := by
  unfold pickVictimByFreeMem
  dsimp only
  split
  · simp
  · rename_i hv
    split
    · simp
    · rename_i ht
      have h : ∃ c ∈ victims, r.evictions c ≤ (p.info c).evictions := by rcases h with h | h | h <;> first | exact h | contradiction
      obtain ⟨c, hc, hce⟩ := h
      have hm : c ∈ victims.filter (fun c => !decide (0 < deltaEvictions p r.toStats c)) := by
        rw [List.mem_filter, not_decide]
        simp only [deltaEvictions]
        exact ⟨hc, by omega⟩
      cases he : maxElement (fun a b => decide (r.freeMem a < r.freeMem b)) (victims.filter fun c => !decide (0 < deltaEvictions p r.toStats c)) with
      | none => rw [maxElement_none] at he; rw [he] at hm; cases hm
      | some m =>
        have := hs m ((List.mem_filter.mp (maxElement_mem he)).1)
        simp only [Option.getD_some, this, not_true, if_false]
        split <;> simp

theorem startHoldOff_same (p : Pool) (c : ClassId) : Same p (startHoldOff p c) := by
  intro d; simp only [startHoldOff, upd]; grind

theorem updateHits_same (p : Pool) (s : Stats) : Same p (updateHits p s) := by
  intro d; simp only [updateHits]; grind

end Verif.Rebalance
