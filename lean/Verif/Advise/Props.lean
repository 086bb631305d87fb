import Verif.Advise.Model
/-
C65: slabs to be given up are divided among the pools exactly and in proportion to their use.
-/
namespace Verif.Advise

/-! ### Specification -/

namespace Spec

/-- Slabs in use, slabs given up so far. -/
def used (l : List Pool) : Nat := l.foldr (fun p s => p.used + s) 0
def advised (l : List Pool) : Nat := l.foldr (fun p s => p.advised + s) 0

/-- `t` slabs of a pool that uses `u` of `T` slabs are a fair share of `n`: off by less than one slab, and not more than are in use
unless `n` is. -/
def Fair (n T u t : Nat) : Prop := t * T < u * n + T ∧ u * n < t * T + T ∧ (n ≤ T → t ≤ u)

end Spec

theorem used_eq (l : List Pool) : (l.map (·.used)).sum = Spec.used l := by
  induction l with
  | nil => rfl
  | cons p l ih => simp only [List.map_cons, List.sum_cons, ih, Spec.used, List.foldr_cons]

theorem advised_eq (l : List Pool) : (l.map (·.advised)).sum = Spec.advised l := by
  induction l with
  | nil => rfl
  | cons p l ih => simp only [List.map_cons, List.sum_cons, ih, Spec.advised, List.foldr_cons]

/-! ### The targets -/

/-- Sum of the remainders of the divisions. -/
def rest (n T : Nat) (l : List Pool) : Nat := (l.map fun p => p.used * n % T).sum

theorem rest_eq (n T : Nat) (l : List Pool) : (floors n T l).sum * T + rest n T l = Spec.used l * n := by
  induction l with
  | nil => simp [floors, rest, Spec.used]
  | cons p l ih =>
    simp only [floors, rest, List.map_cons, List.sum_cons, Spec.used, List.foldr_cons, Nat.add_mul] at ih ⊢
    have := Nat.div_add_mod (p.used * n) T
    rw [Nat.mul_comm] at this
    omega

theorem roundUp_fair {n T : Nat} (hT : 0 < T) (l : List Pool) : ∀ (sum i : Nat) (p : Pool) (t : Nat), l[i]? = some p →
    (roundUp n T sum (l.zip (floors n T l))).1[i]? = some t → Spec.Fair n T p.used t := by
  have flo : ∀ p : Pool, Spec.Fair n T p.used (p.used * n / T) := by
    intro p
    have h1 := Nat.div_add_mod (p.used * n) T
    rw [Nat.mul_comm] at h1
    have h2 := Nat.mod_lt (p.used * n) hT
    refine ⟨by omega, by omega, fun h => ?_⟩
    exact Nat.div_le_of_le_mul (by rw [Nat.mul_comm T]; exact Nat.mul_le_mul_left _ h)
  induction l with
  | nil => intro sum i p t h; simp at h
  | cons q l ih =>
    intro sum i p t hp ht
    simp only [floors, List.map_cons, List.zip_cons_cons, roundUp] at ht
    split at ht
    · split at ht
      · next hc =>
        cases i with
        | zero =>
          simp only [List.getElem?_cons_zero, Option.some.injEq] at hp ht
          subst hp; subst ht
          have h1 := Nat.div_add_mod (q.used * n) T
          rw [Nat.mul_comm] at h1
          have h2 := Nat.mod_lt (q.used * n) hT
          have hn : 0 < n := by omega
          rw [Nat.div_lt_iff_lt_mul hn] at hc
          refine ⟨by rw [Nat.succ_mul]; omega, by rw [Nat.succ_mul]; omega, fun h => ?_⟩
          have h3 : q.used * n / T * T < q.used * T := Nat.lt_of_lt_of_le hc (Nat.mul_le_mul_left _ h)
          have := Nat.lt_of_mul_lt_mul_right h3
          omega
        | succ i => exact ih _ i p t hp ht
      · cases i with
        | zero =>
          simp only [List.getElem?_cons_zero, Option.some.injEq] at hp ht
          subst hp; subst ht
          exact flo q
        | succ i => exact ih _ i p t hp ht
    · cases i with
      | zero =>
        simp only [List.getElem?_cons_zero, Option.some.injEq] at hp ht
        subst hp; subst ht
        exact flo q
      | succ i =>
        simp only [List.getElem?_cons_succ] at hp ht
        rw [List.map_snd_zip (by simp)] at ht
        rw [List.getElem?_map, hp] at ht
        simp only [Option.map_some, Option.some.injEq] at ht
        subst ht
        exact flo p

theorem roundUp_sum {n T : Nat} (hT : 0 < T) (l : List Pool) : ∀ sum d, sum + d = n → d * T ≤ rest n T l →
    (roundUp n T sum (l.zip (floors n T l))).2 = n ∧
    (roundUp n T sum (l.zip (floors n T l))).1.sum = (floors n T l).sum + d ∧ (roundUp n T sum (l.zip (floors n T l))).1.length = l.length := by
  induction l with
  | nil =>
    intro sum d h1 h2
    have hd : d = 0 := by
      rcases Nat.eq_zero_or_pos d with h | h
      · exact h
      · have := Nat.mul_pos h hT; simp [rest] at h2; omega
    subst hd
    exact ⟨by simpa [roundUp] using h1, rfl, rfl⟩
  | cons q l ih =>
    intro sum d h1 h2
    simp only [floors, List.map_cons, List.zip_cons_cons, roundUp]
    simp only [rest, List.map_cons, List.sum_cons] at h2
    have hm := Nat.div_add_mod (q.used * n) T
    rw [Nat.mul_comm] at hm
    have hlt := Nat.mod_lt (q.used * n) hT
    split
    · next hs =>
      obtain ⟨d, rfl⟩ : ∃ d', d = d' + 1 := ⟨d - 1, by omega⟩
      have hn : 0 < n := by omega
      split
      · rw [Nat.succ_mul] at h2
        obtain ⟨i1, i2, i3⟩ := ih (sum + 1) d (by omega) (by unfold rest; omega)
        refine ⟨i1, ?_, by simp only [List.length_cons]; exact congrArg (· + 1) i3⟩
        simp only [List.sum_cons]
        unfold floors at i2
        omega
      · next hc =>
        have h0 : q.used * n % T = 0 := by
          rw [Nat.div_lt_iff_lt_mul hn] at hc; omega
        obtain ⟨i1, i2, i3⟩ := ih sum (d + 1) h1 (by unfold rest; omega)
        refine ⟨i1, ?_, by simp only [List.length_cons]; exact congrArg (· + 1) i3⟩
        simp only [List.sum_cons]
        unfold floors at i2
        omega
    · next hs =>
      have hd : d = 0 := by omega
      subst hd
      refine ⟨by omega, ?_, by simp⟩
      rw [List.map_snd_zip (by simp)]
      simp

/-- **The targets are fair**: they exist (the check of their sum never fails), add up to the number asked for, and each is within one slab
of the pool's proportional share. -/
theorem targets_fair {n : Nat} {l : List Pool} (hT : 0 < Spec.used l) :
    ∃ ts, targets n (Spec.used l) l = some ts ∧ ts.length = l.length ∧ ts.sum = n ∧
      ∀ (i : Nat) (p : Pool) (t : Nat), l[i]? = some p → ts[i]? = some t → Spec.Fair n (Spec.used l) p.used t := by
  have hr := rest_eq n (Spec.used l) l
  have hle : (floors n (Spec.used l) l).sum ≤ n := by
    refine Nat.le_of_mul_le_mul_right ?_ hT
    rw [Nat.mul_comm n]; omega
  obtain ⟨h1, h2, h3⟩ := roundUp_sum (n := n) hT l (floors n (Spec.used l) l).sum (n - (floors n (Spec.used l) l).sum) (by omega)
    (by rw [Nat.sub_mul, Nat.mul_comm n]; omega)
  unfold targets
  simp only
  rw [if_pos h1]
  exact ⟨_, rfl, h3, by omega, roundUp_fair hT l _⟩

/-! ### The plan -/

theorem adviseLoop_zero (l : List (Pool × Nat)) : (adviseLoop 0 l).sum = 0 := by
  induction l with
  | nil => rfl
  | cons q l ih => obtain ⟨p, t⟩ := q; simp [adviseLoop, ih]

theorem reclaimLoop_zero (l : List (Pool × Nat)) : (reclaimLoop 0 l).sum = 0 := by
  induction l with
  | nil => rfl
  | cons q l ih => obtain ⟨p, t⟩ := q; simp [reclaimLoop, ih]

theorem advise_sum (l : List (Pool × Nat)) : ∀ diff, diff + (l.map (·.1.advised)).sum ≤ (l.map (·.2)).sum →
    (adviseLoop diff l).sum = diff := by
  induction l with
  | nil => intro diff h; simp at h; subst h; rfl
  | cons q l ih =>
    obtain ⟨p, t⟩ := q
    intro diff h
    simp only [List.map_cons, List.sum_cons] at h
    unfold adviseLoop
    split
    · next h0 => simp [adviseLoop_zero, h0]
    · split
      · simp only [List.sum_cons, Nat.zero_add]; exact ih diff (by omega)
      · simp only [List.sum_cons]
        by_cases hm : t - p.advised ≤ diff
        · rw [Nat.min_eq_left hm, ih (diff - (t - p.advised)) (by omega)]; omega
        · rw [Nat.min_eq_right (by omega), Nat.sub_self, adviseLoop_zero, Nat.add_zero]

theorem reclaim_sum (l : List (Pool × Nat)) : ∀ diff, diff + (l.map (·.2)).sum ≤ (l.map (·.1.advised)).sum →
    (reclaimLoop diff l).sum = diff := by
  induction l with
  | nil => intro diff h; simp at h; subst h; rfl
  | cons q l ih =>
    obtain ⟨p, t⟩ := q
    intro diff h
    simp only [List.map_cons, List.sum_cons] at h
    unfold reclaimLoop
    split
    · next h0 => simp [reclaimLoop_zero, h0]
    · split
      · simp only [List.sum_cons, Nat.zero_add]; exact ih diff (by omega)
      · simp only [List.sum_cons]
        by_cases hm : p.advised - t ≤ diff
        · rw [Nat.min_eq_left hm, ih (diff - (p.advised - t)) (by omega)]; omega
        · rw [Nat.min_eq_right (by omega), Nat.sub_self, reclaimLoop_zero, Nat.add_zero]

theorem advise_len (l : List (Pool × Nat)) : ∀ diff, (adviseLoop diff l).length = l.length := by
  induction l with
  | nil => intro diff; rfl
  | cons q l ih => intro diff; unfold adviseLoop; (repeat' split) <;> simp [ih]

theorem reclaim_len (l : List (Pool × Nat)) : ∀ diff, (reclaimLoop diff l).length = l.length := by
  induction l with
  | nil => intro diff; rfl
  | cons q l ih => intro diff; unfold reclaimLoop; (repeat' split) <;> simp [ih]

theorem advise_each (l : List (Pool × Nat)) : ∀ (diff i : Nat) (q : Pool × Nat) (x : Nat), l[i]? = some q → (adviseLoop diff l)[i]? = some x →
    x = 0 ∨ q.1.advised + x ≤ q.2 := by
  induction l with
  | nil => intro diff i q x h; simp at h
  | cons q l ih =>
    obtain ⟨p, t⟩ := q
    intro diff i q x hq hx
    unfold adviseLoop at hx
    cases i with
    | zero =>
      simp only [List.getElem?_cons_zero, Option.some.injEq] at hq
      subst hq
      (repeat' split at hx) <;> simp only [List.getElem?_cons_zero, Option.some.injEq] at hx <;> dsimp only <;> omega
    | succ i =>
      simp only [List.getElem?_cons_succ] at hq
      (repeat' split at hx) <;> simp only [List.getElem?_cons_succ] at hx <;> exact ih _ i q x hq hx

theorem reclaim_each (l : List (Pool × Nat)) : ∀ (diff i : Nat) (q : Pool × Nat) (x : Nat), l[i]? = some q → (reclaimLoop diff l)[i]? = some x →
    x = 0 ∨ q.2 + x ≤ q.1.advised := by
  induction l with
  | nil => intro diff i q x h; simp at h
  | cons q l ih =>
    obtain ⟨p, t⟩ := q
    intro diff i q x hq hx
    unfold reclaimLoop at hx
    cases i with
    | zero =>
      simp only [List.getElem?_cons_zero, Option.some.injEq] at hq
      subst hq
      (repeat' split at hx) <;> simp only [List.getElem?_cons_zero, Option.some.injEq] at hx <;> dsimp only <;> omega
    | succ i =>
      simp only [List.getElem?_cons_succ] at hq
      (repeat' split at hx) <;> simp only [List.getElem?_cons_succ] at hx <;> exact ih _ i q x hq hx

/-- What a plan must be, given fair targets `ts`: `xs` slabs are given up (`adv`) or taken back so that `n` are given up in the end, and
a pool moves only towards its target and never past it. -/
structure Spec.Good (n : Nat) (l : List Pool) (ts : List Nat) (adv : Bool) (xs : List Nat) : Prop where
  len : xs.length = l.length
  total : if adv then Spec.advised l + xs.sum = n else Spec.advised l = n + xs.sum
  each : ∀ (i : Nat) (p : Pool) (t x : Nat), l[i]? = some p → ts[i]? = some t → xs[i]? = some x →
    x = 0 ∨ if adv then p.advised + x ≤ t else t + x ≤ p.advised

/-- **The plan is exact**: if any slab is in use, the plan exists, reaches the number asked for exactly, and moves every pool only towards
a fair target. -/
theorem plan_exact {n : Nat} {l : List Pool} (hT : 0 < Spec.used l) :
    ∃ adv xs ts, plan n l = some (adv, xs) ∧ ts.length = l.length ∧ ts.sum = n ∧
      (∀ (i : Nat) (p : Pool) (t : Nat), l[i]? = some p → ts[i]? = some t → Spec.Fair n (Spec.used l) p.used t) ∧
      Spec.Good n l ts adv xs ∧ (adv = true ↔ Spec.advised l < n) := by
  obtain ⟨ts, h1, h2, h3, h4⟩ := targets_fair (n := n) hT
  unfold plan
  simp only [used_eq, advised_eq]
  split
  · next hc =>
    have hc : n = 0 ∧ Spec.advised l = 0 := by omega
    refine ⟨_, _, ts, rfl, h2, h3, h4, ⟨by simp, ?_, ?_⟩, by simp; omega⟩
    · have z : ∀ l : List Pool, (l.map fun _ => (0 : Nat)).sum = 0 := by
        intro l; induction l with
        | nil => rfl
        | cons p l ih => simpa using ih
      simp [hc.1, hc.2, z]
    · intro i p t x _ _ hx
      rw [List.getElem?_map] at hx
      left
      cases hl : l[i]? with
      | none => rw [hl] at hx; simp at hx
      | some q => rw [hl] at hx; simp at hx; exact hx.symm
  · have e1 : (l.zip ts).map (·.1.advised) = l.map (·.advised) := by
      rw [← List.map_fst_zip (l₁ := l) (l₂ := ts) (by omega), List.map_map, List.map_fst_zip (by omega)]; rfl
    have e2 : (l.zip ts).map (·.2) = ts := List.map_snd_zip (by omega)
    have e3 : (l.zip ts).length = l.length := by rw [List.length_zip]; omega
    have e4 : ∀ (i : Nat) (p : Pool) (t : Nat), l[i]? = some p → ts[i]? = some t → (l.zip ts)[i]? = some (p, t) := by
      intro i p t hp ht
      rw [List.getElem?_zip_eq_some]; exact ⟨hp, ht⟩
    rw [h1]
    simp only [Option.map_some]
    split
    · next hA =>
      have := advise_sum (l.zip ts) (n - Spec.advised l) (by rw [e1, e2, advised_eq]; omega)
      refine ⟨true, _, ts, rfl, h2, h3, h4, ⟨by rw [advise_len, e3], by simp only [if_true]; omega, ?_⟩, by simp [hA]⟩
      intro i p t x hp ht hx
      simpa using advise_each _ _ i (p, t) x (e4 i p t hp ht) hx
    · next hA =>
      have := reclaim_sum (l.zip ts) (Spec.advised l - n) (by rw [e1, e2, advised_eq]; omega)
      refine ⟨false, _, ts, rfl, h2, h3, h4, ⟨by rw [reclaim_len, e3], by simp only [Bool.false_eq_true, if_false]; omega, ?_⟩,
        by simp; omega⟩
      intro i p t x hp ht hx
      simpa using reclaim_each _ _ i (p, t) x (e4 i p t hp ht) hx

/-- A plan never asks a pool for more than it has: not more slabs than are in use when giving up (for a number up to those in use), not more
than were given up when taking back. -/
theorem plan_feasible {n : Nat} {l : List Pool} {adv : Bool} {xs : List Nat} (hT : 0 < Spec.used l)
    (h : plan n l = some (adv, xs)) {i : Nat} {p : Pool} {x : Nat} (hp : l[i]? = some p) (hx : xs[i]? = some x) :
    if adv then n ≤ Spec.used l → x ≤ p.used else x ≤ p.advised := by
  obtain ⟨adv', xs', ts, h1, h2, -, h4, h5, -⟩ := plan_exact (n := n) hT
  rw [h] at h1
  cases h1
  have hi : i < ts.length := by
    rw [h2]; exact (List.getElem?_eq_some_iff.mp hp).1
  have ht := List.getElem?_eq_getElem hi
  have hf := (h4 i p _ hp ht).2.2
  have := h5.each i p _ x hp ht hx
  cases adv with
  | true =>
    simp only [if_true] at this ⊢
    intro hn
    have := hf hn
    omega
  | false =>
    simp only [Bool.false_eq_true, if_false] at this ⊢
    omega

/-- With no slab in use nothing is planned. -/
theorem plan_idle {n : Nat} {l : List Pool} (hT : Spec.used l = 0) : plan n l = some (false, l.map fun _ => 0) := by
  unfold plan; simp [used_eq, hT]

/-! ### The monitor -/

/-- One iteration never raises the number of slabs to give up beyond the configured share of all slabs, provided all the slabs asked for
earlier have been given up; and by no more than a step. -/
theorem advise_limit {c : Cfg} {target advised usable inUse : Nat} (h : target = advised) :
    (c.adviseAway target advised usable inUse = target ∨
      c.adviseAway target advised usable inUse * 100 ≤ c.maxPercent * (advised + usable)) ∧
    target ≤ c.adviseAway target advised usable inUse ∧ c.adviseAway target advised usable inUse ≤ target + c.step := by
  unfold Cfg.adviseAway
  have := Nat.div_mul_le_self (c.maxPercent * (advised + usable)) 100
  generalize c.maxPercent * (advised + usable) = m at *
  split
  · exact ⟨.inl rfl, by omega, by omega⟩
  · refine ⟨?_, by omega, by omega⟩
    split
    · left; omega
    · right; omega

/-- Whatever has been given up, an iteration asks for no more than the share of all slabs left over. -/
theorem advise_step {c : Cfg} {target advised usable inUse : Nat} :
    (c.adviseAway target advised usable inUse - target + advised) * 100 ≤ c.maxPercent * (advised + usable) ∨
      c.adviseAway target advised usable inUse = target := by
  unfold Cfg.adviseAway
  have := Nat.div_mul_le_self (c.maxPercent * (advised + usable)) 100
  generalize c.maxPercent * (advised + usable) = m at *
  split
  · exact .inr rfl
  · split
    · right; omega
    · left; omega

/-- Growing back never fails when as many slabs are asked for as were given up, and never asks for more than `want` back. -/
theorem reclaim_ok {target advised inUse want : Nat} (h : advised ≤ target) :
    ∃ t, reclaim target advised inUse want = some t ∧ t ≤ target ∧ target ≤ t + want ∧ target ≤ t + advised ∧
      (0 < inUse → t = target - min want advised) := by
  unfold reclaim
  split
  · exact ⟨_, rfl, by omega, by omega, by omega, by omega⟩
  · rw [if_neg (by omega)]
    exact ⟨_, rfl, by omega, by omega, by omega, by omega⟩

end Verif.Advise
