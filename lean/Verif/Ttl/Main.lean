import Verif.Ttl.Props
/-!
C19: the theorems about histories.
-/
namespace Verif.Ttl
open Verif

variable {s : State} {d : Key → Option Nat}

theorem run_inv (h : Inv s d) (os : List Op) :
    Inv (run s os).1 (Spec.due s.now d (run s os).2).2 ∧ (run s os).1.now = (Spec.due s.now d (run s os).2).1 := by
  induction os generalizing s d with
  | nil => exact ⟨h, rfl⟩
  | cons o os ih =>
    obtain ⟨h1, h2⟩ := step_inv h o
    have := ih h1
    simp only [run, Spec.due]
    rw [h2] at this
    exact this

theorem init_inv (now : Nat) (on : Bool) : Inv (init now on) (fun _ => none) :=
  ⟨by simp [init], by simp [init], by simp [init], by simp [init]⟩

/-- the deadline of `k` after a history from an empty cache -/
abbrev dueAfter (now : Nat) (on : Bool) (os : List Op) (k : Key) : Option Nat :=
  (Spec.due now (fun _ => none) (run (init now on) os).2).2 k

/-- the clock after a history -/
abbrev clockAfter (now : Nat) (on : Bool) (os : List Op) : Nat :=
  (Spec.due now (fun _ => none) (run (init now on) os).2).1

/-- the state after a history -/
abbrev after (now : Nat) (on : Bool) (os : List Op) : State := (run (init now on) os).1

theorem after_inv (now : Nat) (on : Bool) (os : List Op) : Inv (after now on os) (dueAfter now on os) := (run_inv (init_inv now on) os).1

theorem after_now (now : Nat) (on : Bool) (os : List Op) : (after now on os).now = clockAfter now on os :=
  (run_inv (init_inv now on) os).2

theorem past_of_cur {e : Nat} (h : e = 0 ∨ cur s ≤ e) : ¬ Spec.Past (s.now % 2 ^ 32) e := by
  have : cur s = s.now % 2 ^ 32 := rfl
  unfold Spec.Past
  rw [← this]
  omega

/-- **C19a.** After every history, even one in which the clock is set arbitrarily, a lookup that returns an item returns it with
the deadline the calls of the user gave it, and this deadline has not passed. -/
theorem find_not_expired (now : Nat) (on : Bool) (os : List Op) (t : Nat) (k : Key) (al : Bool) (c e : Nat)
    (h : (step (after now on os) (.find t k al)).2 = .hit c e) :
    dueAfter now on os k = some e ∧ ¬ Spec.Past (clockAfter now on os % 2 ^ 32) e := by
  obtain ⟨h1, h2, _⟩ := (find_spec (after_inv now on os) t k al).2.2.2 c e h
  exact ⟨h2, by rw [← after_now]; exact past_of_cur h1⟩

/-- the same for findFast and peek -/
theorem findFast_not_expired (now : Nat) (on : Bool) (os : List Op) (t : Nat) (k : Key) (c e : Nat)
    (h : (step (after now on os) (.findFast t k)).2 = .hit c e) :
    dueAfter now on os k = some e ∧ ¬ Spec.Past (clockAfter now on os % 2 ^ 32) e := by
  obtain ⟨h1, h2, _⟩ := (findRam_spec (after_inv now on os) t k).2.2.2.2.2 c e h
  exact ⟨h2, by rw [← after_now]; exact past_of_cur h1⟩

/-- the same for getSampleItem -/
theorem sample_not_expired (now : Nat) (on : Bool) (os : List Op) (t : Nat) (k : Key) (c e : Nat)
    (h : (step (after now on os) (.sample t k)).2 = .hit c e) :
    dueAfter now on os k = some e ∧ ¬ Spec.Past (clockAfter now on os % 2 ^ 32) e := by
  have hi := after_inv now on os
  have hn := after_now now on os
  generalize after now on os = s at *
  simp only [step] at h
  cases hr : s.ram k with
  | none => rw [hr] at h; cases h
  | some it =>
    rw [hr] at h
    dsimp only at h
    split at h
    · cases h
    · rename_i hx
      simp only [Res.hit.injEq] at h
      rw [← h.2, ← hn]
      exact ⟨hi.ram k it hr, past_of_cur (isExpired_false (t := t) (by simpa using hx))⟩

/-! ### no false expiry -/

theorem isExpired_stale (s : State) (t e : Nat) (h : ∀ u, s.stale u ≤ s.now) : ∀ u, (isExpired s t e).2.stale u ≤ s.now := by
  have : cur s ≤ s.now := Nat.mod_le _ _
  intro u
  have := h u
  unfold isExpired
  simp only
  split
  · exact this
  · split
    · exact this
    · split
      · simp only [upd]; split <;> omega
      · exact this

/-- the cached times are not ahead of the clock -/
def Fresh (s : State) : Prop := ∀ u, s.stale u ≤ s.now

theorem fresh_isExpired (h : Fresh s) (t e : Nat) : Fresh (isExpired s t e).2 := by
  intro u; rw [(isExpired_frame s t e).1]; exact isExpired_stale s t e h u

theorem fresh_of {s' : State} (h : Fresh s) (h1 : s'.stale = s.stale) (h2 : s.now ≤ s'.now) : Fresh s' := by
  intro u; rw [h1]; exact Nat.le_trans (h u) h2

theorem fresh_findRam (h : Fresh s) (t : Nat) (k : Key) : Fresh (findRam s t k).1 := by
  unfold findRam
  cases s.ram k with
  | none => exact h
  | some it =>
    dsimp only
    split
    · exact fresh_isExpired h t _
    · exact fresh_isExpired h t _

theorem fresh_nvmFind (h : Fresh s) (t : Nat) (k : Key) (al : Bool) : Fresh (nvmFind s t k al).1 := by
  unfold nvmFind
  cases s.ram k with
  | some it =>
    dsimp only
    split
    · exact fresh_isExpired h t _
    · exact fresh_isExpired h t _
  | none =>
    dsimp only
    cases s.nvm k with
    | none => exact h
    | some n =>
      dsimp only
      split
      · exact h
      · split
        · exact fresh_of h rfl (Nat.le_refl _)
        · exact fresh_of h rfl (Nat.le_refl _)

theorem fresh_find (h : Fresh s) (t : Nat) (k : Key) (al : Bool) : Fresh (find s t k al).1 := by
  have h1 := fresh_findRam h t k
  unfold find
  generalize findRam s t k = r at *
  obtain ⟨s1, r⟩ := r
  have h2 := fresh_nvmFind h1 t k al
  cases r with
  | hit c e => exact h1
  | _ =>
    dsimp only
    split
    · exact h2
    · exact h1

theorem fresh_invalidate (h : Fresh s) (k : Key) : Fresh (invalidateNvm s k) := by
  unfold invalidateNvm
  cases s.ram k with
  | none => exact h
  | some it =>
    dsimp only
    split
    · exact fresh_of h rfl (Nat.le_refl _)
    · exact h

theorem fresh_evict (h : Fresh s) (t : Nat) (k : Key) (it : Item) (acc : Bool) : Fresh (evictItem s t k it acc) := by
  have h1 := fresh_isExpired h t it.exp
  have h2 := fresh_isExpired h1 t it.exp
  unfold evictItem
  dsimp only
  split
  · split
    · exact fresh_of h1 rfl (Nat.le_refl _)
    · split
      · split
        · exact fresh_of h2 rfl (Nat.le_refl _)
        · exact fresh_of h2 rfl (Nat.le_refl _)
      · exact fresh_of h1 rfl (Nat.le_refl _)
  · exact fresh_of h rfl (Nat.le_refl _)

theorem fresh_step (h : Fresh s) (o : Op) (ho : ∀ n, o ≠ .setClock n) : Fresh (step s o).1 := by
  cases o with
  | tick dt => exact fresh_of h rfl (Nat.le_add_right _ _)
  | setClock n => exact absurd rfl (ho n)
  | insert k ttl ctime => exact fresh_of h rfl (Nat.le_refl _)
  | find t k al => exact fresh_find h t k al
  | findFast t k => exact fresh_findRam h t k
  | update t k al e =>
    have h1 := fresh_find h t k al
    simp only [step]
    generalize find s t k al = r at *
    obtain ⟨s1, r⟩ := r
    have h2 := fresh_invalidate h1 k
    cases r with
    | hit c e' =>
      dsimp only
      cases (invalidateNvm s1 k).ram k with
      | none => exact h2
      | some it => exact fresh_of h2 rfl (Nat.le_refl _)
    | _ => exact h1
  | extend t k al ttl =>
    have h1 := fresh_find h t k al
    simp only [step]
    generalize find s t k al = r at *
    obtain ⟨s1, r⟩ := r
    have h2 := fresh_invalidate h1 k
    cases r with
    | hit c e' =>
      dsimp only
      cases (invalidateNvm s1 k).ram k with
      | none => exact h2
      | some it => exact fresh_of h2 rfl (Nat.le_refl _)
    | _ => exact h1
  | remove k => exact fresh_of h rfl (Nat.le_refl _)
  | evict t k acc =>
    simp only [step]
    cases s.ram k with
    | none => exact h
    | some it => exact fresh_evict h t k it acc
  | nvmDrop k =>
    simp only [step]
    cases s.nvm k with
    | none => exact h
    | some n =>
      dsimp only
      cases s.ram k with
      | none => exact fresh_of h rfl (Nat.le_refl _)
      | some it =>
        dsimp only
        split
        · exact fresh_of h rfl (Nat.le_refl _)
        · exact fresh_of h rfl (Nat.le_refl _)
  | move t k acc =>
    simp only [step]
    cases s.ram k with
    | none => exact h
    | some it =>
      have h1 := fresh_isExpired h t it.exp
      dsimp only
      split
      · exact fresh_evict h1 t k it acc
      · exact fresh_of h1 rfl (Nat.le_refl _)
  | reap t k =>
    simp only [step]
    cases s.ram k with
    | none => exact h
    | some it =>
      have h1 := fresh_isExpired h t it.exp
      dsimp only
      split
      · split
        · exact fresh_of h1 rfl (Nat.le_refl _)
        · exact h1
      · exact h
  | sample t k =>
    simp only [step]
    cases s.ram k with
    | none => exact h
    | some it =>
      have h1 := fresh_isExpired h t it.exp
      dsimp only
      split
      · exact h1
      · exact h1

theorem fresh_run (h : Fresh s) (os : List Op) (hm : Mono os) : Fresh (run s os).1 := by
  induction os generalizing s with
  | nil => exact h
  | cons o os ih =>
    have ho : (∀ n, o ≠ .setClock n) ∧ Mono os := by
      cases o <;> simp_all [Mono]
    exact ih (fresh_step h o ho.1) ho.2

theorem after_fresh (now : Nat) (on : Bool) (os : List Op) (hm : Mono os) : Fresh (after now on os) :=
  fresh_run (fun _ => Nat.zero_le _) os hm

theorem isExpired_past (h : Fresh s) (hw : s.now < 2 ^ 32) {t e : Nat} (hx : (isExpired s t e).1 = true) : Spec.Past s.now e := by
  have hc : cur s = s.now := Nat.mod_eq_of_lt hw
  have := isExpired_true (s := s) (t := t) (e := e) (by rw [hc]; exact h t) hx
  rw [hc] at this
  exact this

/-- **C19b.** If the clock is not set back, a lookup reports "expired" only for a key whose deadline has passed. -/
theorem find_expired_only_if_past (now : Nat) (on : Bool) (os : List Op) (hm : Mono os) (hw : clockAfter now on os < 2 ^ 32)
    (t : Nat) (k : Key) (al : Bool) (h : (step (after now on os) (.find t k al)).2 = .expired) :
    ∃ e, dueAfter now on os k = some e ∧ Spec.Past (clockAfter now on os) e := by
  have hi := after_inv now on os
  have hn := after_now now on os
  have hf := after_fresh now on os hm
  rw [← hn] at hw ⊢
  generalize dueAfter now on os = d at *
  generalize after now on os = s at *
  clear hn
  have k1 : ∀ {s : State}, Inv s d → Fresh s → s.now < 2 ^ 32 → (findRam s t k).2 = .expired → ∃ e, d k = some e ∧ Spec.Past s.now e := by
    intro s hi hf hw h
    unfold findRam at h
    cases hr : s.ram k with
    | none => rw [hr] at h; cases h
    | some it =>
      rw [hr] at h
      dsimp only at h
      split at h
      · rename_i hx; exact ⟨it.exp, hi.ram k it hr, isExpired_past hf hw hx⟩
      · cases h
  have k2 : ∀ {s : State}, Inv s d → Fresh s → s.now < 2 ^ 32 → (nvmFind s t k al).2 = .expired → ∃ e, d k = some e ∧ Spec.Past s.now e := by
    intro s hi hf hw h
    unfold nvmFind at h
    cases hr : s.ram k with
    | some it =>
      rw [hr] at h
      dsimp only at h
      split at h
      · rename_i hx; exact ⟨it.exp, hi.ram k it hr, isExpired_past hf hw hx⟩
      · cases h
    | none =>
      rw [hr] at h
      dsimp only at h
      cases hv : s.nvm k with
      | none => rw [hv] at h; cases h
      | some n =>
        rw [hv] at h
        dsimp only at h
        split at h
        · rename_i hx
          refine ⟨n.exp, hi.nvm k n hv, ?_⟩
          have hc : cur s = s.now := Nat.mod_eq_of_lt hw
          simp only [nvmIsExpired, hc, Bool.and_eq_true, decide_eq_true_eq] at hx
          exact hx
        · split at h <;> cases h
  have h1 := k1 hi hf hw
  obtain ⟨f1, f2, _⟩ := findRam_spec hi t k
  have f3 := fresh_findRam hf t k
  simp only [step, find] at h
  generalize findRam s t k = r at *
  obtain ⟨s1, r⟩ := r
  dsimp only at f1 f2 f3
  have h2 := k2 f1 f3 (by rw [f2]; exact hw)
  rw [f2] at h2
  cases r with
  | hit c e => cases h
  | miss =>
    dsimp only at h
    split at h
    · exact h2 h
    · cases h
  | expired => exact h1 rfl
  | done b =>
    dsimp only at h
    split at h
    · exact h2 h
    · cases h

/-- If the clock is not set back, an item in RAM whose deadline has not passed is found, with its times, by every kind of lookup. -/
theorem find_hit_if_not_past (now : Nat) (on : Bool) (os : List Op) (hm : Mono os) (hw : clockAfter now on os < 2 ^ 32)
    (t : Nat) (k : Key) (al : Bool) (it : Item) (hr : (after now on os).ram k = some it)
    (hp : ∀ e, dueAfter now on os k = some e → ¬ Spec.Past (clockAfter now on os) e) :
    (step (after now on os) (.find t k al)).2 = .hit it.ctime it.exp ∧ (step (after now on os) (.findFast t k)).2 = .hit it.ctime it.exp ∧
    (step (after now on os) (.sample t k)).2 = .hit it.ctime it.exp := by
  have hi := after_inv now on os
  have hn := after_now now on os
  have hf := after_fresh now on os hm
  rw [← hn] at hw hp
  have hp := hp it.exp (hi.ram k it hr)
  generalize after now on os = s at *
  have hx : (isExpired s t it.exp).1 = false := by
    cases hx : (isExpired s t it.exp).1 with
    | false => rfl
    | true => exact absurd (isExpired_past hf hw hx) hp
  simp only [step, find, findRam, hr, hx]
  simp

/-- **C19c.** An item without a TTL is never reported as expired, whatever the clock does. -/
theorem no_ttl_never_expires (now : Nat) (on : Bool) (os : List Op) (k : Key) (hd : dueAfter now on os k = some 0) (t : Nat) (al : Bool) :
    (step (after now on os) (.find t k al)).2 ≠ .expired ∧
    ∀ it, (after now on os).ram k = some it → (step (after now on os) (.find t k al)).2 = .hit it.ctime 0 ∧
      (step (after now on os) (.findFast t k)).2 = .hit it.ctime 0 ∧ (step (after now on os) (.reap t k)).2 = .done false := by
  have hi := after_inv now on os
  generalize dueAfter now on os = d at *
  generalize after now on os = s at *
  cases hr : s.ram k with
  | some it =>
    have : it.exp = 0 := by have := hi.ram k it hr; rw [hd] at this; grind
    refine ⟨?_, ?_⟩
    · simp [step, find, findRam, hr, this, isExpired]
    · intro i hi; simp only [Option.some.injEq] at hi; subst hi
      simp [step, find, findRam, hr, this, isExpired, isExpiredAt]
  | none =>
    refine ⟨?_, by simp⟩
    simp only [step, find, findRam, hr]
    split
    · unfold nvmFind
      simp only [hr]
      cases hv : s.nvm k with
      | none => simp
      | some n =>
        have : n.exp = 0 := by have := hi.nvm k n hv; rw [hd] at this; grind
        dsimp only
        simp only [nvmIsExpired, this]
        split
        · rename_i hx; simp at hx
        · split <;> simp
    · simp

/-- **C19d.** The Reaper removes exactly the items in RAM whose deadline has passed, and touches no other key. -/
theorem reap_exact (now : Nat) (on : Bool) (os : List Op) (t : Nat) (k : Key) :
    ((step (after now on os) (.reap t k)).2 = .done true ↔
      (after now on os).ram k ≠ none ∧ ∃ e, dueAfter now on os k = some e ∧ Spec.Past (clockAfter now on os % 2 ^ 32) e) ∧
    ((step (after now on os) (.reap t k)).2 = .done true → (step (after now on os) (.reap t k)).1.ram k = none) ∧
    ((step (after now on os) (.reap t k)).2 ≠ .done true → (step (after now on os) (.reap t k)).1.ram k = (after now on os).ram k) ∧
    (∀ q, q ≠ k → (step (after now on os) (.reap t k)).1.ram q = (after now on os).ram q) ∧
    (step (after now on os) (.reap t k)).1.nvm = (after now on os).nvm := by
  have hi := after_inv now on os
  rw [← after_now]
  generalize dueAfter now on os = d at *
  generalize after now on os = s at *
  simp only [step]
  cases hr : s.ram k with
  | none => simp [hr]
  | some it =>
    have hd := hi.ram k it hr
    have f := isExpired_frame s t it.exp
    have hcur : cur s = s.now % 2 ^ 32 := rfl
    dsimp only
    split
    · rename_i hx
      have hx : 0 < it.exp ∧ it.exp < cur s := by simpa [isExpiredAt] using hx
      have hp : Spec.Past (s.now % 2 ^ 32) it.exp := by rw [← hcur]; exact hx
      have : (isExpired s t it.exp).1 = true := by
        cases hy : (isExpired s t it.exp).1 with
        | true => rfl
        | false => have := isExpired_false hy; omega
      rw [this, f.2.1]
      simp only [if_true, true_iff]
      refine ⟨⟨by simp, _, hd, hp⟩, by simp [upd], by simp, fun q hq => upd_ne _ _ hq, f.2.2.1⟩
    · rename_i hx
      refine ⟨⟨by simp, ?_⟩, by simp, fun _ => hr, fun _ _ => rfl, rfl⟩
      rintro ⟨_, e, he, hp⟩
      rw [hd] at he
      simp only [Option.some.injEq] at he
      subst he
      exfalso; apply hx
      rw [← hcur] at hp
      simp only [isExpiredAt, Bool.and_eq_true, decide_eq_true_eq]
      exact hp

/-- **C19e.** An eviction writes to NVM only an item whose deadline has not passed, with its times; nothing else in NVM changes. -/
theorem evict_writes_unexpired (now : Nat) (on : Bool) (os : List Op) (t : Nat) (k : Key) (acc : Bool) :
    (∀ q, q ≠ k → (step (after now on os) (.evict t k acc)).1.nvm q = (after now on os).nvm q) ∧
    ((step (after now on os) (.evict t k acc)).1.nvm k = (after now on os).nvm k ∨
     ∃ it e, (after now on os).ram k = some it ∧ (step (after now on os) (.evict t k acc)).1.nvm k = some { ctime := it.ctime, exp := e } ∧
       dueAfter now on os k = some e ∧ ¬ Spec.Past (clockAfter now on os % 2 ^ 32) e) := by
  have hi := after_inv now on os
  rw [← after_now]
  generalize dueAfter now on os = d at *
  generalize after now on os = s at *
  simp only [step]
  cases hr : s.ram k with
  | none => exact ⟨fun _ _ => rfl, .inl rfl⟩
  | some it =>
    have hd := hi.ram k it hr
    have f := isExpired_frame s t it.exp
    have f2 := isExpired_frame (isExpired s t it.exp).2 t it.exp
    dsimp only
    unfold evictItem
    dsimp only
    split
    · split
      · exact ⟨fun _ _ => by rw [f.2.2.1], .inl (by rw [f.2.2.1])⟩
      · rename_i hx
        split
        · split
          · exact ⟨fun _ _ => by rw [f2.2.2.1, f.2.2.1], .inl (by rw [f2.2.2.1, f.2.2.1])⟩
          · refine ⟨fun q hq => by simp only [upd_ne _ _ hq]; rw [f2.2.2.1, f.2.2.1], .inr ⟨it, it.exp, rfl, by simp [upd], hd, ?_⟩⟩
            exact past_of_cur (isExpired_false (t := t) (by simpa using hx))
        · exact ⟨fun _ _ => by rw [f.2.2.1], .inl (by rw [f.2.2.1])⟩
    · exact ⟨fun _ _ => rfl, .inl rfl⟩

/-- find leaves the item found in RAM, with the times returned -/
theorem find_ram (h : Inv s d) (t : Nat) (k : Key) (al : Bool) (c e : Nat) (hh : (find s t k al).2 = .hit c e) :
    ∃ it, (find s t k al).1.ram k = some it ∧ it.exp = e ∧ it.ctime = c := by
  have key : ∀ {s : State}, Inv s d → (nvmFind s t k al).2 = .hit c e → ∃ it, (nvmFind s t k al).1.ram k = some it ∧ it.exp = e ∧ it.ctime = c := by
    intro s h hh
    unfold nvmFind at hh ⊢
    cases hr : s.ram k with
    | some it =>
      have f := isExpired_frame s t it.exp
      simp only [hr] at hh ⊢
      split at hh
      · cases hh
      · rename_i hx
        simp only [hx]
        simp only [Res.hit.injEq] at hh
        exact ⟨it, by simp [f.2.1, hr], hh.2, hh.1⟩
    | none =>
      simp only [hr] at hh ⊢
      cases hv : s.nvm k with
      | none => simp [hv] at hh
      | some n =>
        simp only [hv] at hh ⊢
        split at hh
        · cases hh
        · rename_i hx
          split at hh
          · rename_i ha
            simp only [Res.hit.injEq] at hh
            simp only [hx, ha]
            exact ⟨_, by simp [upd]; rfl, hh.2, hh.1⟩
          · cases hh
  have k1 : (findRam s t k).2 = .hit c e → ∃ it, (findRam s t k).1.ram k = some it ∧ it.exp = e ∧ it.ctime = c := by
    intro hh
    unfold findRam at hh ⊢
    cases hr : s.ram k with
    | none => simp [hr] at hh
    | some it =>
      have f := isExpired_frame s t it.exp
      simp only [hr] at hh ⊢
      split at hh
      · cases hh
      · rename_i hx
        simp only [hx]
        simp only [Res.hit.injEq] at hh
        exact ⟨it, by simp [f.2.1, hr], hh.2, hh.1⟩
  have h1 := (findRam_spec h t k).1
  unfold find at hh ⊢
  generalize findRam s t k = r at *
  obtain ⟨s1, r⟩ := r
  cases r with
  | hit c' e' => exact k1 hh
  | _ =>
    dsimp only at hh ⊢
    split at hh
    · rename_i ho; simp only [ho]; exact key h1 hh
    · cases hh

theorem invalidate_ram (s : State) (k q : Key) (it : Item) (h : s.ram q = some it) :
    ∃ it', (invalidateNvm s k).ram q = some it' ∧ it'.exp = it.exp ∧ it'.ctime = it.ctime := by
  unfold invalidateNvm
  cases hr : s.ram k with
  | none => exact ⟨it, h, rfl, rfl⟩
  | some i =>
    dsimp only
    split
    · simp only [upd]; split
      · subst_vars; rw [h] at hr; cases hr; exact ⟨_, rfl, rfl, rfl⟩
      · exact ⟨it, h, rfl, rfl⟩
    · exact ⟨it, h, rfl, rfl⟩

/-- **C19f.** findToWrite followed by updateExpiryTime succeeds exactly if the lookup finds the item; then the item has the new
expiry time (and its old creation time), no NVM copy with the old one is left, and the key's deadline is the new time. Otherwise the deadline is not changed. -/
theorem update_exact (now : Nat) (on : Bool) (os : List Op) (t : Nat) (k : Key) (al : Bool) (e : Nat) :
    (∀ c e0, (step (after now on os) (.find t k al)).2 = .hit c e0 →
      (step (after now on os) (.update t k al e)).2 = .done true ∧
      dueAfter now on (os ++ [.update t k al e]) k = some (e % 2 ^ 32) ∧
      (after now on (os ++ [.update t k al e])).nvm k = none ∧
      ∃ it, (after now on (os ++ [.update t k al e])).ram k = some it ∧ it.ctime = c ∧ it.exp = e % 2 ^ 32) ∧
    ((∀ c e0, (step (after now on os) (.find t k al)).2 ≠ .hit c e0) →
      (step (after now on os) (.update t k al e)).2 = .done false ∧
      dueAfter now on (os ++ [.update t k al e]) = dueAfter now on os) := by
  have run_app : ∀ (os : List Op) (s : State) (d) (n), run s (os ++ [.update t k al e]) =
      ((step (run s os).1 (.update t k al e)).1, (run s os).2 ++ [(.update t k al e, (step (run s os).1 (.update t k al e)).2)]) ∧
      Spec.due n d ((run s os).2 ++ [(.update t k al e, (step (run s os).1 (.update t k al e)).2)]) =
        ((Spec.due n d (run s os).2).1,
         Spec.next (Spec.due n d (run s os).2).1 (Spec.due n d (run s os).2).2 (.update t k al e) (step (run s os).1 (.update t k al e)).2) := by
    intro os
    induction os with
    | nil => intro s d n; exact ⟨rfl, rfl⟩
    | cons o os ih =>
      intro s d n
      have := ih (step s o).1 (Spec.next n d o (step s o).2) (Spec.clock n o)
      simp only [List.cons_append, run, Spec.due]
      rw [this.1]
      exact ⟨rfl, this.2⟩
  obtain ⟨r1, r2⟩ := run_app os (init now on) (fun _ => none) now
  have hi := after_inv now on os
  unfold dueAfter after at *
  rw [r1]
  dsimp only
  rw [r2]
  generalize (run (init now on) os).1 = s at *
  generalize Spec.due now (fun _ => none) (run (init now on) os).2 = D at *
  clear r1 r2 run_app
  have hfr := find_ram hi t k al
  obtain ⟨h1, h2, h3, h4⟩ := find_spec hi t k al
  simp only [step]
  generalize find s t k al = r at *
  obtain ⟨s1, r⟩ := r
  refine ⟨?_, ?_⟩
  · intro c e0 hh
    obtain ⟨it, g1, g2, g3⟩ := hfr c e0 hh
    dsimp only at hh g1
    subst hh
    obtain ⟨it', j1, j2, j3⟩ := invalidate_ram s1 k k it g1
    obtain ⟨-, -, -, i4⟩ := invalidate_spec h1 k
    dsimp only
    rw [j1]
    simp only [updateExpiryTime, heldFlags]
    refine ⟨rfl, by simp [Spec.next, upd], (i4 it g1).2, _, by simp only [upd]; simp; rfl, by simp [j3, g3], rfl⟩
  · intro hh
    dsimp only at hh
    cases r with
    | hit c e' => exact absurd rfl (hh c e')
    | _ => exact ⟨rfl, rfl⟩

/-- **C19g.** updateExpiryTime and extendTTL on an item in any state: refused, without effect, exactly if the item is being moved or
evicted, is not in the MM container or is a chained item; otherwise only the expiry time changes. -/
theorem updateExpiryTime_exact (f : Flags) (it : Item) (e : Nat) (he : e < 2 ^ 32) :
    ((updateExpiryTime f it e).2 = true ↔ (f.moving = false ∧ f.markedForEviction = false ∧ f.inMM = true ∧ f.chained = false)) ∧
    ((updateExpiryTime f it e).2 = true → (updateExpiryTime f it e).1 = { it with exp := e }) ∧
    ((updateExpiryTime f it e).2 = false → (updateExpiryTime f it e).1 = it) := by
  have : e % W = e := Nat.mod_eq_of_lt he
  unfold updateExpiryTime
  rw [this]
  cases f.moving <;> cases f.markedForEviction <;> cases f.inMM <;> cases f.chained <;> simp

/-- extendTTL sets the expiry time to now + ttl as long as this is a 32-bit time -/
theorem extendTTL_exact (f : Flags) (it : Item) (ttl : Nat) (hn : s.now + ttl < 2 ^ 32) :
    extendTTL s f it ttl = updateExpiryTime f it (s.now + ttl) := by
  have h1 : cur s = s.now := Nat.mod_eq_of_lt (show s.now < 2 ^ 32 by omega)
  have h2 : ((((s.now : Int) + (ttl : Int)) % (W : Int)).toNat) = s.now + ttl := by
    have hW : (W : Int) = 4294967296 := rfl
    rw [hW]; omega
  unfold extendTTL
  rw [h1, h2]

/-- **C19h.** A new item expires ttl seconds after its creation (the given creation time, by default now), or never if ttl is 0, as long
as the time fits in 32 bits; getConfiguredTTL returns ttl. -/
theorem allocate_exact (ttl ctime : Nat) (hn : s.now < 2 ^ 32) (h : (if ctime = 0 then s.now else ctime) + ttl < 2 ^ 32) :
    (allocate s ttl ctime).ctime = (if ctime = 0 then s.now else ctime) ∧
    (allocate s ttl ctime).exp = (if ttl = 0 then 0 else (if ctime = 0 then s.now else ctime) + ttl) ∧
    configuredTTL (allocate s ttl ctime) = ttl := by
  have h1 : cur s = s.now := Nat.mod_eq_of_lt hn
  simp only [allocate, configuredTTL, h1]
  generalize (if ctime = 0 then s.now else ctime) = c at *
  have h2 : (c + ttl) % W = c + ttl := Nat.mod_eq_of_lt h
  have h3 : (c + ttl + W - c) % W = ttl := by unfold W; omega
  rw [h2]
  simp only [true_and]
  by_cases ht : ttl = 0
  · simp [ht]
  · simp only [ht, if_false]
    have : 0 < c + ttl := by omega
    simp only [this, if_true]
    exact h3

/-- **C19i.** A slab release keeps the times of an item it moves; it moves every item that is not expired. -/
theorem move_keeps_times (now : Nat) (on : Bool) (os : List Op) (t : Nat) (k : Key) (acc : Bool) (it : Item)
    (hr : (after now on os).ram k = some it) :
    ((step (after now on os) (.move t k acc)).2 = .done true →
      ∃ it', (step (after now on os) (.move t k acc)).1.ram k = some it' ∧ it'.ctime = it.ctime ∧ it'.exp = it.exp) ∧
    (Mono os → clockAfter now on os < 2 ^ 32 → (∀ e, dueAfter now on os k = some e → ¬ Spec.Past (clockAfter now on os) e) →
      (step (after now on os) (.move t k acc)).2 = .done true) := by
  have hi := after_inv now on os
  have hf := fun hm => after_fresh now on os hm
  rw [← after_now]
  generalize dueAfter now on os = d at *
  generalize after now on os = s at *
  simp only [step, hr]
  refine ⟨?_, ?_⟩
  · split
    · simp
    · intro _; exact ⟨{ ctime := it.ctime, exp := it.exp, clean := it.clean, nvmEv := false }, by simp [upd], rfl, rfl⟩
  · intro hm hw hp
    split
    · rename_i hx; exact absurd (isExpired_past (hf hm) hw hx) (hp _ (hi.ram k it hr))
    · rfl

/-! ### The hypotheses are met, and the limits -/

/-- a history in which an item is inserted with a TTL of 5, evicted to NVM, brought back, extended, moved and reaped -/
def demo : List Op :=
  [.insert 1 5 0, .insert 2 0 0, .tick 3, .evict 0 1 true, .find 0 1 true, .extend 0 1 true 10, .tick 9, .move 0 1 true, .findFast 7 1]

example : ((run (init 1000 true) demo).2.map (·.2)) =
    [.done true, .done true, .done true, .done true, .hit 1000 1005, .done true, .done true, .done true, .hit 1000 1013] := by decide +kernel

example : dueAfter 1000 true demo 1 = some 1013 ∧ clockAfter 1000 true demo = 1012 ∧ dueAfter 1000 true demo 2 = some 0 := by decide +kernel

/-- at the deadline the item is still found, one second later it is not -/
example : (step (after 1000 true (demo ++ [.tick 1])) (.find 0 1 true)).2 = .hit 1000 1013 ∧
    (step (after 1000 true (demo ++ [.tick 2])) (.find 0 1 true)).2 = .expired ∧
    (step (after 1000 true (demo ++ [.tick 2])) (.reap 0 1)).2 = .done true ∧
    (step (after 1000 true (demo ++ [.tick 2])) (.find 0 2 true)).2 = .hit 1000 0 := by decide +kernel

example : Mono demo := by simp [demo, Mono]

/-- A found limit: after the clock is set back, a thread whose cached time is newer reports an item as expired that is not
(Time.h:61-63); another thread finds it. -/
theorem false_expiry_after_clock_set_back :
    let s := after 1000 true [.insert 1 5 0, .insert 2 50 0, .tick 20, .find 7 2 true, .setClock 1001]
    (step s (.find 7 1 true)).2 = .expired ∧ (step s (.find 8 1 true)).2 = .hit 1000 1005 ∧
    dueAfter 1000 true [.insert 1 5 0, .insert 2 50 0, .tick 20, .find 7 2 true, .setClock 1001] 1 = some 1005 := by decide +kernel

/-- A found limit: the sum of creation time and TTL wraps; if it is 2^32 the item never expires. -/
theorem allocate_wraps : (allocate (init 4294967290 true) 6 0).exp = 0 ∧ (allocate (init 4294967290 true) 7 0).exp = 1 := by decide +kernel

end Verif.Ttl
