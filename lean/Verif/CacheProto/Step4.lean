import Verif.CacheProto.Step3
/-! Marking, memory, and the calls of the user. -/
namespace Verif.CacheProto
open Verif.Refcount

variable {s s' : State} {i : Nat} {p p' : PC} {a : Addr}

theorem mo_le_ex (q : PC) (x : Addr) : q.mo x ≤ q.ex x := by
  cases q <;> simp [PC.ex, PC.mo]

theorem tot_gap (f g : PC → Nat) (hfg : ∀ q, f q ≤ g q) {l : List PC} {i : Nat} {p : PC} (h : l[i]? = some p) :
    tot f l + g p ≤ tot g l + f p := by
  induction l generalizing i with
  | nil => simp at h
  | cons x l ih =>
    have hall : tot f l ≤ tot g l := by
      clear ih h
      induction l with
      | nil => simp [tot]
      | cons y l ih => have := hfg y; simp [tot] at ih ⊢; omega
    cases i with
    | zero => simp at h; subst h; simp [tot] at hall ⊢; omega
    | succ i =>
      have := ih (i := i) (by simpa using h)
      have := hfg x
      simp [tot] at this ⊢; simp [tot] at *; omega

theorem Inv.ex_le (h : Inv s) (x : Addr) : tot (·.ex x) s.thr ≤ 1 := by
  rw [← h.exc x]; exact ind_le _

/-- marked for eviction: the counter is zero -/
theorem Inv.rf_zero (h : Inv s) (hp : s.thr[i]? = some p) (h1 : p.mo a + 1 ≤ p.ex a) : s.rf a = 0 ∧ p.mo a = 0 := by
  have h2 := tot_gap (·.mo a) (·.ex a) (fun q => mo_le_ex q a) hp
  have h3 := h.ex_le a
  have h4 := h.ex_spec hp (x := a) (by omega)
  have h5 := h.exh a h4
  have h6 := tot_ge (·.mo a) hp
  omega

/-- moving: the counter is one -/
theorem Inv.rf_one (h : Inv s) (hp : s.thr[i]? = some p) (h1 : 1 ≤ p.mo a) : s.rf a = 1 ∧ p.mo a = 1 ∧ s.b20 a = true := by
  have h2 := tot_gap (·.mo a) (·.ex a) (fun q => mo_le_ex q a) hp
  have h3 := h.ex_le a
  have h7 := mo_le_ex p a
  have h4 := h.ex_spec hp (x := a) (by omega)
  have h5 := h.exh a h4
  have h6 := tot_ge (·.mo a) hp
  have h8 := tot_ge (·.ex a) hp
  exact ⟨by omega, by omega, h4⟩

theorem set_self {l : List PC} {i : Nat} {p : PC} (h : l[i]? = some p) : l.set i p = l := by
  apply List.ext_getElem?
  intro j
  by_cases hj : j = i
  · subst hj
    obtain ⟨hlt, _⟩ := List.getElem?_eq_some_iff.mp h
    rw [h]; simp [hlt]
  · rw [List.getElem?_set_ne (by omega)]

theorem upd_self {α β : Type} [DecidableEq α] (f : α → β) (x : α) : upd f x (f x) = f := by
  funext y; unfold upd; split <;> simp_all

/-! ### marking -/

theorem step_evict (h : Inv s) {v : Addr} {k : Key} {c : Cont} (hp : s.thr[i]? = some (.alloc k c)) (hm : s.mm v = true) :
    Inv (touch s v (match markForEviction (s.word v) with
          | (w, .success) => at_ (setW s v w) i (.ev1 v k c)
          | _ => s)) := by
  have hl : s.b18 v = true := by rw [h.lnk]; exact hm
  rw [touch_eq (h.live_mem (lv_one (Or.inr (Or.inl hl)))).1]
  rw [markForEviction_eq]
  have hl' : bit 18 (s.word v) = true := hl
  rw [if_neg (by rw [hl']; simp)]
  split
  · rename_i w hh
    split at hh
    · injection hh with _ hh; cases hh
    · split at hh
      · injection hh with _ hh; cases hh
      · rename_i hb ha
        injection hh with hh _; subst hh
        have ha' : s.rf v = 0 := Classical.not_not.mp ha
        have hb' : s.b20 v = false := by simpa [State.b20] using hb
        obtain ⟨c1, c2, c3, c4⟩ := set20 (s.word v)
        have hmo0 : c.old v = 0 := by
          cases hc : c.old v with
          | zero => rfl
          | succ n =>
            have := h.ex_mem hp (x := v) (by simp only [PC.ex, PC.mo]; omega)
            rw [hb'] at this; cases this.1
        obtain ⟨f1, f2, f3, f4, f5, f6, f7, f8⟩ := h.facts hp
        refine inv_w (us := s.usr) (ml := s.mail) (p' := .ev1 v k c) h hp s.mctx s.nextW ?_ (by lks) (fun _ => rfl) (by fin)
        refine ⟨c2, c3, fun _ _ => rfl, ?_, fun _ _ => rfl, fun _ _ => rfl, ?_, ?_, ?_, ?_, ?_, fun b => Or.inl (Nat.le_refl _), ?_, h.hk, h.mlk, Or.inl c1⟩
        · intro b hb; simp [PC.ex, PC.mo, ind, Ne.symm hb]
        · rw [c1]; rfl
        · rw [c4, hb']; simp [PC.ex, PC.mo, ind]
        · intro _; right; refine ⟨ha', ?_⟩; simp only [PC.mo]; rw [hmo0, c1]; exact ha'
        · rw [lvw_pos (Or.inr (Or.inl (by rw [c2]; exact hl'))), lv_one (s := s) (a := v) (Or.inr (Or.inl hl))]; rfl
        · intro hh; rw [c4] at hh; cases hh
        · intro b hb; simp [PC.borrow] at hb
  · exact h

theorem unmark_eq (w : Word) : (unmarkForEviction w).1 = clearBit 20 w := rfl
theorem unmarkM_eq (w : Word) : (unmarkMoving w).1 = clearBit 20 (w - 1) := rfl

theorem step_ev4 (h : Inv s) {v : Addr} {k : Key} {c : Cont} (hp : s.thr[i]? = some (.ev4 v k c)) :
    Inv (touch s v (at_ (setW s v (unmarkForEviction (s.word v)).1) i (.rel1 v (.recycle k c)))) := by
  have hx := h.ex_mem hp (x := v) (by simp [PC.ex, ind])
  rw [touch_eq hx.2, unmark_eq]
  obtain ⟨f1, f2, f3, f4, f5, f6, f7, f8⟩ := h.facts hp
  have h19 : s.b19 v = false := f1 v (by simp [PC.nacc])
  have h18 : s.b18 v = false := f2 v (by simp [PC.nlnk])
  obtain ⟨r0, m0⟩ := h.rf_zero hp (a := v) (by simp [PC.ex, PC.mo, ind]; omega)
  obtain ⟨c1, c2, c3, c4⟩ := clr20 (s.word v)
  have m0' : c.old v = 0 := m0
  refine inv_w (us := s.usr) (ml := s.mail) (p' := .rel1 v (.recycle k c)) h hp s.mctx s.nextW ?_ (by lks) (fun _ => rfl) (by fin)
  refine ⟨c2, c3, fun _ _ => rfl, ?_, ?_, fun _ _ => rfl, ?_, ?_, ?_, ?_, ?_, fun b => Or.inl (Nat.le_refl _), ?_, h.hk, h.mlk, Or.inl c1⟩
  · intro b hb; simp [PC.ex, PC.mo, ind, Ne.symm hb]
  · intro b hb; simp [PC.raw, ind, Ne.symm hb]
  · rw [c1]; rfl
  · rw [c4, hx.1]; simp [PC.ex, PC.mo, ind]
  · intro hh; rw [c4] at hh; cases hh
  · rw [lv_one (s := s) (a := v) (Or.inr (Or.inr (Or.inr hx.1)))]
    have : lvw (clearBit 20 (s.word v)) = 0 := by
      unfold lvw ind; rw [if_neg]; intro hh
      exact hh ⟨by rw [c1]; exact r0, by rw [c2]; exact h18, by rw [c3]; exact h19, c4⟩
    rw [this]; simp [PC.raw, ind]
  · intro _; exact Or.inr h19
  · intro b hb; simp [PC.borrow] at hb

theorem step_me4 (h : Inv s) {k : Key} (hp : s.thr[i]? = some (.me4 k a)) :
    Inv (touch s a (at_ (setW s a (unmarkForEviction (s.word a)).1) i (.me5 k a))) := by
  have hx := h.ex_mem hp (x := a) (by simp [PC.ex, ind])
  rw [touch_eq hx.2, unmark_eq]
  obtain ⟨f1, f2, f3, f4, f5, f6, f7, f8⟩ := h.facts hp
  have h19 : s.b19 a = false := f1 a (by simp [PC.nacc])
  have h18 : s.b18 a = false := f2 a (by simp [PC.nlnk])
  obtain ⟨r0, m0⟩ := h.rf_zero hp (a := a) (by simp [PC.ex, PC.mo, ind])
  obtain ⟨c1, c2, c3, c4⟩ := clr20 (s.word a)
  refine inv_w (us := s.usr) (ml := s.mail) (p' := .me5 k a) h hp s.mctx s.nextW ?_ (by lks) (fun _ => rfl) (by fin)
  refine ⟨c2, c3, fun _ _ => rfl, ?_, ?_, fun _ _ => rfl, ?_, ?_, ?_, ?_, ?_, fun b => Or.inl (Nat.le_refl _), ?_, h.hk, h.mlk, Or.inl c1⟩
  · intro b hb; simp [PC.ex, PC.mo, ind, Ne.symm hb]
  · intro b hb; simp [PC.raw, ind, Ne.symm hb]
  · rw [c1]; rfl
  · rw [c4, hx.1]; simp [PC.ex, PC.mo, ind]
  · intro hh; rw [c4] at hh; cases hh
  · rw [lv_one (s := s) (a := a) (Or.inr (Or.inr (Or.inr hx.1)))]
    have : lvw (clearBit 20 (s.word a)) = 0 := by
      unfold lvw ind; rw [if_neg]; intro hh
      exact hh ⟨by rw [c1]; exact r0, by rw [c2]; exact h18, by rw [c3]; exact h19, c4⟩
    rw [this]; simp [PC.raw, ind]
  · intro _; exact Or.inr h19
  · intro b hb; simp [PC.borrow] at hb

theorem step_me1 (h : Inv s) {k : Key} (hp : s.thr[i]? = some (.me1 k a)) :
    Inv (touch s a (at_ (setW s a (markForEvictionWhenMoving (s.word a))) i (.me2 k a))) := by
  have hx := h.ex_mem hp (x := a) (by simp [PC.ex, PC.mo, ind])
  rw [touch_eq hx.2]
  show Inv (at_ (setW s a (s.word a - 1)) i (.me2 k a))
  obtain ⟨f1, f2, f3, f4, f5, f6, f7, f8⟩ := h.facts hp
  obtain ⟨r1, m1, _⟩ := h.rf_one hp (a := a) (by simp [PC.mo, ind])
  have r1' : acc (s.word a) = 1 := r1
  have c1 : acc (s.word a - 1) = 0 := by rw [acc_sub_one (by omega)]; omega
  have c2 : bit 18 (s.word a - 1) = bit 18 (s.word a) := bit_sub_one (by omega) (by decide)
  have c3 : bit 19 (s.word a - 1) = bit 19 (s.word a) := bit_sub_one (by omega) (by decide)
  have c4 : bit 20 (s.word a - 1) = true := by rw [bit_sub_one (by omega) (by decide)]; exact hx.1
  refine inv_w (us := s.usr) (ml := s.mail) (p' := .me2 k a) h hp s.mctx s.nextW ?_ (by lks) (fun _ => rfl) (by fin)
  refine ⟨c2, c3, ?_, ?_, fun _ _ => rfl, fun _ _ => rfl, ?_, ?_, ?_, ?_, ?_, fun b => Or.inl (Nat.le_refl _), ?_, h.hk, h.mlk, ?_⟩
  · intro b hb; simp [PC.mo, ind, Ne.symm hb]
  · intro b hb; simp [PC.ex, PC.mo, ind, Ne.symm hb]
  · rw [c1, r1, uc_eq, mc_eq]; simp [PC.own, PC.mo, ind]
  · rw [c4, hx.1]; simp [PC.ex, PC.mo]
  · intro _; left; refine ⟨hx.1, ?_⟩; rw [c1, r1]; simp [PC.mo, ind]
  · rw [lvw_pos (Or.inr (Or.inr (Or.inr c4))), lv_one (s := s) (a := a) (Or.inl (by omega))]; rfl
  · intro hh; rw [c4] at hh; cases hh
  · intro b hb; simp [PC.borrow] at hb
  · exact Or.inr (Or.inr (Or.inr (Or.inr (Or.inr (Or.inl (by simp [PC.ex, PC.mo, ind]))))))

theorem step_mv5 (h : Inv s) {k : Key} {n : Addr} (hp : s.thr[i]? = some (.mv5 k a n)) :
    Inv (touch s a (at_ (setW s a (unmarkMoving (s.word a)).1) i (.mv6 k a n))) := by
  have hx := h.ex_mem hp (x := a) (by simp [PC.ex, PC.mo, ind])
  have hn := h.own_mem hp (x := n) (by simp [PC.own, ind])
  have hne : a ≠ n := by rintro rfl; rw [hn.2.1] at hx; cases hx.1
  rw [touch_eq hx.2, unmarkM_eq]
  obtain ⟨f1, f2, f3, f4, f5, f6, f7, f8⟩ := h.facts hp
  have h19 : s.b19 a = false := f1 a (by simp [PC.nacc])
  have h18 : s.b18 a = false := f2 a (by simp [PC.nlnk])
  obtain ⟨r1, m1, _⟩ := h.rf_one hp (a := a) (by simp [PC.mo, ind])
  have r1' : acc (s.word a) = 1 := r1
  obtain ⟨c1, c2, c3, c4⟩ := clr20 (s.word a - 1)
  rw [acc_sub_one (by omega)] at c1
  rw [bit_sub_one (by omega) (by decide)] at c2 c3
  generalize clearBit 20 (s.word a - 1) = v at *
  have c1 : acc v = 0 := by omega
  refine inv_w (us := s.usr) (ml := s.mail) (p' := .mv6 k a n) h hp s.mctx s.nextW ?_ (by lks) (fun _ => rfl) (by fin)
  refine ⟨c2, c3, ?_, ?_, ?_, fun _ _ => rfl, ?_, ?_, ?_, ?_, ?_, fun b => Or.inl (Nat.le_refl _), ?_, h.hk, h.mlk, ?_⟩
  · intro b hb; simp [PC.mo, ind, Ne.symm hb]
  · intro b hb; simp [PC.ex, PC.mo, ind, Ne.symm hb]
  · intro b hb; simp [PC.raw, ind, Ne.symm hb]
  · rw [c1, r1, uc_eq, mc_eq]; simp [PC.own, PC.mo, ind, Ne.symm hne]
  · rw [c4, hx.1]; simp [PC.ex, PC.mo, ind]
  · intro hh; rw [c4] at hh; cases hh
  · rw [lv_one (s := s) (a := a) (Or.inr (Or.inr (Or.inr hx.1)))]
    have : lvw v = 0 := by
      unfold lvw ind; rw [if_neg]; intro hh
      exact hh ⟨c1, by rw [c2]; exact h18, by rw [c3]; exact h19, c4⟩
    rw [this]; simp [PC.raw, ind]
  · intro _; exact Or.inr h19
  · intro b hb; simp [PC.borrow] at hb
  · exact Or.inr (Or.inr (Or.inr (Or.inr (Or.inr (Or.inl (by simp [PC.ex, PC.mo, ind]))))))

theorem step_slabRelease (h : Inv s) (hp : s.thr[i]? = some .idle) :
    Inv (if s.mem a then
      if isBit kLinked (s.word a) then
        match markMoving (s.word a) with
        | (w, true) => at_ (setW s a w) i (.mv1 (s.key a) a)
        | _ => s
      else s
    else s) := by
  split
  · split
    · rename_i hm hl
      rw [isL] at hl
      split
      · rename_i w hh
        rw [markMoving_eq] at hh
        split at hh
        · injection hh with _ hh; cases hh
        · rename_i hc
          injection hh with hh _; subst hh
          have ha : acc (s.word a) = 0 := by omega
          have ha' : s.rf a = 0 := ha
          have hb : bit 20 (s.word a) = false := by
            cases hb : bit 20 (s.word a) with
            | false => rfl
            | true => exact absurd (Or.inr (Or.inr hb)) hc
          have hb' : s.b20 a = false := hb
          have hlt : acc (s.word a) < 2 ^ 18 - 1 := by omega
          obtain ⟨c1, c2, c3, c4⟩ := set20 (s.word a + 1)
          rw [acc_add_one hlt] at c1
          rw [bit_add_one hlt (by decide)] at c2 c3
          generalize setBit 20 (s.word a + 1) = v at *
          refine inv_w (us := s.usr) (ml := s.mail) (p' := .mv1 (s.key a) a) h hp s.mctx s.nextW ?_ (by lks) (fun _ => rfl) (by fin)
          refine ⟨c2, c3, ?_, ?_, fun _ _ => rfl, fun _ _ => rfl, ?_, ?_, ?_, ?_, ?_, fun b => Or.inl (Nat.le_refl _), ?_, h.hk, h.mlk, ?_⟩
          · intro b hb; simp [PC.mo, ind, Ne.symm hb]
          · intro b hb; simp [PC.ex, PC.mo, ind, Ne.symm hb]
          · rw [c1, ha', ha, uc_eq, mc_eq]; simp [PC.own, PC.mo, ind]
          · rw [c4, hb']; simp [PC.ex, PC.mo, ind]
          · intro _; right; refine ⟨ha', ?_⟩; rw [c1, ha]; simp [PC.mo, ind]
          · rw [lvw_pos (Or.inr (Or.inr (Or.inr c4))), lv_one (s := s) (a := a) (Or.inr (Or.inl hl))]; rfl
          · intro hh; rw [c4] at hh; cases hh
          · intro b hb; simp [PC.borrow] at hb
          · exact Or.inr (Or.inr (Or.inr (Or.inr (Or.inr (Or.inr ha')))))
      · exact h
    · exact h
  · exact h

/-! ### memory -/

theorem step_fresh (h : Inv s) {b : Addr} {w : Word} {k : Key} {c : Cont} (hp : s.thr[i]? = some (.alloc k c))
    (hm : s.mem b = false) (hw : isDrained w = true) :
    Inv (at_ { s with mem := upd s.mem b true, word := upd s.word b w } i (.mem b k c)) := by
  have hl := h.liv b
  have hi : ind (s.mem b = true) = 0 := by rw [hm]; rfl
  have hraw : tot (·.raw b) s.thr = 0 := by omega
  obtain ⟨f1, f2, f3, f4, f5, f6, f7, f8⟩ := h.facts hp
  have key := inv_mem (a := b) (mm := true) (w := w) (kk := s.key b) (p' := .mem b k c) h hp ?_ (by lks) (fun _ => rfl)
  · rw [upd_self] at key; exact key
  · refine ⟨by omega, (isDrained_iff w).mp hw, fun _ => rfl, fun _ => rfl, fun _ => rfl, ?_, ?_, Or.inl rfl, ?_, ?_, fun _ => rfl, ?_, ?_, ?_, ?_, trivial⟩
    · intro x hx; simp [PC.raw, ind, Ne.symm hx]
    · rw [hi]; simp [PC.raw, ind]
    · intro x hx; simp [PC.nacc] at hx
    · intro x hx; simp [PC.nlnk] at hx
    · intro x hx; simp [PC.one1] at hx
    · intro x hx; simp [PC.exq] at hx
    · intro k v hv; simp [PC.iat] at hv
    · intro x k' hx
      have := f7 x k' (by simpa [PC.kat] using hx)
      split
      · rename_i e; rw [← e]; exact this
      · exact this

theorem free_eq (h : s.mem a = true) : free s a = { s with mem := upd s.mem a false } := by simp [free, h]

/-- memory is given back -/
theorem inv_free (h : Inv s) (hp : s.thr[i]? = some p) (hraw : 1 ≤ p.raw a)
    (own : ∀ b, p'.own b = p.own b) (mo : ∀ b, p'.mo b = p.mo b) (ex : ∀ b, p'.ex b = p.ex b)
    (raw : ∀ b, b ≠ a → p'.raw b = p.raw b) (araw : p'.raw a + 1 = p.raw a)
    (nacc : ∀ x, p'.nacc x = false) (nlnk : ∀ x, p'.nlnk x = false) (stale : ∀ x, p'.stale x = false)
    (one1 : ∀ x, p'.one1 x = false) (exq : ∀ x, p'.exq x = false) (iat : ∀ k, p'.iat k = none)
    (kat : ∀ x k, p'.kat x k = true → p.kat x k = true) (dst : p'.dst) (lk : Lk s p p') (hst : ∀ x, p.stale x = false) :
    Inv (at_ (free s a) i p') := by
  have hx := h.raw_spec hp hraw
  rw [free_eq hx.1]
  have hF := h.facts hp
  have key := inv_mem (a := a) (mm := false) (w := s.word a) (kk := s.key a) (p' := p') h hp ?_ lk hst
  · rw [upd_self, upd_self] at key; exact key
  · refine ⟨hx.2, lv_zero hx.2, own, mo, ex, raw, ?_, Or.inl rfl, ?_, ?_, stale, ?_, ?_, ?_, ?_, dst⟩
    · rw [hx.1]; simp only [ind]; simp; omega
    · intro x hx; rw [nacc] at hx; cases hx
    · intro x hx; rw [nlnk] at hx; cases hx
    · intro x hx; rw [one1] at hx; cases hx
    · intro x hx; rw [exq] at hx; cases hx
    · intro k v hv; rw [iat] at hv; cases hv
    · intro x k' hx
      have := hF.kat x k' (kat x k' hx)
      split
      · rename_i e; rw [← e]; exact this
      · exact this

theorem step_memFail (h : Inv s) {k : Key} (hp : s.thr[i]? = some (.mem a k .user)) : Inv (at_ (free s a) i .idle) := by
  refine inv_free h hp (by simp [PC.raw, ind]) (fun _ => rfl) (fun _ => rfl) (fun _ => rfl) ?_ ?_ (fun _ => rfl) (fun _ => rfl)
    (fun _ => rfl) (fun _ => rfl) (fun _ => rfl) (fun _ => rfl) ?_ trivial (by lks) (fun _ => rfl)
  · intro b hb; simp [PC.raw, ind, Ne.symm hb]
  · simp [PC.raw, ind]
  · intro x k h; cases h

theorem step_mv9 (h : Inv s) (hp : s.thr[i]? = some (.mv9 a)) : Inv (touch s a (at_ (free s a) i .idle)) := by
  rw [touch_eq (h.raw_spec hp (x := a) (by simp [PC.raw, ind])).1]
  refine inv_free h hp (by simp [PC.raw, ind]) (fun _ => rfl) (fun _ => rfl) (fun _ => rfl) ?_ ?_ (fun _ => rfl) (fun _ => rfl)
    (fun _ => rfl) (fun _ => rfl) (fun _ => rfl) (fun _ => rfl) ?_ trivial (by lks) (fun _ => rfl)
  · intro b hb; simp [PC.raw, ind, Ne.symm hb]
  · simp [PC.raw, ind]
  · intro x k h; cases h

theorem step_rel1 (h : Inv s) {rc : RCont} (hp : s.thr[i]? = some (.rel1 a rc)) :
    Inv (touch s a (if isDrained (s.word a) then at_ s i (.rel2 a rc) else bad s)) := by
  have hr : 1 ≤ (PC.rel1 a rc).raw a := by cases rc <;> simp [PC.raw, ind]
  have hx := h.raw_spec hp hr
  rw [touch_eq hx.1, if_pos ((isDrained_iff _).mpr (lv_zero hx.2))]
  obtain ⟨f1, f2, f3, f4, f5, f6, f7, f8⟩ := h.facts hp
  refine inv_pc h hp ?_ (by lks) (by intro x; rfl) ?_ s.mctx s.nextW
  · constructor <;> intro b <;> cases rc <;> rfl
  · refine ⟨nofun, nofun, nofun, nofun, nofun, nofun, ?_, trivial⟩
    intro x k hx; apply f7; cases rc <;> exact hx

theorem step_rel2 (h : Inv s) {rc : RCont} (hp : s.thr[i]? = some (.rel2 a rc)) :
    Inv (match (generalizing := false) rc with
    | .done => at_ (free s a) i .idle
    | .freeOld old => at_ (free s a) i (.mv9 old)
    | .evictOld k old => at_ (free s a) i (.me1 k old)
    | .recycle k c => at_ s i (.mem a k c)) := by
  have hr : 1 ≤ (PC.rel2 a rc).raw a := by cases rc <;> simp [PC.raw, ind]
  obtain ⟨f1, f2, f3, f4, f5, f6, f7, f8⟩ := h.facts hp
  have hx := h.raw_spec hp hr
  have hliv := h.liv a
  have hrl := tot_ge (·.raw a) hp
  cases rc with
  | done =>
    refine inv_free h hp (by simp [PC.raw, ind]) (fun _ => rfl) (fun _ => rfl) (fun _ => rfl) ?_ ?_ (fun _ => rfl) (fun _ => rfl)
      (fun _ => rfl) (fun _ => rfl) (fun _ => rfl) (fun _ => rfl) ?_ trivial (by lks) (fun _ => rfl)
    · intro b hb; simp [PC.raw, ind, Ne.symm hb]
    · simp [PC.raw, ind]
    · intro x k h; cases h
  | freeOld old =>
    refine inv_free h hp (by simp [PC.raw, ind]) (fun _ => rfl) (fun _ => rfl) (fun _ => rfl) ?_ ?_ (fun _ => rfl) (fun _ => rfl)
      (fun _ => rfl) (fun _ => rfl) (fun _ => rfl) (fun _ => rfl) ?_ trivial (by lks) (fun _ => rfl)
    · intro b hb; simp [PC.raw, ind, Ne.symm hb]
    · simp [PC.raw, ind]; omega
    · intro x k h; cases h
  | evictOld k old =>
    refine inv_free h hp (by simp [PC.raw, ind]) (fun _ => rfl) (fun _ => rfl) (fun _ => rfl) ?_ ?_ (fun _ => rfl) (fun _ => rfl)
      (fun _ => rfl) (fun _ => rfl) (fun _ => rfl) (fun _ => rfl) ?_ trivial (by lks) (fun _ => rfl)
    · intro b hb; simp [PC.raw, ind, Ne.symm hb]
    · simp [PC.raw, ind]
    · intro x k h; exact h
  | recycle k c =>
    refine inv_pc h hp ?_ (by lks) (by intro x; rfl) ?_ s.mctx s.nextW
    · constructor <;> intro b <;> rfl
    · exact ⟨nofun, nofun, nofun, nofun, nofun, nofun,
        fun x k' hx => f7 x k' hx, trivial⟩

theorem step_mem (h : Inv s) {k : Key} {c : Cont} (hp : s.thr[i]? = some (.mem a k c)) :
    Inv (touch s a (at_ { s with word := upd s.word a 0, key := upd s.key a k } i (.ctor a k c))) := by
  have hx := h.raw_spec hp (x := a) (by simp [PC.raw, ind])
  rw [touch_eq hx.1]
  obtain ⟨f1, f2, f3, f4, f5, f6, f7, f8⟩ := h.facts hp
  have hold : c.old a = 0 := by
    cases hc : c.old a with
    | zero => rfl
    | succ n =>
      have := h.ex_mem hp (x := a) (by simp only [PC.ex, PC.mo]; omega)
      rw [(lv_zero hx.2).2.2.2] at this; cases this.1
  have key := inv_mem (a := a) (mm := s.mem a) (w := 0) (kk := k) (p' := .ctor a k c) h hp ?_ (by lks) (fun _ => rfl)
  · rw [upd_self] at key; exact key
  · refine ⟨hx.2, acc_zero, fun _ => rfl, fun _ => rfl, fun _ => rfl, fun _ _ => rfl, rfl, Or.inr (by simp [PC.raw, ind]), ?_, ?_, fun _ => rfl, ?_, ?_, ?_, ?_, trivial⟩
    · intro x hx; simp [PC.nacc] at hx
    · intro x hx; simp [PC.nlnk] at hx
    · intro x hx; simp [PC.one1] at hx
    · intro x hx; simp [PC.exq] at hx
    · intro k v hv; simp [PC.iat] at hv
    · intro x k' hx
      have : (decide (a = x) && decide (k = k') || c.kat k x k') = true := hx
      simp only [Bool.or_eq_true, Bool.and_eq_true, decide_eq_true_eq] at this
      rcases this with ⟨h1, h2⟩ | h1
      · rw [if_pos h1.symm]; exact h2
      · by_cases hxa : x = a
        · exfalso; subst hxa
          cases c with
          | user => cases h1
          | move o => simp [Cont.kat] at h1; simp [Cont.old, ind, h1] at hold
        · rw [if_neg hxa]; exact f7 x k' h1

/-! ### wait contexts -/

theorem step_mv6 (h : Inv s) {k : Key} {n : Addr} (hp : s.thr[i]? = some (.mv6 k a n)) :
    Inv (touch s a (at_ { s with mctx := upd s.mctx (s.key a) [] } i (.mv7 k a n (s.mctx (s.key a)) false))) := by
  have hx := h.raw_spec hp (x := a) (by simp [PC.raw, ind])
  rw [touch_eq hx.1]
  obtain ⟨f1, f2, f3, f4, f5, f6, f7, f8⟩ := h.facts hp
  exact inv_pc h hp (p' := .mv7 k a n (s.mctx (s.key a)) false) (by same) (by lks) (by intro x; rfl) (by fin) _ _

theorem step_me5 (h : Inv s) {k : Key} (hp : s.thr[i]? = some (.me5 k a)) :
    Inv (touch s a (at_ { s with mctx := upd s.mctx (s.key a) [] } i (.me6 k a (s.mctx (s.key a))))) := by
  have hx := h.raw_spec hp (x := a) (by simp [PC.raw, ind])
  rw [touch_eq hx.1]
  obtain ⟨f1, f2, f3, f4, f5, f6, f7, f8⟩ := h.facts hp
  exact inv_pc h hp (p' := .me6 k a (s.mctx (s.key a))) (by same) (by lks) (by intro x; rfl) (by fin) _ _

theorem mcl_erase {ml : List Mail} {m : Mail} (h : m ∈ ml) (b : Addr) :
    mcl (ml.erase m) b + ind (m.r = some b) = mcl ml b := by
  induction ml with
  | nil => cases h
  | cons x ml ih =>
    by_cases hx : x = m
    · subst hx; simp [mcl, List.countP_cons, ind]
    · have hm : m ∈ ml := by
        rcases List.mem_cons.mp h with e | e
        · exact absurd e.symm hx
        · exact e
      have := ih hm
      rw [List.erase_cons_tail (by simpa using hx)]
      simp only [mcl, List.countP_cons] at this ⊢
      omega

theorem mcl_eraseIdx {ml : List Mail} {j : Nat} {m : Mail} (h : ml[j]? = some m) (b : Addr) :
    mcl (ml.eraseIdx j) b + ind (m.r = some b) = mcl ml b := by
  induction ml generalizing j with
  | nil => simp at h
  | cons x ml ih =>
    cases j with
    | zero => simp at h; subst h; simp [mcl, List.countP_cons, ind]
    | succ j =>
      have := ih (j := j) (by simpa using h)
      simp only [mcl, List.eraseIdx_cons_succ, List.countP_cons] at this ⊢
      omega

theorem ucl_eraseIdx {ml : List Hdl} {j : Nat} {m : Hdl} (h : ml[j]? = some m) (b : Addr) :
    ucl (ml.eraseIdx j) b + ind (m.a = b) = ucl ml b := by
  induction ml generalizing j with
  | nil => simp at h
  | cons x ml ih =>
    cases j with
    | zero => simp at h; subst h; simp [ucl, List.countP_cons, ind]
    | succ j =>
      have := ih (j := j) (by simpa using h)
      simp only [ucl, List.eraseIdx_cons_succ, List.countP_cons] at this ⊢
      omega

/-- only handles change hands -/
theorem inv_hand (h : Inv s) (hp : s.thr[i]? = some p) {us : List Hdl} {ml : List Mail}
    (hown : ∀ b, p'.own b + ucl us b + mcl ml b = p.own b + s.uc b + s.mc b)
    (hmo : ∀ b, p'.mo b = p.mo b) (hex : ∀ b, p'.ex b = p.ex b) (hraw : ∀ b, p'.raw b = p.raw b)
    (bor : ∀ b, s.uc b ≤ ucl us b) (hus : ∀ g ∈ us, s.key g.a = g.k)
    (hml : ∀ g ∈ ml, ∀ x, g.r = some x → s.key x = g.k)
    (lk : Lk s p p') (hst : ∀ x, p.stale x = false) (hf : Facts s p') (m : Key → List Nat) (n : Nat) :
    Inv { s with usr := us, mail := ml, mctx := m, nextW := n, thr := s.thr.set i p' } := by
  have key := inv_w (a := 0) (w := s.word 0) (us := us) (ml := ml) (p' := p') h hp m n ?_ lk hst ?_
  · rw [upd_self] at key; exact key
  · refine ⟨rfl, rfl, fun b _ => hmo b, fun b _ => hex b, fun b _ => hraw b, ?_, ?_, ?_, ?_, ?_, ?_, fun b => Or.inl (bor b), ?_, hus, hml, Or.inl rfl⟩
    · intro b _; have := hown b; omega
    · have := hown 0; rw [hmo]; simp only [State.rf] at *; omega
    · rw [hex]
    · intro hb; rw [hmo]; exact Or.inl ⟨hb, rfl⟩
    · rw [hraw]; rfl
    · intro hb; exact Or.inl hb
    · intro b hb; have := lk.borp h hp b hb; have := bor b; omega
  · refine ⟨hf.nacc, hf.nlnk, hf.stale, ?_, fun x hx => ⟨hf.exq x hx, rfl⟩, hf.iat, hf.kat, hf.dst⟩
    intro x hx
    have h1 := hf.one1 x hx
    by_cases hx0 : x = 0
    · subst hx0; exact Or.inl ⟨rfl, h1⟩
    · exact Or.inr ⟨hx0, h1⟩

theorem step_ior7 (h : Inv s) {k : Key} {x : Addr} (hp : s.thr[i]? = some (.ior7 k a x)) :
    Inv (touch s x (at_ { (mmRemove s x).1 with usr := ⟨k, x⟩ :: s.usr } i .idle)) := by
  have hx := h.own_mem hp (x := x) (by simp [PC.own, ind])
  rw [touch_eq hx.2.2]
  obtain ⟨f1, f2, f3, f4, f5, f6, f7, f8⟩ := h.facts hp
  have h1 : Inv (at_ (mmRemove s x).1 i (.ior7 k a x)) :=
    inv_mmRemove h hp x (by same) (by lks) (by intro x; rfl) (Or.inl hx.1) (by fin)
  obtain ⟨e1, e2, e3, e4, e5, e6, e7, e8, e9, e10, e11, e12, -⟩ := mmRemove_spec s h x
  generalize (mmRemove s x).1 = s1 at *
  have hp1 : (at_ s1 i (.ior7 k a x)).thr[i]? = some (.ior7 k a x) := by
    show (s1.thr.set i _)[i]? = _
    rw [e11, set_self hp]; exact hp
  have key := inv_hand (s := at_ s1 i (.ior7 k a x)) (us := ⟨k, x⟩ :: s1.usr) (ml := s1.mail) (p' := .idle) h1 hp1 ?_ (fun _ => rfl) (fun _ => rfl)
    (fun _ => rfl) ?_ ?_ ?_ (by lks) (fun _ => rfl) (by fin) s1.mctx s1.nextW
  · have : s.usr = s1.usr := e9.symm
    rw [this]
    simp only [at_, List.set_set] at key ⊢
    exact key
  · intro b; rw [ucl_cons]; show _ = _ + ucl s1.usr b + mcl s1.mail b; simp only [PC.own]; omega
  · intro b; rw [ucl_cons]; show ucl s1.usr b ≤ _; omega
  · have hk : (at_ s1 i (.ior7 k a x)).key x = k := by show s1.key x = k; rw [e7]; exact f7 x k (by simp [PC.kat])
    exact usr_cons_key h1 hk
  · exact h1.mlk

end Verif.CacheProto
