import Verif.CacheProto.Step
/-! Index steps. -/
namespace Verif.CacheProto
open Verif.Refcount

variable {s s' : State} {i : Nat} {p p' : PC} {a : Addr}

/-- With the bucket lock of its key free (or held by this thread, which has no stale item), an accessible item is
the entry of its key. -/
theorem Inv.acc_idx (h : Inv s) (hp : s.thr[i]? = some p) (hst : ∀ x, p.stale x = false) (hb : s.b19 a = true)
    (hl : p.lx (s.key a) = true ∨ canX s (s.key a) = true) : s.idx (s.key a) = some a := by
  rcases h.acI' hp hb with h1 | h1 | ⟨q, j, hji, hq, h1⟩
  · exact h1
  · rw [hst] at h1; cases h1
  · obtain ⟨k', h2, h3⟩ := stale_lock q a h1
    have h4 := (h.facts hq).kat a k' h2
    subst h4
    rw [(h.lock2 hp hq hji hl).1] at h3; cases h3

/-- what the new program counter may rely on after the removal of `a` from the index -/
structure FactsR (s : State) (p' : PC) (a : Addr) : Prop where
  nacc : ∀ x, p'.nacc x = true → x = a ∨ s.b19 x = false
  nlnk : ∀ x, p'.nlnk x = true → s.b18 x = false
  stale : ∀ x, p'.stale x = false
  one1 : ∀ x, p'.one1 x = false
  exq : ∀ x, p'.exq x = false
  iat : ∀ k, p'.iat k = none
  kat : ∀ x k, p'.kat x k = true → s.key x = k
  dst : p'.dst
  bor : ∀ b, p'.borrow b = true → p.borrow b = true

theorem inv_acRemove (h : Inv s) (hp : s.thr[i]? = some p) (sm : Same s p p') (lk : Lk s p p')
    (hst : ∀ x, p.stale x = false) (hl : 1 ≤ s.rf a ∨ s.b20 a = true)
    (hk : p.lx (s.key a) = true ∨ canX s (s.key a) = true) (hf : FactsR (p := p) s p' a) :
    Inv (at_ (acRemove s a) i p') := by
  unfold acRemove
  rw [isA]
  by_cases hb : bit 19 (s.word a) = true
  · have hi := h.acc_idx hp hst hb hk
    rw [if_pos hb, if_pos hi]
    obtain ⟨c1, c2, c3, c4⟩ := clr19 (s.word a)
    refine inv_ac h hp (a := a) (w := clearBit kAccessible (s.word a)) (ix := upd s.idx (s.key a) none)
      (p' := p') ?_ lk
    refine ⟨c1, c2, c4, sm.own, sm.mo, sm.ex, sm.raw, ?_, ?_, ?_, ?_, ?_, ?_, hf.bor, ?_, hf.nlnk, ?_, ?_, ?_, ?_, hf.kat, hf.dst⟩
    · rcases hl with h1 | h1
      · exact Or.inl h1
      · exact Or.inr (Or.inl h1)
    · intro k x hx
      unfold upd at hx
      split at hx
      · cases hx
      · rename_i hne
        have h1 := h.idk k x hx
        refine ⟨h1.1, ?_⟩
        rw [if_neg]; exact h1.2
        rintro rfl; exact hne h1.1.symm
    · intro x hx
      by_cases hxa : x = a
      · rw [if_pos hxa, c3] at hx; cases hx
      · rw [if_neg hxa] at hx
        rcases h.acI' hp hx with h1 | h1 | h1
        · left
          unfold upd
          rw [if_neg]; exact h1
          intro hkk; rw [hkk, hi] at h1; injection h1 with h1; exact hxa h1.symm
        · rw [hst] at h1; cases h1
        · exact Or.inr (Or.inr h1)
    · rw [c3]; intro hh; cases hh
    · intro _; exact Or.inr hk
    · intro k; unfold upd; split
      · rename_i e; subst e; exact Or.inr hk
      · exact Or.inl rfl
    · intro x hx
      by_cases hxa : x = a
      · rw [if_pos hxa]; exact c3
      · rw [if_neg hxa]; exact (hf.nacc x hx).resolve_left hxa
    · intro x hx; rw [hf.stale] at hx; cases hx
    · intro x hx; rw [hf.one1] at hx; cases hx
    · intro x hx; rw [hf.exq] at hx; cases hx
    · intro k v hv; rw [hf.iat] at hv; cases hv
  · rw [if_neg hb]
    refine inv_pc h hp sm lk hst ?_ s.mctx s.nextW
    refine ⟨?_, hf.nlnk, ?_, ?_, ?_, ?_, hf.kat, hf.dst⟩
    · intro x hx
      rcases hf.nacc x hx with h1 | h1
      · subst h1; simpa [State.b19] using hb
      · exact h1
    · intro x hx; rw [hf.stale] at hx; cases hx
    · intro x hx; rw [hf.one1] at hx; cases hx
    · intro x hx; rw [hf.exq] at hx; cases hx
    · intro k v hv; rw [hf.iat] at hv; cases hv

theorem step_ev2 (h : Inv s) {v : Addr} {k : Key} {c : Cont} (hp : s.thr[i]? = some (.ev2 v k c)) :
    Inv (if canX s (s.key v) then touch s v (at_ (acRemove s v) i (.ev3 v k c)) else s) := by
  have hx := h.ex_mem hp (x := v) (by simp [PC.ex, ind])
  rw [touch_eq hx.2]
  obtain ⟨f1, f2, f3, f4, f5, f6, f7, f8⟩ := h.facts hp
  split
  · rename_i hc
    exact inv_acRemove h hp (by same) (by lks) (by intro x; rfl) (Or.inr hx.1) (Or.inr hc) (by fin)
  · exact h

theorem step_me2 (h : Inv s) {a : Addr} {k : Key} (hp : s.thr[i]? = some (.me2 k a)) :
    Inv (if canX s (s.key a) then touch s a (at_ (acRemove s a) i (.me3 k a)) else s) := by
  have hx := h.ex_mem hp (x := a) (by simp [PC.ex, ind])
  rw [touch_eq hx.2]
  obtain ⟨f1, f2, f3, f4, f5, f6, f7, f8⟩ := h.facts hp
  split
  · rename_i hc
    exact inv_acRemove h hp (by same) (by lks) (by intro x; rfl) (Or.inr hx.1) (Or.inr hc) (by fin)
  · exact h

theorem step_rm1 (h : Inv s) {a : Addr} {k : Key} (hp : s.thr[i]? = some (.rm1 k a)) :
    Inv (if canX s k then touch s a (at_ (acRemove s a) i (.rm2 k a)) else s) := by
  have hx := h.bor_spec hp (x := a) (by simp [PC.borrow])
  rw [touch_eq hx.2.2]
  obtain ⟨f1, f2, f3, f4, f5, f6, f7, f8⟩ := h.facts hp
  have hk := f7 a k (by simp [PC.kat])
  split
  · rename_i hc
    exact inv_acRemove h hp (by same) (by lks) (by intro x; rfl) (Or.inl hx.1) (Or.inr (by rw [hk]; exact hc)) (by fin)
  · exact h

theorem step_rp5 (h : Inv s) {o n : Addr} {k : Key} (hp : s.thr[i]? = some (.rp5 k o n)) :
    Inv (if canX s k then touch s n (at_ (acRemove s n) i .idle) else s) := by
  have hx := h.bor_spec hp (x := n) (by simp [PC.borrow])
  rw [touch_eq hx.2.2]
  obtain ⟨f1, f2, f3, f4, f5, f6, f7, f8⟩ := h.facts hp
  have hk := f7 n k (by simp [PC.kat])
  split
  · rename_i hc
    exact inv_acRemove h hp (by same) (by lks) (by intro x; rfl) (Or.inl hx.1) (Or.inr (by rw [hk]; exact hc)) (by fin)
  · exact h

theorem step_rx3 (h : Inv s) {a : Addr} {k : Key} (hp : s.thr[i]? = some (.rx3 k a)) :
    Inv (touch s a (at_ (acRemove s a) i (.rx4 k a))) := by
  have hx := h.bor_spec hp (x := a) (by simp [PC.borrow])
  rw [touch_eq hx.2.2]
  obtain ⟨f1, f2, f3, f4, f5, f6, f7, f8⟩ := h.facts hp
  have hk := f7 a k (by simp [PC.kat])
  exact inv_acRemove h hp (by same) (by lks) (by intro x; rfl) (Or.inl hx.1) (Or.inl (by rw [hk]; simp [PC.lx])) (by fin)

/-- `acSet` at an empty index entry. -/
theorem inv_acSet (h : Inv s) (hp : s.thr[i]? = some p) {k : Key} (sm : Same s p p') (lk : Lk s p p')
    (hst : ∀ x, p.stale x = false) (hl : 1 ≤ s.rf a) (hka : s.key a = k)
    (hi : s.idx k = none) (hk : p.lx k = true ∨ canX s k = true)
    (hin : p.inserting a = true ∨ p.one1 a = true) 
    (hf : FactsR (p := p) s p' a) (hfa : p'.nacc a = false) : Inv (at_ (acSet s k a) i p') := by
  unfold acSet
  obtain ⟨c1, c2, c3, c4⟩ := set19 (s.word a)
  refine inv_ac h hp (a := a) (w := setBit kAccessible (s.word a)) (ix := upd s.idx k (some a)) (p' := p') ?_ lk
  refine ⟨c1, c2, c4, sm.own, sm.mo, sm.ex, sm.raw, Or.inl hl, ?_, ?_, ?_, ?_, ?_, hf.bor, ?_, hf.nlnk, ?_, ?_, ?_, ?_, hf.kat, hf.dst⟩
  · intro k' x hx
    unfold upd at hx
    split at hx
    · rename_i e; injection hx with hx; subst hx; subst e
      exact ⟨hka, by rw [if_pos rfl]; exact c3⟩
    · have h1 := h.idk k' x hx
      refine ⟨h1.1, ?_⟩
      split
      · exact c3
      · exact h1.2
  · intro x hx
    by_cases hxa : x = a
    · subst hxa; left; rw [hka]; simp [upd]
    · rw [if_neg hxa] at hx
      rcases h.acI' hp hx with h1 | h1 | h1
      · left; unfold upd; rw [if_neg]; exact h1
        intro e; rw [e, hi] at h1; cases h1
      · rw [hst] at h1; cases h1
      · exact Or.inr (Or.inr h1)
  · intro _; exact Or.inr hin
  · rw [c3]; intro hh; cases hh
  · intro k'; unfold upd; split
    · rename_i e; subst e; exact Or.inr hk
    · exact Or.inl rfl
  · intro x hx
    rcases hf.nacc x hx with h1 | h1
    · subst h1; rw [hfa] at hx; cases hx
    · rw [if_neg]; exact h1
      rintro rfl; rw [hfa] at hx; cases hx
  · intro x hx; rw [hf.stale] at hx; cases hx
  · intro x hx; rw [hf.one1] at hx; cases hx
  · intro x hx; rw [hf.exq] at hx; cases hx
  · intro k v hv; rw [hf.iat] at hv; cases hv

theorem step_ins3 (h : Inv s) {a : Addr} {k : Key} (hp : s.thr[i]? = some (.ins3 k a)) :
    Inv (if canX s k then touch s a (match s.idx k with
        | none => at_ (acSet s k a) i .idle
        | some _ => at_ s i (.ins4 k a)) else s) := by
  have hx := h.bor_spec hp (x := a) (by simp [PC.borrow])
  rw [touch_eq hx.2.2]
  obtain ⟨f1, f2, f3, f4, f5, f6, f7, f8⟩ := h.facts hp
  have hk := f7 a k (by simp [PC.kat])
  split
  · rename_i hc
    cases hi : s.idx k with
    | none =>
      exact inv_acSet h hp (by same) (by lks) (by intro x; rfl) hx.1 hk hi (Or.inr hc) (Or.inl (by simp [PC.inserting]))
        (by fin) rfl
    | some o => exact inv_pc h hp (by same) (by lks) (by intro x; rfl) (by fin) s.mctx s.nextW
  · exact h

theorem step_ior3 (h : Inv s) {a : Addr} {k : Key} (hp : s.thr[i]? = some (.ior3 k a)) :
    Inv (if canX s k then touch s a (match s.idx k with
        | none => at_ (acSet s k a) i .idle
        | some o => at_ s i (.ior4 k a o)) else s) := by
  have hx := h.bor_spec hp (x := a) (by simp [PC.borrow])
  rw [touch_eq hx.2.2]
  obtain ⟨f1, f2, f3, f4, f5, f6, f7, f8⟩ := h.facts hp
  have hk := f7 a k (by simp [PC.kat])
  split
  · rename_i hc
    cases hi : s.idx k with
    | none =>
      exact inv_acSet h hp (by same) (by lks) (by intro x; rfl) hx.1 hk hi (Or.inr hc) (Or.inl (by simp [PC.inserting]))
        (by fin) rfl
    | some o => exact inv_pc h hp (by same) (by lks) (by intro x; rfl) (by fin) s.mctx s.nextW
  · exact h

theorem step_rp2 (h : Inv s) {o n : Addr} {k : Key} (hp : s.thr[i]? = some (.rp2 k o n)) :
    Inv (touch s n (at_ (acSet s k n) i (.rp3 k o n))) := by
  have hx := h.bor_spec hp (x := n) (by simp [PC.borrow])
  rw [touch_eq hx.2.2]
  obtain ⟨f1, f2, f3, f4, f5, f6, f7, f8⟩ := h.facts hp
  have hk := f7 n k (by simp [PC.kat])
  exact inv_acSet h hp (by same) (by lks) (by intro x; rfl) hx.1 hk (f6 k none (by simp [PC.iat]))
    (Or.inl (by simp [PC.lx])) (Or.inl (by simp [PC.inserting])) (by fin) rfl

theorem step_mv3b (h : Inv s) {a n : Addr} {k : Key} (hp : s.thr[i]? = some (.mv3b k a n)) :
    Inv (touch s n (at_ (acSet s k n) i (.mv4 k a n))) := by
  have hx := h.own_mem hp (x := n) (by simp [PC.own, ind])
  have hy := h.ex_mem hp (x := a) (by simp [PC.ex, PC.mo, ind])
  rw [touch_eq hx.2.2]
  obtain ⟨f1, f2, f3, f4, f5, f6, f7, f8⟩ := h.facts hp
  have hk := f7 n k (by simp [PC.kat])
  refine inv_acSet h hp (by same) (by lks) (by intro x; rfl) hx.1 hk (f6 k none (by simp [PC.iat]))
    (Or.inl (by simp [PC.lx])) (Or.inr (by simp [PC.one1])) (by fin) ?_
  have : a ≠ n := by rintro rfl; rw [hx.2.1] at hy; cases hy.1
  simp [PC.nacc, this]

theorem step_ior5 (h : Inv s) {a o : Addr} {k : Key} {r : Repl} (hp : s.thr[i]? = some (.ior5 k a o r)) :
    Inv (touch s a (at_ (acSet s k a) i (.ior6 k a o r))) := by
  have hx := h.bor_spec hp (x := a) (by simp [PC.borrow])
  rw [touch_eq hx.2.2]
  obtain ⟨f1, f2, f3, f4, f5, f6, f7, f8⟩ := h.facts hp
  have hka := f7 a k (by simp [PC.kat])
  have hko := f7 o k (by simp [PC.kat])
  have hio := f6 k (some o) (by simp [PC.iat])
  have hoa := (h.idk k o hio).2
  have ha := f1 a (by simp [PC.nacc])
  have hne : a ≠ o := by rintro rfl; rw [ha] at hoa; cases hoa
  unfold acSet
  obtain ⟨c1, c2, c3, c4⟩ := set19 (s.word a)
  refine inv_ac h hp (a := a) (w := setBit kAccessible (s.word a)) (ix := upd s.idx k (some a)) (p' := .ior6 k a o r)
    ?_ (by lks)
  refine ⟨c1, c2, c4, fun b => by cases r <;> rfl, fun b => rfl, fun b => rfl, fun b => rfl, Or.inl hx.1, ?_, ?_, ?_, ?_, ?_, ?_, ?_, ?_, ?_, ?_, ?_, ?_, ?_, ?_⟩
  · intro k' x hx
    unfold upd at hx
    split at hx
    · rename_i e; injection hx with hx; subst hx; subst e
      exact ⟨hka, by rw [if_pos rfl]; exact c3⟩
    · have h1 := h.idk k' x hx
      refine ⟨h1.1, ?_⟩
      split
      · exact c3
      · exact h1.2
  · intro x hx
    by_cases hxa : x = a
    · subst hxa; left; rw [hka]; simp [upd]
    · rw [if_neg hxa] at hx
      rcases h.acI' hp hx with h1 | h1 | h1
      · by_cases hk : s.key x = k
        · rw [hk, hio] at h1; injection h1 with h1; subst h1
          right; left; simp [PC.stale]
        · left; unfold upd; rw [if_neg hk]; exact h1
      · cases h1
      · exact Or.inr (Or.inr h1)
  · intro _; exact Or.inr (Or.inl (by simp [PC.inserting]))
  · rw [c3]; intro hh; cases hh
  · intro k'; unfold upd; split
    · rename_i e; subst e; exact Or.inr (Or.inl (by simp [PC.lx]))
    · exact Or.inl rfl
  · intro b hb; simpa [PC.borrow] using hb
  · intro x hx; simp [PC.nacc] at hx
  · intro x hx; simp [PC.nlnk] at hx
  · intro x hx; simp [PC.stale] at hx; subst hx
    rw [if_neg (Ne.symm hne)]; exact hoa
  · intro x hx; simp [PC.one1] at hx
  · intro x hx; exact f5 x (by simpa [PC.exq] using hx)
  · intro k' v hv; simp [PC.iat] at hv; obtain ⟨h1, h2⟩ := hv; subst h1; subst h2; simp [upd]
  · intro x k' hx; exact f7 x k' (by simpa [PC.kat] using hx)
  · exact hne

theorem step_ior6 (h : Inv s) {a o : Addr} {k : Key} {r : Repl} (hp : s.thr[i]? = some (.ior6 k a o r)) :
    Inv (touch s o (at_ (setW s o (clearBit kAccessible (s.word o))) i
        (match (generalizing := false) r with
         | .null => .idle
         | .got => .ior7 k a o
         | .wait w => .iorWait k a w))) := by
  obtain ⟨f1, f2, f3, f4, f5, f6, f7, f8⟩ := h.facts hp
  have hoa := f3 o (by simp [PC.stale])
  have hka := f7 a k (by simp [PC.kat])
  have hko := f7 o k (by simp [PC.kat])
  have hia := f6 k (some a) (by simp [PC.iat])
  have hm := (h.live_mem (lv_one (s := s) (a := o) (Or.inr (Or.inr (Or.inl hoa))))).1
  rw [touch_eq hm]
  have hlive : 1 ≤ s.rf o ∨ s.b20 o = true := by
    by_cases hr : r = .got
    · subst hr; exact Or.inl (h.own_spec hp (x := o) (by simp [PC.own, ind])).1
    · exact Or.inr (f5 o (by simp [PC.exq, hr]))
  obtain ⟨c1, c2, c3, c4⟩ := clr19 (s.word o)
  generalize hp' : (match (generalizing := false) r with | .null => PC.idle | .got => .ior7 k a o | .wait w => .iorWait k a w) = p'
  unfold setW
  refine inv_ac h hp (a := o) (w := clearBit kAccessible (s.word o)) (ix := s.idx) (p' := p') ?_ ?_
  · have hio : ∀ k', s.idx k' ≠ some o := by
      intro k' hh
      have h1 := h.idk k' o hh
      have : k' = k := h1.1.symm.trans hko
      subst this; rw [hia] at hh; injection hh with hh; exact f8 hh
    constructor
    · exact c1
    · exact c2
    · exact c4
    · intro b; cases r <;> subst hp' <;> rfl
    · intro b; cases r <;> subst hp' <;> rfl
    · intro b; cases r <;> subst hp' <;> rfl
    · intro b; cases r <;> subst hp' <;> rfl
    · rcases hlive with h1 | h1
      · exact Or.inl h1
      · exact Or.inr (Or.inl h1)
    · intro k' x hx
      have h1 := h.idk k' x hx
      refine ⟨h1.1, ?_⟩
      rw [if_neg]; exact h1.2
      rintro rfl; exact hio _ hx
    · intro x hx
      by_cases hxo : x = o
      · rw [if_pos hxo, c3] at hx; cases hx
      · rw [if_neg hxo] at hx
        rcases h.acI' hp hx with h1 | h1 | h1
        · exact Or.inl h1
        · simp [PC.stale] at h1; exact absurd h1.symm hxo
        · exact Or.inr (Or.inr h1)
    · rw [c3]; intro hh; cases hh
    · intro _; right; left; rw [hko]; simp [PC.lx]
    · intro k'; exact Or.inl rfl
    · intro b hb; cases r <;> subst hp' <;> simp_all [PC.borrow]
    · intro x hx; cases r <;> subst hp' <;> simp [PC.nacc] at hx
    · intro x hx; cases r <;> subst hp' <;> simp [PC.nlnk] at hx
    · intro x hx; cases r <;> subst hp' <;> simp [PC.stale] at hx
    · intro x hx; cases r <;> subst hp' <;> simp [PC.one1] at hx
    · intro x hx; cases r <;> subst hp' <;> simp [PC.exq] at hx
    · intro k v hv; cases r <;> subst hp' <;> simp [PC.iat] at hv
    · intro x k' hx; cases r <;> subst hp' <;> simp [PC.kat] at hx <;> grind
    · cases r <;> subst hp' <;> simp [PC.dst]
  · cases r <;> subst hp' <;> lks

/-- clearing of the accessible flag together with the index entry (ChainedHashTable.h:1238-1244) -/
theorem inv_unindex (h : Inv s) (hp : s.thr[i]? = some p) {k : Key} (sm : Same s p p') (lk : Lk s p p')
    (hst : ∀ x, p.stale x = false) (hl : 1 ≤ s.rf a ∨ s.b20 a = true) (hka : s.key a = k) (hb : s.b19 a = true)
    (hk : p.lx k = true ∨ canX s k = true)
    (nacc : ∀ x, p'.nacc x = true → x = a ∨ s.b19 x = false)
    (nlnk : ∀ x, p'.nlnk x = true → s.b18 x = false)
    (stale : ∀ x, p'.stale x = false)
    (one1 : ∀ x, p'.one1 x = true → s.rf x = 1)
    (exq : ∀ x, p'.exq x = false)
    (iat : ∀ k' v, p'.iat k' = some v → k' = k ∧ v = none)
    (kat : ∀ x k, p'.kat x k = true → s.key x = k)
    (dst : p'.dst) (bor : ∀ b, p'.borrow b = true → p.borrow b = true) :
    Inv (at_ { setW s a (clearBit kAccessible (s.word a)) with idx := upd s.idx k none } i p') := by
  obtain ⟨c1, c2, c3, c4⟩ := clr19 (s.word a)
  have hi := h.acc_idx hp hst hb (by rw [hka]; exact hk)
  refine inv_ac h hp (a := a) (w := clearBit kAccessible (s.word a)) (ix := upd s.idx k none) (p' := p') ?_ lk
  refine ⟨c1, c2, c4, sm.own, sm.mo, sm.ex, sm.raw, ?_, ?_, ?_, ?_, ?_, ?_, bor, ?_, nlnk, ?_, one1, ?_, ?_, kat, dst⟩
  · rcases hl with h1 | h1
    · exact Or.inl h1
    · exact Or.inr (Or.inl h1)
  · intro k' x hx
    unfold upd at hx
    split at hx
    · cases hx
    · rename_i hne
      have h1 := h.idk k' x hx
      refine ⟨h1.1, ?_⟩
      rw [if_neg]; exact h1.2
      rintro rfl; exact hne (h1.1.symm.trans hka)
  · intro x hx
    by_cases hxa : x = a
    · rw [if_pos hxa, c3] at hx; cases hx
    · rw [if_neg hxa] at hx
      rcases h.acI' hp hx with h1 | h1 | h1
      · left
        unfold upd
        rw [if_neg]; exact h1
        intro hkk; rw [hkk, ← hka, hi] at h1; injection h1 with h1; exact hxa h1.symm
      · rw [hst] at h1; cases h1
      · exact Or.inr (Or.inr h1)
  · rw [c3]; intro hh; cases hh
  · intro _; right; rw [hka]; exact hk
  · intro k'; unfold upd; split
    · rename_i e; subst e; exact Or.inr hk
    · exact Or.inl rfl
  · intro x hx
    by_cases hxa : x = a
    · rw [if_pos hxa]; exact c3
    · rw [if_neg hxa]; exact (nacc x hx).resolve_left hxa
  · intro x hx; rw [stale] at hx; cases hx
  · intro x hx; rw [exq] at hx; cases hx
  · intro k' v hv; obtain ⟨h1, h2⟩ := iat k' v hv; subst h1; subst h2; simp [upd]

theorem step_rp1 (h : Inv s) {o n : Addr} {k : Key} (hp : s.thr[i]? = some (.rp1 k o n)) :
    Inv (if canX s k then touch s o (
        if isBit kAccessible (s.word o) then
          at_ { setW s o (clearBit kAccessible (s.word o)) with idx := upd s.idx k none } i (.rp2 k o n)
        else at_ s i .idle) else s) := by
  have hx := h.bor_spec hp (x := o) (by simp [PC.borrow])
  rw [touch_eq hx.2.2, isA]
  obtain ⟨f1, f2, f3, f4, f5, f6, f7, f8⟩ := h.facts hp
  have hk := f7 o k (by simp [PC.kat])
  have hn := f1 n (by simp [PC.nacc])
  split
  · rename_i hc
    split
    · rename_i hb
      refine inv_unindex h hp (by same) (by lks) (by intro x; rfl) (Or.inl hx.1) hk hb (Or.inr hc) ?_ ?_ ?_ ?_ ?_ ?_ ?_ ?_ ?_
      all_goals obs
      all_goals simp_all
    · exact inv_pc h hp (by same) (by lks) (by intro x; rfl) (by fin) s.mctx s.nextW
  · exact h

theorem step_mv3 (h : Inv s) {a n : Addr} {k : Key} (hp : s.thr[i]? = some (.mv3 k a n)) :
    Inv (if canX s k then touch s a (
        if isBit kAccessible (s.word a) then
          at_ { setW s a (clearBit kAccessible (s.word a)) with idx := upd s.idx k none } i (.mv3b k a n)
        else at_ s i (.mvF k a n)) else s) := by
  have hx := h.ex_mem hp (x := a) (by simp [PC.ex, PC.mo, ind])
  rw [touch_eq hx.2, isA]
  obtain ⟨f1, f2, f3, f4, f5, f6, f7, f8⟩ := h.facts hp
  have hk := f7 a k (by simp [PC.kat])
  have hn := f1 n (by simp [PC.nacc])
  split
  · rename_i hc
    split
    · rename_i hb
      refine inv_unindex h hp (by same) (by lks) (by intro x; rfl) (Or.inr hx.1) hk hb (Or.inr hc) ?_ ?_ ?_ ?_ ?_ ?_ ?_ ?_ ?_
      all_goals obs
      all_goals simp_all
      all_goals grind
    · exact inv_pc h hp (by same) (by lks) (by intro x; rfl) (by fin) s.mctx s.nextW
  · exact h

end Verif.CacheProto
