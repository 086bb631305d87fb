import Verif.CacheProto.Gen
/-! Preservation for each kind of effect. -/
namespace Verif.CacheProto
open Verif.Refcount

variable {s s' : State} {i : Nat} {p p' : PC} {a : Addr}

/-! ### words -/

theorem set18 (w : Word) : acc (setBit kLinked w) = acc w ∧ bit 18 (setBit kLinked w) = true ∧
    bit 19 (setBit kLinked w) = bit 19 w ∧ bit 20 (setBit kLinked w) = bit 20 w := by
  refine ⟨acc_setBit 18 (by decide) (by decide) w, ?_, ?_, ?_⟩
  · show bit 18 (setBit 18 w) = true
    rw [bit_setBit 18 18 (by decide)]; simp
  · show bit 19 (setBit 18 w) = _
    rw [bit_setBit 18 19 (by decide)]; simp
  · show bit 20 (setBit 18 w) = _
    rw [bit_setBit 18 20 (by decide)]; simp

theorem clr18 (w : Word) : acc (clearBit kLinked w) = acc w ∧ bit 18 (clearBit kLinked w) = false ∧
    bit 19 (clearBit kLinked w) = bit 19 w ∧ bit 20 (clearBit kLinked w) = bit 20 w := by
  refine ⟨acc_clearBit 18 (by decide) (by decide) w, ?_, ?_, ?_⟩
  · show bit 18 (clearBit 18 w) = false
    rw [bit_clearBit 18 18 (by decide)]; simp
  · show bit 19 (clearBit 18 w) = _
    rw [bit_clearBit 18 19 (by decide)]; simp
  · show bit 20 (clearBit 18 w) = _
    rw [bit_clearBit 18 20 (by decide)]; simp

theorem set19 (w : Word) : acc (setBit kAccessible w) = acc w ∧ bit 18 (setBit kAccessible w) = bit 18 w ∧
    bit 19 (setBit kAccessible w) = true ∧ bit 20 (setBit kAccessible w) = bit 20 w := by
  refine ⟨acc_setBit 19 (by decide) (by decide) w, ?_, ?_, ?_⟩
  · show bit 18 (setBit 19 w) = _
    rw [bit_setBit 19 18 (by decide)]; simp
  · show bit 19 (setBit 19 w) = _
    rw [bit_setBit 19 19 (by decide)]; simp
  · show bit 20 (setBit 19 w) = _
    rw [bit_setBit 19 20 (by decide)]; simp

theorem clr19 (w : Word) : acc (clearBit kAccessible w) = acc w ∧ bit 18 (clearBit kAccessible w) = bit 18 w ∧
    bit 19 (clearBit kAccessible w) = false ∧ bit 20 (clearBit kAccessible w) = bit 20 w := by
  refine ⟨acc_clearBit 19 (by decide) (by decide) w, ?_, ?_, ?_⟩
  · show bit 18 (clearBit 19 w) = _
    rw [bit_clearBit 19 18 (by decide)]; simp
  · show bit 19 (clearBit 19 w) = _
    rw [bit_clearBit 19 19 (by decide)]; simp
  · show bit 20 (clearBit 19 w) = _
    rw [bit_clearBit 19 20 (by decide)]; simp

theorem set20 (w : Word) : acc (setBit 20 w) = acc w ∧ bit 18 (setBit 20 w) = bit 18 w ∧
    bit 19 (setBit 20 w) = bit 19 w ∧ bit 20 (setBit 20 w) = true := by
  refine ⟨acc_setBit 20 (by decide) (by decide) w, ?_, ?_, ?_⟩
  · rw [bit_setBit 20 18 (by decide)]; simp
  · rw [bit_setBit 20 19 (by decide)]; simp
  · rw [bit_setBit 20 20 (by decide)]; simp

theorem clr20 (w : Word) : acc (clearBit 20 w) = acc w ∧ bit 18 (clearBit 20 w) = bit 18 w ∧
    bit 19 (clearBit 20 w) = bit 19 w ∧ bit 20 (clearBit 20 w) = false := by
  refine ⟨acc_clearBit 20 (by decide) (by decide) w, ?_, ?_, ?_⟩
  · rw [bit_clearBit 20 18 (by decide)]; simp
  · rw [bit_clearBit 20 19 (by decide)]; simp
  · rw [bit_clearBit 20 20 (by decide)]; simp

theorem inc_ok {w v : Word} (h : incRef w = .ok (v, .ok)) : acc v = acc w + 1 ∧ bit 18 v = bit 18 w ∧
    bit 19 v = bit 19 w ∧ bit 20 v = false ∧ bit 20 w = false := by
  rw [incRef_eq] at h
  have hlt := acc_lt w
  split at h
  · cases h
  · split at h
    · split at h <;> cases h
    · rename_i h1 h2
      injection h with h; injection h with h _
      subst h
      have h3 : acc w < 2 ^ 18 - 1 := by omega
      have h4 : bit 20 w = false := by simpa using h2
      exact ⟨acc_add_one h3, bit_add_one h3 (by decide), bit_add_one h3 (by decide),
        by rw [bit_add_one h3 (by decide), h4], h4⟩

theorem inc_not_ok {w v : Word} {r : IncResult} (h : incRef w = .ok (v, r)) (hr : r ≠ .ok) :
    bit 20 w = true ∧ v = w := by
  rw [incRef_eq] at h
  split at h
  · cases h
  · split at h
    · rename_i h1 h2
      injection h with h; injection h with h _
      exact ⟨h2, h.symm⟩
    · injection h with h; injection h with _ h
      exact absurd h.symm hr

theorem dec_ok {w : Word} (h : 1 ≤ acc w) : ∃ v r, decRef w = .ok (v, r) ∧ acc v = acc w - 1 ∧
    bit 18 v = bit 18 w ∧ bit 19 v = bit 19 w ∧ bit 20 v = bit 20 w ∧
    (r = 0 ↔ acc v = 0 ∧ bit 18 v = false ∧ bit 19 v = false ∧ bit 20 v = false) := by
  refine ⟨w - 1, (w - 1) &&& kRefMask, ?_, acc_sub_one h, bit_sub_one h (by decide), bit_sub_one h (by decide),
    bit_sub_one h (by decide), refMask_zero_iff' _⟩
  rw [decRef_eq, if_neg (by omega)]

theorem isDrained_iff (w : Word) :
    isDrained w = true ↔ acc w = 0 ∧ bit 18 w = false ∧ bit 19 w = false ∧ bit 20 w = false := by
  unfold isDrained getRefWithAccessAndAdmin
  rw [beq_iff_eq]; exact refMask_zero_iff' w

theorem isMoving_iff (w : Word) : isMoving w = true ↔ bit 20 w = true ∧ 1 ≤ acc w := by
  unfold isMoving
  rw [and_excl_bit, Bool.and_eq_true]
  have : (w &&& kAccessRefMask != 0) = !decide (acc w = 0) := by rw [bne, and_access_eq_zero]
  rw [this]; simp; omega

theorem acc_zero : acc (0 : Word) = 0 ∧ bit 18 (0 : Word) = false ∧ bit 19 (0 : Word) = false ∧
    bit 20 (0 : Word) = false := by decide

theorem isL (w : Word) : isBit kLinked w = bit 18 w := isBit_bit 18 (by decide) w
theorem isA (w : Word) : isBit kAccessible w = bit 19 w := isBit_bit 19 (by decide) w

/-! ### program counters that agree on everything that is counted -/

structure Same (s : State) (p p' : PC) : Prop where
  own : ∀ b, p'.own b = p.own b
  mo : ∀ b, p'.mo b = p.mo b
  ex : ∀ b, p'.ex b = p.ex b
  raw : ∀ b, p'.raw b = p.raw b

/-- locks, borrowed handles, obligations -/
structure Lk (s : State) (p p' : PC) : Prop where
  ins : ∀ b, p'.inserting b = true → p.inserting b = true ∨ ∀ q ∈ s.thr, q.inserting b = false
  lx : ∀ k, p'.lx k = true → p.lx k = true ∨ canX s k = true
  ls : ∀ k, p'.ls k = true → p.ls k = true ∨ canS s k = true
  lxs : ∀ k, p'.lx k = true → p'.ls k = false
  bor : ∀ b, p'.borrow b = true → p.borrow b = true ∨ 1 ≤ s.uc b

theorem Lk.borp (l : Lk s p p') (h : Inv s) (hp : s.thr[i]? = some p) (b : Addr) (hb : p'.borrow b = true) :
    1 ≤ s.uc b := by
  rcases l.bor b hb with h1 | h1
  · exact h.bor p (List.mem_of_getElem? hp) b h1
  · exact h1

/-- the accessible flag of other items -/
theorem Inv.acI' (h : Inv s) (hp : s.thr[i]? = some p) {x : Addr} (hx : s.b19 x = true) :
    s.idx (s.key x) = some x ∨ p.stale x = true ∨ ∃ q j, j ≠ i ∧ s.thr[j]? = some q ∧ q.stale x = true := by
  rcases h.acI x hx with h1 | ⟨q, hq, h1⟩
  · exact Or.inl h1
  · obtain ⟨j, hj⟩ := mem_get hq
    by_cases hji : j = i
    · subst hji; rw [hp] at hj; injection hj with hj; subst hj
      exact Or.inr (Or.inl h1)
    · exact Or.inr (Or.inr ⟨q, j, hji, hj, h1⟩)

theorem lv_congr {x : Addr} (h1 : s'.rf x = s.rf x) (h2 : s'.b18 x = s.b18 x) (h3 : s'.b19 x = s.b19 x)
    (h4 : s'.b20 x = s.b20 x) : s'.lv x = s.lv x := by
  unfold State.lv
  rw [h1, h2, h3, h4]

/-- only the program counter (and waiters) change -/
theorem inv_pc (h : Inv s) (hp : s.thr[i]? = some p) (sm : Same s p p') (lk : Lk s p p')
    (hst : ∀ x, p.stale x = false) (hf : Facts s p') (m : Key → List Nat) (n : Nat) :
    Inv { s with thr := s.thr.set i p', mctx := m, nextW := n } := by
  refine Delta.inv (p' := p') h hp ?_ ?_
  · refine ⟨rfl, ?_, ?_, ?_, ?_, h.lnk, h.idk, ?_, lk.ins, lk.lx, lk.ls, lk.lxs, fun _ => Or.inl (Nat.le_refl _), lk.borp h hp,
      h.hk, h.mlk, ?_, h.nf⟩
    · intro b; rw [sm.own, sm.mo]; rfl
    · intro b; rw [sm.ex]
    · intro b hb; rw [sm.mo]; exact Or.inl ⟨hb, rfl⟩
    · intro b; rw [sm.raw]; rfl
    · intro x hx
      rcases h.acI' hp hx with h1 | h1 | h1
      · exact Or.inl h1
      · rw [hst] at h1; cases h1
      · exact Or.inr (Or.inr h1)
    · exact ⟨hf.nacc, hf.nlnk, hf.stale, hf.one1, hf.exq, hf.iat, hf.kat, hf.dst⟩
  · exact ⟨fun _ => Or.inl rfl, fun _ h => Or.inl h, fun _ h => Or.inl h, fun _ h => Or.inl h, fun _ h => Or.inl h,
      fun _ => Or.inl rfl, fun _ => Or.inl rfl⟩

/-- state after `mmRemove` -/
theorem mmRemove_spec (s : State) (h : Inv s) (a : Addr) :
    (∀ x, (mmRemove s a).1.rf x = s.rf x) ∧ (∀ x, (mmRemove s a).1.b18 x = (s.b18 x && !decide (x = a))) ∧
    (∀ x, (mmRemove s a).1.b19 x = s.b19 x) ∧ (∀ x, (mmRemove s a).1.b20 x = s.b20 x) ∧
    (∀ x, (mmRemove s a).1.mm x = (s.mm x && !decide (x = a))) ∧
    (mmRemove s a).1.mem = s.mem ∧ (mmRemove s a).1.key = s.key ∧ (mmRemove s a).1.idx = s.idx ∧
    (mmRemove s a).1.usr = s.usr ∧ (mmRemove s a).1.mail = s.mail ∧ (mmRemove s a).1.thr = s.thr ∧
    (mmRemove s a).1.fault = s.fault ∧ ((mmRemove s a).2 = s.b18 a) := by
  unfold mmRemove
  rw [isL]
  have hc := clr18 (s.word a)
  have hl := h.lnk a
  by_cases hb : bit 18 (s.word a) = true
  · rw [if_pos hb]
    refine ⟨?_, ?_, ?_, ?_, ?_, rfl, rfl, rfl, rfl, rfl, rfl, rfl, by simp [State.b18, hb]⟩ <;> intro x <;>
      simp only [upd, State.rf, State.b18, State.b19, State.b20] <;>
      by_cases hx : x = a
    · subst hx; simp [hc]
    · simp [hx]
    · subst hx; simp [hc]
    · simp [hx]
    · subst hx; simp [hc]
    · simp [hx]
    · subst hx; simp [hc]
    · simp [hx]
    · subst hx; simp
    · simp [hx]
  · rw [if_neg hb]
    simp only [Bool.not_eq_true] at hb
    refine ⟨fun _ => rfl, ?_, fun _ => rfl, fun _ => rfl, ?_, rfl, rfl, rfl, rfl, rfl, rfl, rfl, by simp [State.b18, hb]⟩ <;>
      intro x <;> by_cases hx : x = a
    · subst hx; simp [State.b18, hb]
    · simp [hx]
    · subst hx; rw [← hl]; simp [State.b18, hb]
    · simp [hx]

theorem mmAdd_spec (s : State) (h : Inv s) (a : Addr) :
    (∀ x, (mmAdd s a).1.rf x = s.rf x) ∧ (∀ x, (mmAdd s a).1.b18 x = (s.b18 x || decide (x = a))) ∧
    (∀ x, (mmAdd s a).1.b19 x = s.b19 x) ∧ (∀ x, (mmAdd s a).1.b20 x = s.b20 x) ∧
    (∀ x, (mmAdd s a).1.mm x = (s.mm x || decide (x = a))) ∧
    (mmAdd s a).1.mem = s.mem ∧ (mmAdd s a).1.key = s.key ∧ (mmAdd s a).1.idx = s.idx ∧
    (mmAdd s a).1.usr = s.usr ∧ (mmAdd s a).1.mail = s.mail ∧ (mmAdd s a).1.thr = s.thr ∧
    (mmAdd s a).1.fault = s.fault ∧ ((mmAdd s a).2 = !s.b18 a) := by
  unfold mmAdd
  rw [isL]
  have hc := set18 (s.word a)
  have hl := h.lnk a
  by_cases hb : bit 18 (s.word a) = true
  · rw [if_pos hb]
    refine ⟨fun _ => rfl, ?_, fun _ => rfl, fun _ => rfl, ?_, rfl, rfl, rfl, rfl, rfl, rfl, rfl, by simp [State.b18, hb]⟩ <;>
      intro x <;> by_cases hx : x = a
    · subst hx; simp [State.b18, hb]
    · simp [hx]
    · subst hx; rw [← hl]; simp [State.b18, hb]
    · simp [hx]
  · rw [if_neg hb]
    simp only [Bool.not_eq_true] at hb
    refine ⟨?_, ?_, ?_, ?_, ?_, rfl, rfl, rfl, rfl, rfl, rfl, rfl, by simp [State.b18, hb]⟩ <;> intro x <;>
      simp only [upd, State.rf, State.b18, State.b19, State.b20] <;>
      by_cases hx : x = a
    · subst hx; simp [hc]
    · simp [hx]
    · subst hx; simp [hc]
    · simp [hx]
    · subst hx; simp [hc]
    · simp [hx]
    · subst hx; simp [hc]
    · simp [hx]
    · subst hx; simp
    · simp [hx]

/-- Facts of the new program counter after an effect that changes only linked bits: stated with the old state. -/
structure FactsL (s : State) (p' : PC) (off : Addr → Prop) : Prop where
  nacc : ∀ x, p'.nacc x = true → s.b19 x = false
  nlnk : ∀ x, p'.nlnk x = true → s.b18 x = false ∨ off x
  stale : ∀ x, p'.stale x = true → s.b19 x = true
  one1 : ∀ x, p'.one1 x = true → s.rf x = 1
  exq : ∀ x, p'.exq x = true → s.b20 x = true
  iat : ∀ k v, p'.iat k = some v → s.idx k = v
  kat : ∀ x k, p'.kat x k = true → s.key x = k
  dst : p'.dst

theorem uc_congr (h : s'.usr = s.usr) (b : Addr) : s'.uc b = s.uc b := by unfold State.uc; rw [h]
theorem mc_congr (h : s'.mail = s.mail) (b : Addr) : s'.mc b = s.mc b := by unfold State.mc; rw [h]

theorem inv_mmRemove (h : Inv s) (hp : s.thr[i]? = some p) (a : Addr) (sm : Same s p p') (lk : Lk s p p')
    (hst : ∀ x, p.stale x = false) (hl : 1 ≤ s.rf a ∨ s.b20 a = true) (hf : FactsL s p' (· = a)) :
    Inv (at_ (mmRemove s a).1 i p') := by
  obtain ⟨e1, e2, e3, e4, e5, e6, e7, e8, e9, e10, e11, e12, -⟩ := mmRemove_spec s h a
  generalize hs1 : (mmRemove s a).1 = s1 at *
  have huc : ∀ b, (at_ s1 i p').uc b = s.uc b := fun b => uc_congr (s' := at_ s1 i p') e9 b
  have hmc : ∀ b, (at_ s1 i p').mc b = s.mc b := fun b => mc_congr (s' := at_ s1 i p') e10 b
  have e1 : ∀ x, (at_ s1 i p').rf x = s.rf x := e1
  have e2 : ∀ x, (at_ s1 i p').b18 x = (s.b18 x && !decide (x = a)) := e2
  have e3 : ∀ x, (at_ s1 i p').b19 x = s.b19 x := e3
  have e4 : ∀ x, (at_ s1 i p').b20 x = s.b20 x := e4
  have e5 : ∀ x, (at_ s1 i p').mm x = (s.mm x && !decide (x = a)) := e5
  have e6 : (at_ s1 i p').mem = s.mem := e6
  have e7 : (at_ s1 i p').key = s.key := e7
  have e8 : (at_ s1 i p').idx = s.idx := e8
  have e9 : (at_ s1 i p').usr = s.usr := e9
  have e10 : (at_ s1 i p').mail = s.mail := e10
  have e11 : (at_ s1 i p').thr = s.thr.set i p' := by show s1.thr.set i p' = _; rw [e11]
  have e12 : (at_ s1 i p').fault = s.fault := e12
  generalize at_ s1 i p' = s' at *
  refine Delta.inv (p' := p') h hp ?_ ?_
  · refine ⟨e11, ?_, ?_, ?_, ?_, ?_, ?_, ?_, lk.ins, lk.lx, lk.ls, lk.lxs, fun b => Or.inl (Nat.le_of_eq (huc b).symm), ?_,
      ?_, ?_, ?_, by rw [e12]; exact h.nf⟩
    · intro b; rw [sm.own, sm.mo, huc, hmc, e1]
    · intro b; rw [sm.ex, e4]
    · intro b hb; rw [sm.mo, e1]; rw [e4] at hb; exact Or.inl ⟨hb, rfl⟩
    · intro b; rw [sm.raw, e6]
      by_cases hb : b = a
      · subst hb
        rw [lv_one (s := s) (a := b) (by rcases hl with h1 | h1; exact Or.inl h1; exact Or.inr (Or.inr (Or.inr h1)))]
        rw [lv_one (s := s') (a := b) (by
          rcases hl with h1 | h1
          · exact Or.inl (by rw [e1]; exact h1)
          · exact Or.inr (Or.inr (Or.inr (by rw [e4]; exact h1))))]
      · rw [lv_congr (s := s) (s' := s') (e1 b) (by rw [e2]; simp [hb]) (e3 b) (e4 b)]
    · intro b; rw [e2, e5, h.lnk]
    · intro k x hx; rw [e8] at hx; rw [e7, e3]; exact h.idk k x hx
    · intro x hx; rw [e3] at hx; rw [e7, e8]
      rcases h.acI' hp hx with h1 | h1 | h1
      · exact Or.inl h1
      · rw [hst] at h1; cases h1
      · exact Or.inr (Or.inr h1)
    · intro b hb; rw [huc]; exact lk.borp h hp b hb
    · intro g hg; rw [e9] at hg; rw [e7]; exact h.hk g hg
    · intro g hg x hx; rw [e10] at hg; rw [e7]; exact h.mlk g hg x hx
    · refine ⟨fun x hx => by rw [e3]; exact hf.nacc x hx, ?_, fun x hx => by rw [e3]; exact hf.stale x hx,
        fun x hx => by rw [e1]; exact hf.one1 x hx, fun x hx => by rw [e4]; exact hf.exq x hx, fun k v hv => by rw [e8]; exact hf.iat k v hv,
        fun x k hx => by rw [e7]; exact hf.kat x k hx, hf.dst⟩
      intro x hx; rw [e2]
      rcases hf.nlnk x hx with h1 | h1
      · simp [h1]
      · simp [h1]
  · refine ⟨fun x => Or.inl (by rw [e7]), fun x hx => Or.inl (by rw [← e3]; exact hx),
      fun x hx => Or.inl (by rw [← e3]; exact hx), ?_, fun x hx => Or.inl (by rw [← e4]; exact hx), fun k => Or.inl (by rw [e8]), fun x => Or.inl (e1 x)⟩
    intro x hx; rw [e2] at hx; simp at hx; exact Or.inl hx.1

theorem inv_mmAdd (h : Inv s) (hp : s.thr[i]? = some p) (a : Addr) (sm : Same s p p') (lk : Lk s p p')
    (hst : ∀ x, p.stale x = false) (hl : p.borrow a = true ∨ 1 ≤ p.own a)
    (hf : FactsL s p' (fun _ => False)) : Inv (at_ (mmAdd s a).1 i p') := by
  have hrf : 1 ≤ s.rf a ∧ s.b20 a = false := by
    rcases hl with h1 | h1
    · exact h.usr_spec (h.bor p (List.mem_of_getElem? hp) a h1)
    · exact h.own_spec hp h1
  obtain ⟨e1, e2, e3, e4, e5, e6, e7, e8, e9, e10, e11, e12, -⟩ := mmAdd_spec s h a
  generalize hs1 : (mmAdd s a).1 = s1 at *
  have huc : ∀ b, (at_ s1 i p').uc b = s.uc b := fun b => uc_congr (s' := at_ s1 i p') e9 b
  have hmc : ∀ b, (at_ s1 i p').mc b = s.mc b := fun b => mc_congr (s' := at_ s1 i p') e10 b
  have e1 : ∀ x, (at_ s1 i p').rf x = s.rf x := e1
  have e2 : ∀ x, (at_ s1 i p').b18 x = (s.b18 x || decide (x = a)) := e2
  have e3 : ∀ x, (at_ s1 i p').b19 x = s.b19 x := e3
  have e4 : ∀ x, (at_ s1 i p').b20 x = s.b20 x := e4
  have e5 : ∀ x, (at_ s1 i p').mm x = (s.mm x || decide (x = a)) := e5
  have e6 : (at_ s1 i p').mem = s.mem := e6
  have e7 : (at_ s1 i p').key = s.key := e7
  have e8 : (at_ s1 i p').idx = s.idx := e8
  have e9 : (at_ s1 i p').usr = s.usr := e9
  have e10 : (at_ s1 i p').mail = s.mail := e10
  have e11 : (at_ s1 i p').thr = s.thr.set i p' := by show s1.thr.set i p' = _; rw [e11]
  have e12 : (at_ s1 i p').fault = s.fault := e12
  generalize at_ s1 i p' = s' at *
  refine Delta.inv (p' := p') h hp ?_ ?_
  · refine ⟨e11, ?_, ?_, ?_, ?_, ?_, ?_, ?_, lk.ins, lk.lx, lk.ls, lk.lxs, fun b => Or.inl (Nat.le_of_eq (huc b).symm), ?_,
      ?_, ?_, ?_, by rw [e12]; exact h.nf⟩
    · intro b; rw [sm.own, sm.mo, huc, hmc, e1]
    · intro b; rw [sm.ex, e4]
    · intro b hb; rw [sm.mo, e1]; rw [e4] at hb; exact Or.inl ⟨hb, rfl⟩
    · intro b; rw [sm.raw, e6]
      by_cases hb : b = a
      · subst hb
        rw [lv_one (s := s) (a := b) (Or.inl hrf.1)]
        rw [lv_one (s := s') (a := b) (Or.inl (by rw [e1]; exact hrf.1))]
      · rw [lv_congr (s := s) (s' := s') (e1 b) (by rw [e2]; simp [hb]) (e3 b) (e4 b)]
    · intro b; rw [e2, e5, h.lnk]
    · intro k x hx; rw [e8] at hx; rw [e7, e3]; exact h.idk k x hx
    · intro x hx; rw [e3] at hx; rw [e7, e8]
      rcases h.acI' hp hx with h1 | h1 | h1
      · exact Or.inl h1
      · rw [hst] at h1; cases h1
      · exact Or.inr (Or.inr h1)
    · intro b hb; rw [huc]; exact lk.borp h hp b hb
    · intro g hg; rw [e9] at hg; rw [e7]; exact h.hk g hg
    · intro g hg x hx; rw [e10] at hg; rw [e7]; exact h.mlk g hg x hx
    · refine ⟨fun x hx => by rw [e3]; exact hf.nacc x hx, ?_, fun x hx => by rw [e3]; exact hf.stale x hx,
        fun x hx => by rw [e1]; exact hf.one1 x hx, fun x hx => by rw [e4]; exact hf.exq x hx, fun k v hv => by rw [e8]; exact hf.iat k v hv,
        fun x k hx => by rw [e7]; exact hf.kat x k hx, hf.dst⟩
      intro x hx; rw [e2]
      rcases hf.nlnk x hx with h1 | h1
      · rw [h1]
        cases hxa : decide (x = a) with
        | false => rfl
        | true =>
          exfalso
          simp at hxa; subst hxa
          have h3 := nlnk_ex p' x hx
          rw [sm.ex] at h3
          have := h.ex_spec hp h3
          rw [hrf.2] at this; cases this
      · exact h1.elim
  · refine ⟨fun x => Or.inl (by rw [e7]), fun x hx => Or.inl (by rw [← e3]; exact hx),
      fun x hx => Or.inl (by rw [← e3]; exact hx), ?_, fun x hx => Or.inl (by rw [← e4]; exact hx), fun k => Or.inl (by rw [e8]), fun x => Or.inl (e1 x)⟩
    intro x hx; rw [e2] at hx; simp at hx
    rcases hx with h1 | h1
    · exact Or.inl h1
    · subst h1; rcases hl with h2 | h2
      · exact Or.inr (Or.inl h2)
      · exact Or.inr (Or.inr h2)

end Verif.CacheProto
