import Verif.CacheProto.Inv
/-! General preservation lemma. -/
namespace Verif.CacheProto
open Verif.Refcount

variable {s s' : State} {i : Nat} {p p' : PC}

theorem canX_spec {k : Key} (h : canX s k = true) {q : PC} (hq : q ∈ s.thr) : q.lx k = false ∧ q.ls k = false := by
  have := List.all_eq_true.mp h q hq
  simpa using this

theorem canS_spec {k : Key} (h : canS s k = true) {q : PC} (hq : q ∈ s.thr) : q.lx k = false := by
  have := List.all_eq_true.mp h q hq
  simpa using this

theorem lv_one {a : Addr} (h : 1 ≤ s.rf a ∨ s.b18 a = true ∨ s.b19 a = true ∨ s.b20 a = true) : s.lv a = 1 := by
  unfold State.lv ind
  rw [if_pos]
  rintro ⟨h0, h1, h2, h3⟩
  rcases h with h | h | h | h
  · omega
  · rw [h1] at h; cases h
  · rw [h2] at h; cases h
  · rw [h3] at h; cases h

theorem lv_zero {a : Addr} (h : s.lv a = 0) :
    s.rf a = 0 ∧ s.b18 a = false ∧ s.b19 a = false ∧ s.b20 a = false := by
  unfold State.lv ind at h
  split at h
  · cases h
  · rename_i h'; exact Classical.not_not.mp h'

theorem lv_le (a : Addr) : s.lv a ≤ 1 := ind_le _

theorem Inv.own_spec (h : Inv s) {q : PC} {j : Nat} (hq : s.thr[j]? = some q) {x : Addr} (ho : 1 ≤ q.own x) :
    1 ≤ s.rf x ∧ s.b20 x = false := by
  have h1 := tot_ge (·.own x) hq
  have h2 := h.cnt x

  refine ⟨by omega, ?_⟩
  cases hb : s.b20 x with
  | false => rfl
  | true => have := h.exh x hb; omega

theorem Inv.usr_spec (h : Inv s) {x : Addr} (ho : 1 ≤ s.uc x) : 1 ≤ s.rf x ∧ s.b20 x = false := by
  have h2 := h.cnt x
  refine ⟨by omega, ?_⟩
  cases hb : s.b20 x with
  | false => rfl
  | true => have := h.exh x hb; omega

theorem Inv.ex_spec (h : Inv s) {q : PC} {j : Nat} (hq : s.thr[j]? = some q) {x : Addr} (ho : 1 ≤ q.ex x) :
    s.b20 x = true := by
  have h1 := tot_ge (·.ex x) hq
  have h2 := h.exc x

  cases hb : s.b20 x with
  | false => simp [hb, ind] at h2; omega
  | true => rfl

theorem Inv.raw_spec (h : Inv s) {q : PC} {j : Nat} (hq : s.thr[j]? = some q) {x : Addr} (ho : 1 ≤ q.raw x) :
    s.mem x = true ∧ s.lv x = 0 := by
  have h1 := tot_ge (·.raw x) hq
  have h2 := h.liv x

  cases hb : s.mem x with
  | false => simp [hb, ind] at h2; omega
  | true => simp [hb, ind] at h2; exact ⟨rfl, by omega⟩

theorem Inv.live_mem (h : Inv s) {x : Addr} (hl : s.lv x = 1) : s.mem x = true ∧ tot (·.raw x) s.thr = 0 := by
  have h2 := h.liv x
  cases hb : s.mem x with
  | false => simp [hb, ind] at h2; omega
  | true => simp [hb, ind] at h2; exact ⟨rfl, by omega⟩

/-- Every item a thread knows the key of is live or owned by it as raw memory. -/
theorem Inv.kat_live (h : Inv s) {q : PC} {j : Nat} (hq : s.thr[j]? = some q) {x : Addr} {k : Key}
    (hk : q.kat x k = true) : s.lv x = 1 ∨ 1 ≤ q.raw x := by
  have hf := h.fct q (List.mem_of_getElem? hq)
  rcases kat_cases q x k hk with h1 | h1 | h1 | h1 | h1 | h1
  · exact Or.inl (lv_one (Or.inl (h.usr_spec (h.bor q (List.mem_of_getElem? hq) x h1)).1))
  · exact Or.inl (lv_one (Or.inl (h.own_spec hq h1).1))
  · exact Or.inl (lv_one (Or.inr (Or.inr (Or.inr (h.ex_spec hq h1)))))
  · exact Or.inr h1
  · exact Or.inl (lv_one (Or.inr (Or.inr (Or.inl (h.idk k x (hf.iat k _ h1)).2))))
  · exact Or.inl (lv_one (Or.inr (Or.inr (Or.inl (hf.stale x h1)))))

/-- ghost fields -/
theorem Inv.ghost (h : Inv s) (d l : List Nat) : Inv { s with done := d, lost := l } :=
  ⟨h.cnt, h.exc, h.exh, h.liv, h.lnk, h.idk, h.acI, h.one, h.lx1, h.lxs, h.bor, h.hk, h.mlk,
    fun q hq => let f := h.fct q hq; ⟨f.nacc, f.nlnk, f.stale, f.one1, f.exq, f.iat, f.kat, f.dst⟩, h.nf⟩

/-- What a step may do to the shared state without breaking the facts of the other threads. -/
structure Frame (s s' : State) (p : PC) : Prop where
  key : ∀ x, s'.key x = s.key x ∨ 1 ≤ p.raw x
  b19s : ∀ x, s'.b19 x = true → s.b19 x = true ∨ p.inserting x = true ∨ p.one1 x = true
  b19c : ∀ x, s'.b19 x = false → s.b19 x = false ∨ p.lx (s.key x) = true ∨ canX s (s.key x) = true
  b18 : ∀ x, s'.b18 x = true → s.b18 x = true ∨ p.borrow x = true ∨ 1 ≤ p.own x
  b20 : ∀ x, s'.b20 x = false → s.b20 x = false ∨ s.b19 x = false
  idx : ∀ k, s'.idx k = s.idx k ∨ p.lx k = true ∨ canX s k = true
  rf : ∀ x, s'.rf x = s.rf x ∨ 1 ≤ s.uc x ∨ s.b19 x = true ∨ 1 ≤ p.own x ∨ 1 ≤ p.raw x ∨ 1 ≤ p.ex x ∨ s.rf x = 0

/-- two different threads: no shared exclusive lock -/
theorem Inv.lock2 (h : Inv s) {q : PC} {j : Nat} (hp : s.thr[i]? = some p) (hq : s.thr[j]? = some q) (hji : j ≠ i)
    {k : Key} (hl : p.lx k = true ∨ canX s k = true) : q.lx k = false ∧ q.ls k = false := by
  rcases hl with hl | hl
  · have h1 := tot_ge2 (fun p => ind (p.lx k = true)) hp hq hji
    have h2 := h.lx1 k
    have h3 := tot_ge (fun p => ind (p.ls k = true)) hq
    simp only [hl, ind] at h1 h2 h3
    constructor
    · cases hx : q.lx k with
      | false => rfl
      | true => simp [hx] at h1; omega
    · cases hx : q.ls k with
      | false => rfl
      | true =>
        have h4 := h.lxs k (by simp only [ind]; simp at h1; omega)
        simp only [ind] at h4
        simp [hx] at h3; omega
  · exact canX_spec hl (List.mem_of_getElem? hq)

theorem Frame.facts (h : Inv s) (hp : s.thr[i]? = some p) (fr : Frame s s' p) {q : PC} {j : Nat}
    (hq : s.thr[j]? = some q) (hji : j ≠ i) : Facts s' q := by
  have hf := h.fct q (List.mem_of_getElem? hq)
  have hkey : ∀ x k, q.kat x k = true → s'.key x = s.key x := by
    intro x k hk
    rcases fr.key x with h1 | h1
    · exact h1
    · exfalso
      have h2 := h.raw_spec hp h1
      rcases h.kat_live hq hk with h3 | h3
      · omega
      · have h4 := tot_ge2 (·.raw x) hp hq hji
        have h5 := h.liv x
        have h6 := ind_le (s.mem x = true)
        omega
  have hown : ∀ x, 1 ≤ q.ex x → 1 ≤ p.own x → False := by
    intro x h1 h2
    have := h.ex_spec hq h1; have := (h.own_spec hp h2).2
    simp_all
  have hbor : ∀ x, 1 ≤ q.ex x → p.borrow x = true → False := by
    intro x h1 h2
    have := h.ex_spec hq h1; have := (h.usr_spec (h.bor p (List.mem_of_getElem? hp) x h2)).2
    simp_all
  refine ⟨?_, ?_, ?_, ?_, ?_, ?_, ?_, hf.dst⟩
  · intro x hx
    cases hb : s'.b19 x with
    | false => rfl
    | true =>
      exfalso
      have h0 := hf.nacc x hx
      rcases fr.b19s x hb with h1 | h1 | h1
      · rw [h0] at h1; cases h1
      · have hu := h.bor p (List.mem_of_getElem? hp) x (ins_borrow p x h1)
        rcases nacc_cases q x hx with h2 | h2 | h2
        · have h3 := tot_ge2 (fun p => ind (p.inserting x = true)) hp hq hji
          have h4 := h.one x
          simp [h1, h2, ind] at h3 h4; omega
        · have h3 := hf.one1 x h2
          have h4 := (one1_own q x h2).1
          have h5 := tot_ge (·.own x) hq
          have h6 := h.cnt x
          omega
        · exact hbor x h2 (ins_borrow p x h1)
      · have h3 := (h.fct p (List.mem_of_getElem? hp)).one1 x h1
        have h4 := (one1_own p x h1).1
        rcases nacc_cases q x hx with h2 | h2 | h2
        · have h5 := tot_ge (·.own x) hp
          have h6 := h.cnt x
          have h7 := h.bor q (List.mem_of_getElem? hq) x (ins_borrow q x h2)
          omega
        · have h5 := tot_ge2 (·.own x) hp hq hji
          have h6 := h.cnt x
          have h7 := (one1_own q x h2).1
          omega
        · exact hown x h2 (by omega)
  · intro x hx
    cases hb : s'.b18 x with
    | false => rfl
    | true =>
      exfalso
      have h0 := hf.nlnk x hx
      have h2 := nlnk_ex q x hx
      rcases fr.b18 x hb with h1 | h1 | h1
      · rw [h0] at h1; cases h1
      · exact hbor x h2 h1
      · exact hown x h2 h1
  · intro x hx
    cases hb : s'.b19 x with
    | true => rfl
    | false =>
      exfalso
      have h0 := hf.stale x hx
      obtain ⟨k, h1, h2⟩ := stale_lock q x hx
      have h3 := hf.kat x k h1
      rcases fr.b19c x hb with h4 | h4
      · rw [h0] at h4; cases h4
      · have h5 := (h.lock2 hp hq hji h4).1
        rw [h3, h2] at h5; cases h5
  · intro x hx
    have h0 := hf.one1 x hx
    obtain ⟨h1, h2⟩ := one1_own q x hx
    have h3 := tot_ge (·.own x) hq
    have h4 := h.cnt x
    have h5 := hf.nacc x h2

    rcases fr.rf x with h6 | h6 | h6 | h6 | h6 | h6 | h6
    · rw [h6]; exact h0
    · omega
    · rw [h5] at h6; cases h6
    · have h7 := tot_ge2 (·.own x) hp hq hji
      omega
    · have h7 := (h.raw_spec hp h6).2
      have h8 := lv_one (s := s) (a := x) (Or.inl (by omega))
      omega
    · have h7 := h.ex_spec hp h6
      have h8 := (h.own_spec hq (x := x) (by omega)).2
      rw [h8] at h7; cases h7
    · omega
  · intro x hx
    have h0 := hf.exq x hx
    have h1 : s.b19 x = true := by
      rcases exq_cases q x hx with h2 | ⟨k, h2⟩
      · exact hf.stale x h2
      · exact (h.idk k x (hf.iat k _ h2)).2
    cases hb : s'.b20 x with
    | true => rfl
    | false =>
      rcases fr.b20 x hb with h2 | h2
      · rw [h0] at h2; cases h2
      · rw [h1] at h2; cases h2
  · intro k v hv
    rw [← hf.iat k v hv]
    rcases fr.idx k with h1 | h1
    · exact h1
    · exfalso
      have h2 := h.lock2 hp hq hji h1
      rcases iat_lock q k v hv with h3 | h3
      · rw [h2.1] at h3; cases h3
      · rw [h2.2] at h3; cases h3
  · intro x k hx
    rw [hkey x k hx]; exact hf.kat x k hx

/-- Local description of a step of thread `i` from `p` to `p'`. -/
structure Delta (s s' : State) (i : Nat) (p p' : PC) : Prop where
  thr : s'.thr = s.thr.set i p'
  cnt : ∀ b, s'.rf b + p.own b + p.mo b + s.uc b + s.mc b = s.rf b + p'.own b + p'.mo b + s'.uc b + s'.mc b
  exc : ∀ b, ind (s'.b20 b = true) + p.ex b = ind (s.b20 b = true) + p'.ex b
  exh : ∀ b, s'.b20 b = true →
    (s.b20 b = true ∧ s'.rf b + p.mo b = s.rf b + p'.mo b) ∨ (s.rf b = 0 ∧ s'.rf b = p'.mo b)
  liv : ∀ b, p'.raw b + s'.lv b + ind (s.mem b = true) = p.raw b + s.lv b + ind (s'.mem b = true)
  lnk : ∀ b, s'.b18 b = s'.mm b
  idk : ∀ k a, s'.idx k = some a → s'.key a = k ∧ s'.b19 a = true
  acI : ∀ a, s'.b19 a = true → s'.idx (s'.key a) = some a ∨ p'.stale a = true ∨
    (∃ q j, j ≠ i ∧ s.thr[j]? = some q ∧ q.stale a = true)
  one : ∀ b, p'.inserting b = true → p.inserting b = true ∨ ∀ q ∈ s.thr, q.inserting b = false
  lx : ∀ k, p'.lx k = true → p.lx k = true ∨ canX s k = true
  ls : ∀ k, p'.ls k = true → p.ls k = true ∨ canS s k = true
  lxs : ∀ k, p'.lx k = true → p'.ls k = false
  bor : ∀ b, s.uc b ≤ s'.uc b ∨ 1 ≤ s'.uc b ∨ (∀ q ∈ s.thr, q.borrow b = false)
  borp : ∀ b, p'.borrow b = true → 1 ≤ s'.uc b
  hk : ∀ h ∈ s'.usr, s'.key h.a = h.k
  mlk : ∀ m ∈ s'.mail, ∀ a, m.r = some a → s'.key a = m.k
  fct : Facts s' p'
  nf : s'.fault = false

theorem Delta.inv (h : Inv s) (hp : s.thr[i]? = some p) (d : Delta s s' i p p') (fr : Frame s s' p) : Inv s' := by
  have hlt : i < s.thr.length := (List.getElem?_eq_some_iff.mp hp).1
  have hp' : s'.thr[i]? = some p' := by rw [d.thr]; simp [hlt]
  have hall : ∀ {q}, q ∈ s'.thr → q = p' ∨ ∃ j, j ≠ i ∧ s.thr[j]? = some q := by
    intro q hq
    obtain ⟨j, hj⟩ := mem_get hq
    rw [d.thr] at hj
    rcases set_get hp hj with ⟨_, h2⟩ | ⟨h1, h2⟩
    · exact Or.inl h2
    · exact Or.inr ⟨j, h1, h2⟩
  have hoth : ∀ {q j}, j ≠ i → s.thr[j]? = some q → q ∈ s'.thr := by
    intro q j hj hq
    apply List.mem_of_getElem? (i := j)
    rw [d.thr, List.getElem?_set_ne (by omega)]; exact hq
  refine ⟨?_, ?_, ?_, ?_, d.lnk, d.idk, ?_, ?_, ?_, ?_, ?_, d.hk, d.mlk, ?_, d.nf⟩
  · intro a
    have h1 := tot_set (·.own a) hp p'
    have h2 := tot_set (·.mo a) hp p'
    have h3 := h.cnt a
    have h4 := d.cnt a
    rw [d.thr]; omega
  · intro a
    have h1 := tot_set (·.ex a) hp p'
    have h3 := h.exc a
    have h4 := d.exc a
    rw [d.thr]; omega
  · intro a hb
    have h1 := tot_set (·.mo a) hp p'
    have h3 := h.cnt a
    rw [d.thr]; try simp only at h1
    rcases d.exh a hb with ⟨h4, h5⟩ | ⟨h4, h5⟩
    · have := h.exh a h4; omega
    · have := tot_ge (·.mo a) hp
      omega
  · intro a
    have h1 := tot_set (·.raw a) hp p'
    have h3 := h.liv a
    have h4 := d.liv a
    rw [d.thr]; omega
  · intro a ha
    rcases d.acI a ha with h1 | h1 | ⟨q, j, hj, hq, h1⟩
    · exact Or.inl h1
    · exact Or.inr ⟨p', List.mem_of_getElem? hp', h1⟩
    · exact Or.inr ⟨q, hoth hj hq, h1⟩
  · intro a
    have h1 := tot_set (fun p => ind (p.inserting a = true)) hp p'
    have h2 := h.one a
    rw [d.thr]
    have h5 := ind_le (p'.inserting a = true)
    by_cases hi : p'.inserting a = true
    · rcases d.one a hi with h3 | h3
      · simp only [h3] at h1; simp only [hi] at h1 ⊢; omega
      · have h4 := tot_zero_of_all (fun p => ind (p.inserting a = true)) (l := s.thr)
          (fun q hq => by simp [h3 q hq, ind])
        omega
    · simp only [Bool.not_eq_true] at hi
      simp only [hi] at h1
      simp [ind] at h1 h2 ⊢; omega
  · intro k
    have h1 := tot_set (fun p => ind (p.lx k = true)) hp p'
    have h2 := h.lx1 k
    rw [d.thr]
    have h5 := ind_le (p'.lx k = true)
    by_cases hi : p'.lx k = true
    · rcases d.lx k hi with h3 | h3
      · simp only [h3] at h1; simp only [hi] at h1 ⊢; omega
      · have h4 := tot_zero_of_all (fun p => ind (p.lx k = true)) (l := s.thr)
          (fun q hq => by simp [(canX_spec h3 hq).1, ind])
        omega
    · simp only [Bool.not_eq_true] at hi
      simp only [hi] at h1
      simp [ind] at h1 h2 ⊢; omega
  · intro k hk
    apply tot_zero_of_all
    intro q hq
    suffices hn : q.ls k = false by simp [hn, ind]
    have hx : ∃ q' ∈ s'.thr, q'.lx k = true := by
      apply Classical.byContradiction
      intro hne
      have := tot_zero_of_all (fun p => ind (p.lx k = true)) (l := s'.thr) (fun q' hq' => by
        have : ¬ q'.lx k = true := fun hh => hne ⟨q', hq', hh⟩
        simp [this, ind])
      omega
    obtain ⟨q', hq', hx⟩ := hx
    cases hs : q.ls k with
    | false => rfl
    | true =>
      exfalso
      rcases hall hq' with e' | ⟨j', hj', e'⟩
      · subst e'
        rcases hall hq with e | ⟨j, hj, e⟩
        · subst e; rw [d.lxs k hx] at hs; cases hs
        · have := (h.lock2 hp e hj (d.lx k hx)).2
          rw [this] at hs; cases hs
      · rcases hall hq with e | ⟨j, hj, e⟩
        · subst e
          rcases d.ls k hs with h3 | h3
          · have h4 := tot_ge (fun p => ind (p.lx k = true)) e'
            have h5 := tot_ge (fun p => ind (p.ls k = true)) hp
            have h6 := h.lxs k (by simp only [hx, ind] at h4; simpa [ind] using h4)
            simp only [h3, ind] at h5
            simp only [ind] at h6
            simp at h5; omega
          · have := canS_spec h3 (List.mem_of_getElem? e')
            rw [this] at hx; cases hx
        · have h4 := tot_ge (fun p => ind (p.lx k = true)) e'
          have h5 := tot_ge (fun p => ind (p.ls k = true)) e
          have h6 := h.lxs k (by simp only [hx, ind] at h4; simpa [ind] using h4)
          simp only [hs, ind] at h5
          simp only [ind] at h6
          simp at h5; omega
  · intro q hq a ha
    rcases hall hq with e | ⟨j, hj, e⟩
    · subst e; exact d.borp a ha
    · have h1 := h.bor q (List.mem_of_getElem? e) a ha
      rcases d.bor a with h2 | h2 | h2
      · omega
      · exact h2
      · rw [h2 q (List.mem_of_getElem? e)] at ha; cases ha
  · intro q hq
    rcases hall hq with e | ⟨j, hj, e⟩
    · subst e; exact d.fct
    · exact fr.facts h hp e hj

end Verif.CacheProto
