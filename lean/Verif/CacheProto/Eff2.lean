import Verif.CacheProto.Eff
/-! Preservation for reference-word writes, index writes and memory. -/
namespace Verif.CacheProto
open Verif.Refcount

variable {s s' : State} {i : Nat} {p p' : PC} {a : Addr}

/-- handles to `b` -/
def ucl (us : List Hdl) (b : Addr) : Nat := us.countP fun h => h.a = b
/-- handles in mails -/
def mcl (ml : List Mail) (b : Addr) : Nat := ml.countP fun m => m.r = some b
/-- some reference or admin bit -/
def lvw (w : Word) : Nat := ind (¬ (acc w = 0 ∧ bit 18 w = false ∧ bit 19 w = false ∧ bit 20 w = false))

/-- Facts of the new program counter, with the old state. -/
structure FactsW (s : State) (p' : PC) (a : Addr) (w : Word) : Prop where
  nacc : ∀ x, p'.nacc x = true → s.b19 x = false
  nlnk : ∀ x, p'.nlnk x = true → s.b18 x = false
  stale : ∀ x, p'.stale x = true → s.b19 x = true
  one1 : ∀ x, p'.one1 x = true → (x = a ∧ acc w = 1) ∨ (x ≠ a ∧ s.rf x = 1)
  exq : ∀ x, p'.exq x = true → s.b20 x = true ∧ bit 20 w = s.b20 a
  iat : ∀ k v, p'.iat k = some v → s.idx k = v
  kat : ∀ x k, p'.kat x k = true → s.key x = k
  dst : p'.dst

/-- Effect of a write of one reference word that changes only the counter and the exclusive bit. -/
structure WEff (s : State) (p p' : PC) (a : Addr) (w : Word) (us : List Hdl) (ml : List Mail) : Prop where
  h18 : bit 18 w = s.b18 a
  h19 : bit 19 w = s.b19 a
  hmo : ∀ b, b ≠ a → p'.mo b = p.mo b
  hex : ∀ b, b ≠ a → p'.ex b = p.ex b
  hraw : ∀ b, b ≠ a → p'.raw b = p.raw b
  hcnt : ∀ b, b ≠ a → p.own b + s.uc b + s.mc b = p'.own b + ucl us b + mcl ml b
  acnt : acc w + p.own a + p.mo a + s.uc a + s.mc a = s.rf a + p'.own a + p'.mo a + ucl us a + mcl ml a
  aex : ind (bit 20 w = true) + p.ex a = ind (s.b20 a = true) + p'.ex a
  aexh : bit 20 w = true →
    (s.b20 a = true ∧ acc w + p.mo a = s.rf a + p'.mo a) ∨ (s.rf a = 0 ∧ acc w = p'.mo a)
  aliv : p'.raw a + lvw w = p.raw a + s.lv a
  b20c : bit 20 w = false → s.b20 a = false ∨ s.b19 a = false
  bor : ∀ b, s.uc b ≤ ucl us b ∨ 1 ≤ ucl us b ∨ ∀ q ∈ s.thr, q.borrow b = false
  borp : ∀ b, p'.borrow b = true → 1 ≤ ucl us b
  hk : ∀ g ∈ us, s.key g.a = g.k
  mlk : ∀ g ∈ ml, ∀ x, g.r = some x → s.key x = g.k
  frf : acc w = s.rf a ∨ 1 ≤ s.uc a ∨ s.b19 a = true ∨ 1 ≤ p.own a ∨ 1 ≤ p.raw a ∨ 1 ≤ p.ex a ∨ s.rf a = 0

theorem inv_w (h : Inv s) (hp : s.thr[i]? = some p) {w : Word} {us : List Hdl} {ml : List Mail}
    (m : Key → List Nat) (n : Nat) (e : WEff s p p' a w us ml) (lk : Lk s p p') (hst : ∀ x, p.stale x = false)
    (hf : FactsW s p' a w) :
    Inv { s with word := upd s.word a w, usr := us, mail := ml, mctx := m, nextW := n, thr := s.thr.set i p' } := by
  generalize hs' : ({ s with word := upd s.word a w, usr := us, mail := ml, mctx := m, nextW := n,
                             thr := s.thr.set i p' } : State) = s'
  have hwa : s'.word a = w := by subst hs'; simp [upd]
  have hwo : ∀ x, x ≠ a → s'.word x = s.word x := by intro x hx; subst hs'; simp [upd, hx]
  have e18 : ∀ x, s'.b18 x = s.b18 x := by
    intro x; by_cases hx : x = a
    · subst hx; show bit 18 (s'.word x) = _; rw [hwa]; exact e.h18
    · show bit 18 (s'.word x) = _; rw [hwo x hx]
  have e19 : ∀ x, s'.b19 x = s.b19 x := by
    intro x; by_cases hx : x = a
    · subst hx; show bit 19 (s'.word x) = _; rw [hwa]; exact e.h19
    · show bit 19 (s'.word x) = _; rw [hwo x hx]
  have ea20 : s'.b20 a = bit 20 w := by show bit 20 (s'.word a) = _; rw [hwa]
  have earf : s'.rf a = acc w := by show acc (s'.word a) = _; rw [hwa]
  have eo20 : ∀ x, x ≠ a → s'.b20 x = s.b20 x := by intro x hx; show bit 20 (s'.word x) = _; rw [hwo x hx]
  have eorf : ∀ x, x ≠ a → s'.rf x = s.rf x := by intro x hx; show acc (s'.word x) = _; rw [hwo x hx]
  have euc : ∀ b, s'.uc b = ucl us b := by intro b; subst hs'; rfl
  have emc : ∀ b, s'.mc b = mcl ml b := by intro b; subst hs'; rfl
  have ek : s'.key = s.key := by subst hs'; rfl
  have ei : s'.idx = s.idx := by subst hs'; rfl
  have em : s'.mem = s.mem := by subst hs'; rfl
  have emm : s'.mm = s.mm := by subst hs'; rfl
  have et : s'.thr = s.thr.set i p' := by subst hs'; rfl
  have eu : s'.usr = us := by subst hs'; rfl
  have eml : s'.mail = ml := by subst hs'; rfl
  have ef : s'.fault = s.fault := by subst hs'; rfl
  clear hs'
  refine Delta.inv (p' := p') h hp ?_ ?_
  · refine ⟨et, ?_, ?_, ?_, ?_, ?_, ?_, ?_, lk.ins, lk.lx, lk.ls, lk.lxs, ?_, ?_, ?_, ?_, ?_, by rw [ef]; exact h.nf⟩
    · intro b; rw [euc, emc]
      by_cases hb : b = a
      · subst hb; rw [earf]; have := e.acnt; omega
      · rw [eorf b hb, e.hmo b hb]; have := e.hcnt b hb; omega
    · intro b
      by_cases hb : b = a
      · subst hb; rw [ea20]; exact e.aex
      · rw [eo20 b hb, e.hex b hb]
    · intro b hb'
      by_cases hb : b = a
      · subst hb; rw [ea20] at hb'; rw [earf]; exact e.aexh hb'
      · rw [eo20 b hb] at hb'; rw [eorf b hb, e.hmo b hb]; exact Or.inl ⟨hb', rfl⟩
    · intro b; rw [em]
      by_cases hb : b = a
      · subst hb
        have h1 : s'.lv b = lvw w := by unfold State.lv lvw; rw [earf, ea20, show s'.b18 b = bit 18 w by rw [e18, e.h18], show s'.b19 b = bit 19 w by rw [e19, e.h19]]
        have := e.aliv; omega
      · rw [lv_congr (s := s) (s' := s') (eorf b hb) (e18 b) (e19 b) (eo20 b hb), e.hraw b hb]
    · intro b; rw [e18, emm, h.lnk]
    · intro k x hx; rw [ei] at hx; rw [ek, e19]; exact h.idk k x hx
    · intro x hx; rw [e19] at hx; rw [ek, ei]
      rcases h.acI' hp hx with h1 | h1 | h1
      · exact Or.inl h1
      · rw [hst] at h1; cases h1
      · exact Or.inr (Or.inr h1)
    · intro b; rw [euc]; exact e.bor b
    · intro b; rw [euc]; exact e.borp b
    · rw [eu, ek]; exact e.hk
    · rw [eml, ek]; exact e.mlk
    · refine ⟨fun x hx => by rw [e19]; exact hf.nacc x hx, fun x hx => by rw [e18]; exact hf.nlnk x hx,
        fun x hx => by rw [e19]; exact hf.stale x hx, ?_, ?_, fun k v hv => by rw [ei]; exact hf.iat k v hv,
        fun x k hx => by rw [ek]; exact hf.kat x k hx, hf.dst⟩
      · intro x hx
        rcases hf.one1 x hx with ⟨h1, h2⟩ | ⟨h1, h2⟩
        · subst h1; rw [earf]; exact h2
        · rw [eorf x h1]; exact h2
      · intro x hx
        by_cases hb : x = a
        · subst hb; rw [ea20, (hf.exq x hx).2]; exact (hf.exq x hx).1
        · rw [eo20 x hb]; exact (hf.exq x hx).1
  · refine ⟨fun x => Or.inl (by rw [ek]), fun x hx => Or.inl (by rw [← e19]; exact hx),
      fun x hx => Or.inl (by rw [← e19]; exact hx), fun x hx => Or.inl (by rw [← e18]; exact hx), ?_,
      fun k => Or.inl (by rw [ei]), ?_⟩
    · intro x hx
      by_cases hb : x = a
      · subst hb; rw [ea20] at hx; exact e.b20c hx
      · rw [eo20 x hb] at hx; exact Or.inl hx
    · intro x
      by_cases hb : x = a
      · subst hb; rw [earf]; exact e.frf
      · exact Or.inl (eorf x hb)

/-- Effect of an index write: one entry and one accessible flag. -/
structure IEff (s : State) (p p' : PC) (a : Addr) (w : Word) (ix : Key → Option Addr) : Prop where
  hacc : acc w = s.rf a
  h18 : bit 18 w = s.b18 a
  h20 : bit 20 w = s.b20 a
  own : ∀ b, p'.own b = p.own b
  mo : ∀ b, p'.mo b = p.mo b
  ex : ∀ b, p'.ex b = p.ex b
  raw : ∀ b, p'.raw b = p.raw b
  live : 1 ≤ s.rf a ∨ s.b20 a = true ∨ (bit 19 w = s.b19 a)
  idk : ∀ k x, ix k = some x → s.key x = k ∧ (if x = a then bit 19 w else s.b19 x) = true
  acI : ∀ x, (if x = a then bit 19 w else s.b19 x) = true → ix (s.key x) = some x ∨ p'.stale x = true ∨
    (∃ q j, j ≠ i ∧ s.thr[j]? = some q ∧ q.stale x = true)
  b19s : bit 19 w = true → s.b19 a = true ∨ p.inserting a = true ∨ p.one1 a = true
  b19c : bit 19 w = false → s.b19 a = false ∨ p.lx (s.key a) = true ∨ canX s (s.key a) = true
  fidx : ∀ k, ix k = s.idx k ∨ p.lx k = true ∨ canX s k = true
  bor : ∀ b, p'.borrow b = true → p.borrow b = true
  nacc : ∀ x, p'.nacc x = true → (if x = a then bit 19 w else s.b19 x) = false
  nlnk : ∀ x, p'.nlnk x = true → s.b18 x = false
  stale : ∀ x, p'.stale x = true → (if x = a then bit 19 w else s.b19 x) = true
  one1 : ∀ x, p'.one1 x = true → s.rf x = 1
  exq : ∀ x, p'.exq x = true → s.b20 x = true
  iat : ∀ k v, p'.iat k = some v → ix k = v
  kat : ∀ x k, p'.kat x k = true → s.key x = k
  dst : p'.dst

theorem inv_ac (h : Inv s) (hp : s.thr[i]? = some p) {w : Word} {ix : Key → Option Addr}
    (e : IEff (i := i) s p p' a w ix) (lk : Lk s p p') :
    Inv { s with word := upd s.word a w, idx := ix, thr := s.thr.set i p' } := by
  generalize hs' : ({ s with word := upd s.word a w, idx := ix, thr := s.thr.set i p' } : State) = s'
  have hwa : s'.word a = w := by subst hs'; simp [upd]
  have hwo : ∀ x, x ≠ a → s'.word x = s.word x := by intro x hx; subst hs'; simp [upd, hx]
  have e18 : ∀ x, s'.b18 x = s.b18 x := by
    intro x; by_cases hx : x = a
    · subst hx; show bit 18 (s'.word x) = _; rw [hwa]; exact e.h18
    · show bit 18 (s'.word x) = _; rw [hwo x hx]
  have e20 : ∀ x, s'.b20 x = s.b20 x := by
    intro x; by_cases hx : x = a
    · subst hx; show bit 20 (s'.word x) = _; rw [hwa]; exact e.h20
    · show bit 20 (s'.word x) = _; rw [hwo x hx]
  have erf : ∀ x, s'.rf x = s.rf x := by
    intro x; by_cases hx : x = a
    · subst hx; show acc (s'.word x) = _; rw [hwa]; exact e.hacc
    · show acc (s'.word x) = _; rw [hwo x hx]
  have e19 : ∀ x, s'.b19 x = if x = a then bit 19 w else s.b19 x := by
    intro x; by_cases hx : x = a
    · rw [if_pos hx]; subst hx; show bit 19 (s'.word x) = _; rw [hwa]
    · rw [if_neg hx]; show bit 19 (s'.word x) = _; rw [hwo x hx]
  have ek : s'.key = s.key := by subst hs'; rfl
  have ei : s'.idx = ix := by subst hs'; rfl
  have em : s'.mem = s.mem := by subst hs'; rfl
  have emm : s'.mm = s.mm := by subst hs'; rfl
  have et : s'.thr = s.thr.set i p' := by subst hs'; rfl
  have eu : s'.usr = s.usr := by subst hs'; rfl
  have eml : s'.mail = s.mail := by subst hs'; rfl
  have ef : s'.fault = s.fault := by subst hs'; rfl
  have euc : ∀ b, s'.uc b = s.uc b := uc_congr eu
  have emc : ∀ b, s'.mc b = s.mc b := mc_congr eml
  clear hs'
  refine Delta.inv (p' := p') h hp ?_ ?_
  · refine ⟨et, ?_, ?_, ?_, ?_, ?_, ?_, ?_, lk.ins, lk.lx, lk.ls, lk.lxs, fun b => Or.inl (Nat.le_of_eq (euc b).symm),
      ?_, ?_, ?_, ?_, by rw [ef]; exact h.nf⟩
    · intro b; rw [e.own, e.mo, euc, emc, erf]
    · intro b; rw [e.ex, e20]
    · intro b hb; rw [e.mo, erf]; rw [e20] at hb; exact Or.inl ⟨hb, rfl⟩
    · intro b; rw [e.raw, em]
      by_cases hb : b = a
      · subst hb
        rcases e.live with h1 | h1 | h1
        · rw [lv_one (s := s) (a := b) (Or.inl h1), lv_one (s := s') (a := b) (Or.inl (by rw [erf]; exact h1))]
        · rw [lv_one (s := s) (a := b) (Or.inr (Or.inr (Or.inr h1))),
            lv_one (s := s') (a := b) (Or.inr (Or.inr (Or.inr (by rw [e20]; exact h1))))]
        · rw [lv_congr (s := s) (s' := s') (erf b) (e18 b) (by rw [e19, if_pos rfl, h1]) (e20 b)]
      · rw [lv_congr (s := s) (s' := s') (erf b) (e18 b) (by rw [e19, if_neg hb]) (e20 b)]
    · intro b; rw [e18, emm, h.lnk]
    · intro k x hx; rw [ei] at hx; rw [ek, e19]; exact e.idk k x hx
    · intro x hx; rw [e19] at hx; rw [ek, ei]; exact e.acI x hx
    · intro b hb; rw [euc]; exact h.bor p (List.mem_of_getElem? hp) b (e.bor b hb)
    · rw [eu, ek]; exact h.hk
    · rw [eml, ek]; exact h.mlk
    · exact ⟨fun x hx => by rw [e19]; exact e.nacc x hx, fun x hx => by rw [e18]; exact e.nlnk x hx,
        fun x hx => by rw [e19]; exact e.stale x hx, fun x hx => by rw [erf]; exact e.one1 x hx,
        fun x hx => by rw [e20]; exact e.exq x hx, fun k v hv => by rw [ei]; exact e.iat k v hv,
        fun x k hx => by rw [ek]; exact e.kat x k hx, e.dst⟩
  · refine ⟨fun x => Or.inl (by rw [ek]), ?_, ?_, fun x hx => Or.inl (by rw [← e18]; exact hx),
      fun x hx => Or.inl (by rw [← e20]; exact hx), fun k => by rw [ei]; exact e.fidx k, fun x => Or.inl (erf x)⟩
    · intro x hx; rw [e19] at hx
      by_cases hb : x = a
      · subst hb; rw [if_pos rfl] at hx; exact e.b19s hx
      · rw [if_neg hb] at hx; exact Or.inl hx
    · intro x hx; rw [e19] at hx
      by_cases hb : x = a
      · subst hb; rw [if_pos rfl] at hx; exact e.b19c hx
      · rw [if_neg hb] at hx; exact Or.inl hx

/-- Effect on memory owned by the thread: the word is drained before and after. -/
structure MEff (s : State) (p p' : PC) (a : Addr) (mm : Bool) (w : Word) (kk : Key) : Prop where
  lv0 : s.lv a = 0
  lw0 : acc w = 0 ∧ bit 18 w = false ∧ bit 19 w = false ∧ bit 20 w = false
  own : ∀ b, p'.own b = p.own b
  mo : ∀ b, p'.mo b = p.mo b
  ex : ∀ b, p'.ex b = p.ex b
  raw : ∀ b, b ≠ a → p'.raw b = p.raw b
  araw : p'.raw a + ind (s.mem a = true) = p.raw a + ind (mm = true)
  key : kk = s.key a ∨ 1 ≤ p.raw a
  nacc : ∀ x, p'.nacc x = true → s.b19 x = false
  nlnk : ∀ x, p'.nlnk x = true → s.b18 x = false
  stale : ∀ x, p'.stale x = false
  one1 : ∀ x, p'.one1 x = true → s.rf x = 1
  exq : ∀ x, p'.exq x = true → s.b20 x = true
  iat : ∀ k v, p'.iat k = some v → s.idx k = v
  kat : ∀ x k, p'.kat x k = true → (if x = a then kk else s.key x) = k
  dst : p'.dst

theorem inv_mem (h : Inv s) (hp : s.thr[i]? = some p) {mm : Bool} {w : Word} {kk : Key}
    (e : MEff s p p' a mm w kk) (lk : Lk s p p') (hst : ∀ x, p.stale x = false) :
    Inv { s with mem := upd s.mem a mm, word := upd s.word a w, key := upd s.key a kk, thr := s.thr.set i p' } := by
  generalize hs' : ({ s with mem := upd s.mem a mm, word := upd s.word a w, key := upd s.key a kk,
                             thr := s.thr.set i p' } : State) = s'
  obtain ⟨z1, z2, z3, z4⟩ := lv_zero e.lv0
  obtain ⟨y1, y2, y3, y4⟩ := e.lw0
  have hwa : s'.word a = w := by subst hs'; simp [upd]
  have hwo : ∀ x, x ≠ a → s'.word x = s.word x := by intro x hx; subst hs'; simp [upd, hx]
  have e18 : ∀ x, s'.b18 x = s.b18 x := by
    intro x; by_cases hx : x = a
    · subst hx; rw [z2]; show bit 18 (s'.word x) = _; rw [hwa]; exact y2
    · show bit 18 (s'.word x) = _; rw [hwo x hx]
  have e19 : ∀ x, s'.b19 x = s.b19 x := by
    intro x; by_cases hx : x = a
    · subst hx; rw [z3]; show bit 19 (s'.word x) = _; rw [hwa]; exact y3
    · show bit 19 (s'.word x) = _; rw [hwo x hx]
  have e20 : ∀ x, s'.b20 x = s.b20 x := by
    intro x; by_cases hx : x = a
    · subst hx; rw [z4]; show bit 20 (s'.word x) = _; rw [hwa]; exact y4
    · show bit 20 (s'.word x) = _; rw [hwo x hx]
  have erf : ∀ x, s'.rf x = s.rf x := by
    intro x; by_cases hx : x = a
    · subst hx; rw [z1]; show acc (s'.word x) = _; rw [hwa]; exact y1
    · show acc (s'.word x) = _; rw [hwo x hx]
  have ek : ∀ x, s'.key x = if x = a then kk else s.key x := by intro x; subst hs'; rfl
  have ei : s'.idx = s.idx := by subst hs'; rfl
  have em : ∀ x, s'.mem x = if x = a then mm else s.mem x := by intro x; subst hs'; rfl
  have emm : s'.mm = s.mm := by subst hs'; rfl
  have et : s'.thr = s.thr.set i p' := by subst hs'; rfl
  have eu : s'.usr = s.usr := by subst hs'; rfl
  have eml : s'.mail = s.mail := by subst hs'; rfl
  have ef : s'.fault = s.fault := by subst hs'; rfl
  have euc : ∀ b, s'.uc b = s.uc b := uc_congr eu
  have emc : ∀ b, s'.mc b = s.mc b := mc_congr eml
  have hcnt := h.cnt a
  have huc0 : s.uc a = 0 := by omega
  have hmc0 : s.mc a = 0 := by omega
  clear hs'
  refine Delta.inv (p' := p') h hp ?_ ?_
  · refine ⟨et, ?_, ?_, ?_, ?_, ?_, ?_, ?_, lk.ins, lk.lx, lk.ls, lk.lxs, fun b => Or.inl (Nat.le_of_eq (euc b).symm),
      ?_, ?_, ?_, ?_, by rw [ef]; exact h.nf⟩
    · intro b; rw [e.own, e.mo, euc, emc, erf]
    · intro b; rw [e.ex, e20]
    · intro b hb; rw [e.mo, erf]; rw [e20] at hb; exact Or.inl ⟨hb, rfl⟩
    · intro b
      rw [lv_congr (s := s) (s' := s') (erf b) (e18 b) (e19 b) (e20 b), em]
      by_cases hb : b = a
      · subst hb; rw [if_pos rfl]; have := e.araw; omega
      · rw [if_neg hb, e.raw b hb]
    · intro b; rw [e18, emm, h.lnk]
    · intro k x hx; rw [ei] at hx; rw [ek, e19]
      have h1 := h.idk k x hx
      by_cases hb : x = a
      · subst hb; rw [z3] at h1; cases h1.2
      · rw [if_neg hb]; exact h1
    · intro x hx; rw [e19] at hx; rw [ek, ei]
      by_cases hb : x = a
      · subst hb; rw [z3] at hx; cases hx
      · rw [if_neg hb]
        rcases h.acI' hp hx with h1 | h1 | h1
        · exact Or.inl h1
        · rw [hst] at h1; cases h1
        · exact Or.inr (Or.inr h1)
    · intro b hb; rw [euc]; exact lk.borp h hp b hb
    · intro g hg; rw [eu] at hg; rw [ek]
      by_cases hb : g.a = a
      · exfalso
        have : 0 < s.uc a := List.countP_pos_iff.mpr ⟨g, hg, by simp [hb]⟩
        omega
      · rw [if_neg hb]; exact h.hk g hg
    · intro g hg x hx; rw [eml] at hg; rw [ek]
      by_cases hb : x = a
      · exfalso
        have : 0 < s.mc a := List.countP_pos_iff.mpr ⟨g, hg, by simp [hx, hb]⟩
        omega
      · rw [if_neg hb]; exact h.mlk g hg x hx
    · exact ⟨fun x hx => by rw [e19]; exact e.nacc x hx, fun x hx => by rw [e18]; exact e.nlnk x hx,
        fun x hx => (by rw [e.stale x] at hx; cases hx), fun x hx => by rw [erf]; exact e.one1 x hx,
        fun x hx => by rw [e20]; exact e.exq x hx, fun k v hv => by rw [ei]; exact e.iat k v hv,
        fun x k hx => by rw [ek]; exact e.kat x k hx, e.dst⟩
  · refine ⟨?_, fun x hx => Or.inl (by rw [← e19]; exact hx), fun x hx => Or.inl (by rw [← e19]; exact hx),
      fun x hx => Or.inl (by rw [← e18]; exact hx),
      fun x hx => Or.inl (by rw [← e20]; exact hx), fun k => Or.inl (by rw [ei]), fun x => Or.inl (erf x)⟩
    intro x; rw [ek]
    by_cases hb : x = a
    · subst hb; rw [if_pos rfl]; exact e.key
    · rw [if_neg hb]; exact Or.inl rfl

end Verif.CacheProto
