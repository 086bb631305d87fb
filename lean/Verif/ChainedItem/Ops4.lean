import Verif.ChainedItem.Ops3
/-! Flags, allocation, handles and moves. -/
namespace Verif.ChainedItem
open Verif

variable {s s' : State} {ch : Addr → List Addr} {p a c h : Addr} {l : List Addr}

/-- The flags of regular items do not matter for the chains. -/
theorem flag_rep (r : Rep s ch) {ac mm : Addr → Bool} (h : ∀ x, s.chd x = true → ac x = s.ac x ∧ mm x = s.mm x) :
    Rep { s with ac := ac, mm := mm } ch := by
  refine ⟨r.nf, r.ndl, r.hsl, r.tab, r.chn, r.nd, ?_, ?_, r.has, r.own, ?_, ?_, ?_⟩
  · intro q x; have := r.mem q x; have := h x; simp only; grind
  · intro x hx hd; have := r.acc x hx hd; have := h x hd; simp only at *; grind
  · intro x hx; have := r.rc x hx; have := h x; simp only at *; grind
  · intro x hx hd; have := r.lnk x hx hd; have := h x hd; simp only at *; grind
  · intro x hx hd; have := r.unl x hx hd; have := h x hd; simp only at *; grind

/-- A new item. -/
theorem construct_rep (r : Rep s ch) (hdr : Drn s) (ha : a ∉ s.live) (chained : Bool) (p : Addr) :
    Rep { construct s a chained p with hs := a :: s.hs } ch ∧ Drn { construct s a chained p with hs := a :: s.hs } := by
  have hq : ∀ q, a ∉ ch q := fun q hh => ha (r.linked hh).1
  have hca : ch a = [] := by
    cases e : ch a with
    | nil => rfl
    | cons x l => exact absurd (r.own a (by simp [e])).1 ha
  have hcount : s.hs.count a = 0 := List.count_eq_zero.mpr (fun hh => ha (r.hsl a hh))
  have hc2 : ∀ x, (a :: s.hs).count x = s.hs.count x + if x = a then 1 else 0 := by
    intro x; rw [List.count_cons]; grind
  simp only [construct]
  refine ⟨⟨r.nf, List.nodup_cons.mpr ⟨ha, r.ndl⟩, ?_, r.tab, ?_, r.nd, ?_, ?_, ?_, ?_, ?_, ?_, ?_⟩, ?_⟩
  · intro x hx; have := r.hsl x; simp only [List.mem_cons] at *; grind
  · intro q; exact (chain_upd_of_not_mem (hq q)).mpr (r.chn q)
  · intro q x; have := r.mem q x; have := hq q; simp only [upd_ap, List.mem_cons]; grind
  · intro x hx hd
    have := r.acc x
    have h1 : ∀ q, s.tab q ≠ some a := fun q hh => hq q (r.head_mem hh)
    simp only [upd_ap, List.mem_cons] at *; grind
  · intro q hq' hd; have := r.has q; simp only [upd_ap, List.mem_cons] at *; grind
  · intro q hq'; have := r.own q hq'; simp only [upd_ap, List.mem_cons] at *; grind
  · intro x hx; have := r.rc x; simp only [upd_ap, List.mem_cons, hc2] at *; grind
  · intro x hx; have := r.lnk x; simp only [upd_ap, List.mem_cons, hc2] at *; grind
  · intro x hx; have := r.unl x; simp only [upd_ap, List.mem_cons] at *; grind
  · intro x hx; have := hdr x; simp only [upd_ap, List.mem_cons] at *; grind

/-- A cloned handle. -/
theorem clone_rep (r : Rep s ch) (hdr : Drn s) (ha : a ∈ s.hs) :
    Rep { inc s a with hs := a :: s.hs } ch ∧ Drn { inc s a with hs := a :: s.hs } ∧ (inc s a).live = s.live := by
  have hl := r.hsl a ha
  have hpos := List.count_pos_iff.mpr ha
  have hc2 : ∀ x, (a :: s.hs).count x = s.hs.count x + if x = a then 1 else 0 := by
    intro x; rw [List.count_cons]; grind
  have e : inc s a = { s with rc := upd s.rc a (s.rc a + 1) } := by simp [inc, hl]
  rw [e]
  refine ⟨⟨r.nf, r.ndl, ?_, r.tab, r.chn, r.nd, r.mem, r.acc, r.has, r.own, ?_, ?_, r.unl⟩, ?_, rfl⟩
  · intro x hx; have := r.hsl x; simp only [List.mem_cons] at *; grind
  · intro x hx; have := r.rc x hx; simp only [upd_ap, hc2] at *; grind
  · intro x hx; have := r.lnk x hx; simp only [hc2] at *; grind
  · intro x hx; have := hdr x hx; simp only [upd_ap] at *; grind

/-- A handle less, before the item is released. -/
theorem undec_rep (r : Rep s ch) (hdr : Drn s) (ha : a ∈ s.hs) :
    Rep { s with hs := s.hs.erase a, rc := upd s.rc a (s.rc a - 1) } ch ∧
    DrnX { s with hs := s.hs.erase a, rc := upd s.rc a (s.rc a - 1) } a := by
  have hl := r.hsl a ha
  have hpos := List.count_pos_iff.mpr ha
  have hc2 : ∀ x, (s.hs.erase a).count x = s.hs.count x - if x = a then 1 else 0 := by
    intro x; rw [List.count_erase]; grind
  refine ⟨⟨r.nf, r.ndl, ?_, r.tab, r.chn, r.nd, r.mem, r.acc, r.has, r.own, ?_, ?_, r.unl⟩, ?_⟩
  · exact fun x hx => r.hsl x (List.mem_of_mem_erase hx)
  · intro x hx; have := r.rc x hx; have := r.lnk x hx; simp only [upd_ap, hc2] at *; grind
  · intro x hx; have := r.lnk x hx; simp only [hc2] at *; grind
  · intro x hx; have := hdr x hx; simp only [upd_ap] at *; grind

/-- the condition under which dropping a handle of `a` frees it -/
def lastRef (s : State) (a : Addr) : Prop := s.hs.count a = 1 ∧ s.mm a = false ∧ s.ac a = false

instance (s : State) (a : Addr) : Decidable (lastRef s a) := by unfold lastRef; infer_instance

/-- Destruction of a handle. -/
theorem drop_rep (r : Rep s ch) (hdr : Drn s) (ha : a ∈ s.hs) :
    Rep (release { s with hs := s.hs.erase a } a) (if lastRef s a then upd ch a [] else ch) ∧
    Drn (release { s with hs := s.hs.erase a } a) ∧
    (∀ x, x ∈ (release { s with hs := s.hs.erase a } a).live ↔ x ∈ s.live ∧ (lastRef s a → x ≠ a ∧ x ∉ ch a)) ∧
    (release { s with hs := s.hs.erase a } a).hs = s.hs.erase a := by
  have hl := r.hsl a ha
  have hpos := List.count_pos_iff.mpr ha
  obtain ⟨r', d'⟩ := undec_rep r hdr ha
  have hrc : s.rc a = s.hs.count a := by
    have := r.rc a hl
    have := r.lnk a hl
    grind
  have e : release { s with hs := s.hs.erase a } a =
      if lastRef s a then releaseBack { s with hs := s.hs.erase a, rc := upd s.rc a (s.rc a - 1) } a
      else { s with hs := s.hs.erase a, rc := upd s.rc a (s.rc a - 1) } := by
    simp only [release, hl, true_and]
    rw [if_pos (by omega)]
    have : (upd s.rc a (s.rc a - 1) a = 0 ∧ s.mm a = false ∧ s.ac a = false) ↔ lastRef s a := by
      simp only [upd_same, lastRef]; constructor
      · rintro ⟨h1, h2⟩; exact ⟨by omega, h2⟩
      · rintro ⟨h1, h2⟩; exact ⟨by omega, h2⟩
    simp only [this]
  rw [e]
  by_cases hlr : lastRef s a
  · obtain ⟨h1, h2, h3⟩ := hlr
    have h0 : upd s.rc a (s.rc a - 1) a = 0 := by rw [upd_same]; omega
    simp only [show lastRef s a from ⟨h1, h2, h3⟩, if_true, true_implies]
    cases hd : s.chd a with
    | false =>
      rw [r'.releaseBack hl hd h0 h2 h3]
      refine ⟨after_rep r' hl hd h0, after_drn d', ?_, rfl⟩
      intro x; simp only [after, List.mem_filter]; simp
    | true =>
      have hca : ch a = [] := by
        cases e : ch a with
        | nil => rfl
        | cons x l => have := (r.own a (by simp [e])).2; rw [hd] at this; cases this
      have e2 : releaseBack { s with hs := s.hs.erase a, rc := upd s.rc a (s.rc a - 1) } a =
          { s with hs := s.hs.erase a, rc := upd s.rc a (s.rc a - 1), live := s.live.erase a } := by
        simp only [releaseBack, hl, h0, h2, h3, hd, free]; simp
      rw [e2]
      have e3 : upd ch a [] = ch := by funext q; simp only [upd_ap]; grind
      rw [e3]
      refine ⟨free_chained_rep r' hl hd h2 h0, ?_, ?_, rfl⟩
      · intro x hx h0
        have h4 := (r.ndl.mem_erase_iff).mp hx
        exact d' x h4.2 h4.1 h0
      · intro x
        rw [hca]
        simp only [r.ndl.mem_erase_iff]; simp; grind
  · simp only [hlr, if_false, false_implies, and_true]
    refine ⟨r', ?_, fun _ => trivial⟩
    intro x hx h0
    by_cases hxa : x = a
    · subst hxa
      simp only [upd_same] at h0
      simp only [lastRef] at hlr
      have : s.hs.count x = 1 := by omega
      simp only
      grind
    · exact d' x hx hxa h0

/-- Slab release moves a child. -/
theorem moveChild_rep {old n : Addr} {a b : List Addr} (r : Rep s ch) (hdr : Drn s) (hn : n ∉ s.live) (e : ch p = a ++ old :: b) :
    ∃ s', s' = (let s1 := construct s n true p
      let s1 := { s1 with mm := upd s1.mm n true }
      let s1 := replaceInChain s1 old n p true
      let s1 := { s1 with mm := upd s1.mm old false }
      let s1 := dec s1 n
      free s1 old) ∧ Rep s' (upd ch p (a ++ n :: b)) ∧ Drn s' ∧ s'.hs = s.hs ∧ s'.live = n :: s.live.erase old := by
  refine ⟨_, rfl, ?_⟩
  have hq : ∀ q, n ∉ ch q := fun q hh => hn (r.linked hh).1
  have hold : old ∈ ch p := by rw [e]; simp
  obtain ⟨g1, g2, g3, g4, g5, g6⟩ := r.linked hold
  have hon : old ≠ n := by rintro rfl; exact hn g1
  have hpn : p ≠ n := by rintro rfl; exact hn (r.own p (by rw [e]; simp)).1
  have e0 := r.nd p
  have ec := r.chn p
  have et := r.tab p
  have el := r.len p
  have hno := hq p
  have hlk : ∀ c ∈ ch p, c ∈ s.live ∧ s.rc c = 1 ∧ s.par c = p ∧ c ≠ n := fun c hc => by
    have := r.linked hc; exact ⟨this.1, this.2.2.2.2.1, this.2.2.2.1, fun e => hn (e ▸ this.1)⟩
  rw [e] at e0 ec et el hno hlk
  have e1 := replaceInChain_eq (s := { construct s n true p with mm := upd (upd s.mm n false) n true }) (p := p) (new := n)
    (old := old) true et ?_ e0 ?_ ?_ ?_ ?_ hno ?_ ?_
  rotate_left
  · exact (chain_upd_of_not_mem hno).mpr ec
  · simp only [construct, List.length_cons]; omega
  · intro c hc; have := hlk c hc; simp only [construct, upd_ap, List.mem_cons]; grind
  · simp [construct, upd_ap, hon, g5]
  · simp [construct]
  · simp [construct]
  · simp [construct]
  have e2 : (let s1 := construct s n true p
      let s1 := { s1 with mm := upd s1.mm n true }
      let s1 := replaceInChain s1 old n p true
      let s1 := { s1 with mm := upd s1.mm old false }
      let s1 := dec s1 n
      free s1 old) = { s with
      live := n :: s.live.erase old, chd := upd s.chd n true, has := upd s.has n false, par := upd s.par n p
      nxt := (fun x => if x = old then none else if x = n then b.head? else if a.getLast? = some x then some n else s.nxt x),
      rc := (fun x => if x = old then 0 else if x = n then 1 else s.rc x), mm := upd (upd s.mm n true) old false,
      tab := (if a = [] then upd s.tab p (some n) else s.tab),
      ac := (if a = [] then upd (upd (upd s.ac n false) n true) old false else upd s.ac n false) } := by
    dsimp only
    rw [show (construct s n true p).mm = upd s.mm n false from rfl, e1]
    simp only [construct, dec, free, upd_ap, List.mem_cons, true_or, true_and, Ne.symm hon, if_false, if_true, g1, hon,
      show (2 : Nat) ≤ 1 + 1 from by omega, or_true]
    congr 1
    · rw [List.erase_cons_tail]; simp [Ne.symm hon]
    · funext x; grind
    · funext x; simp only [upd_ap]; grind
    · funext x; simp only [upd_ap]; grind
  rw [e2]
  have hcount : s.hs.count n = 0 := List.count_eq_zero.mpr (fun hh => hn (r.hsl n hh))
  have hco : s.hs.count old = 0 := List.count_eq_zero.mpr g6
  have hmem : ∀ x, x ∈ a ++ n :: b ↔ x = n ∨ (x ≠ old ∧ x ∈ ch p) := by
    intro x
    have := List.nodup_append.mp e0
    rw [e]; simp only [List.mem_append, List.mem_cons]
    have h2 : old ∉ a := fun h => this.2.2 old h old (by simp) rfl
    have h3 : old ∉ b := (List.nodup_cons.mp this.2.1).1
    grind
  have hin : ∀ x, x ∈ n :: s.live.erase old ↔ x = n ∨ (x ≠ old ∧ x ∈ s.live) := by
    intro x; rw [List.mem_cons, r.ndl.mem_erase_iff]
  have hne : a = [] ↔ s.tab p = some old := by
    rw [et]
    cases a with
    | nil => simp
    | cons y a => simp; rintro rfl; simp at e0
  have hothers : ∀ q, q ≠ p → old ∉ ch q := fun q hq h => hq (r.disj h hold)
  refine ⟨⟨r.nf, ?_, ?_, ?_, ?_, ?_, ?_, ?_, ?_, ?_, ?_, ?_, ?_⟩, ?_, rfl, rfl⟩
  · exact List.nodup_cons.mpr ⟨fun h => hn (List.mem_of_mem_erase h), r.ndl.erase _⟩
  · intro x hx
    rw [hin]; exact Or.inr ⟨fun e => g6 (e ▸ hx), r.hsl x hx⟩
  · intro q
    have := r.tab q
    by_cases hq : q = p
    · subst hq
      rw [upd_same]
      cases a with
      | nil => simp
      | cons y a => simp only [reduceCtorEq, if_false]; rw [this, e]; rfl
    · rw [upd_ne _ _ hq]
      split
      · simp only [upd_ap, hq, if_false]; exact this
      · exact this
  · intro q
    by_cases hqp : q = p
    · subst hqp; rw [upd_same]; exact replace_chain ec e0 hno
    · rw [upd_ne _ _ hqp]
      refine (chain_congr ?_).mpr (r.chn q)
      intro x hx
      have h2 := hothers q hqp
      have h3 : x ≠ old := fun e => h2 (e ▸ hx)
      have h4 : x ≠ n := fun e => hq q (e ▸ hx)
      have h5 : a.getLast? ≠ some x := fun e' => hqp (r.disj hx (by rw [e]; exact List.mem_append_left _ (List.mem_of_mem_getLast? (by rw [e']; rfl))))
      simp [h3, h4, h5]
  · intro q
    simp only [upd_ap]; split
    · have := List.nodup_append.mp e0
      rw [List.nodup_append]
      refine ⟨this.1, List.nodup_cons.mpr ⟨fun h => hno (by simp [h]), (List.nodup_cons.mp this.2.1).2⟩, ?_⟩
      intro x hx y hy
      rcases List.mem_cons.mp hy with rfl | hy
      · rintro rfl; exact hno (by simp [hx])
      · exact this.2.2 x hx y (by simp [hy])
    · exact r.nd q
  · intro q x
    have h1 := r.mem q x; have h2 := hmem x; have h3 := r.mem p x; have h4 := hothers q; have h5 := hq q
    simp only [upd_ap, hin]; grind
  · intro x hx hxd
    simp only [hin] at hx
    have h1 := r.acc x
    have h4 : ∀ q, s.tab q = some x → q = s.par x := fun q hq => ((r.linked (r.head_mem hq)).2.2.2.1).symm
    have h5 : ∀ q, s.tab q = some n → False := fun q h => hq q (r.head_mem h)
    simp only [upd_ap] at *
    by_cases ha : a = []
    · simp only [ha, if_true, upd_ap]; grind
    · simp only [ha, if_false, upd_ap]; grind
  · intro q hq' hqd
    simp only [hin] at hq'
    have := r.has q
    have hcn : ch n = [] := by
      cases e : ch n with
      | nil => rfl
      | cons x l => exact absurd (r.own n (by simp [e])).1 hn
    simp only [upd_ap] at *; grind
  · intro q hq'; have := r.own q; have := r.own p; simp only [upd_ap, hin] at *; grind
  · intro x hx; simp only [hin] at hx; have := r.rc x; simp only [upd_ap] at *; grind
  · intro x hx; simp only [hin] at hx; have := r.lnk x; simp only [upd_ap] at *; grind
  · intro x hx hxd hxm
    simp only [hin] at hx
    have h1 := r.unl x
    have h5 : x ≠ old → x ≠ n → a.getLast? ≠ some x := fun h6 h7 e' => by
      have h8 : x ∈ ch p := by rw [e]; exact List.mem_append_left _ (List.mem_of_mem_getLast? (by rw [e']; rfl))
      have h9 := (r.linked h8).2.2.1
      simp only [upd_ap] at hxm
      grind
    simp only [upd_ap] at *; grind
  · intro x hx h0
    simp only [hin] at hx
    have := hdr x
    simp only [upd_ap] at *
    by_cases ha : a = []
    · simp only [ha, if_true, upd_ap]; grind
    · simp only [ha, if_false, upd_ap]; grind

end Verif.ChainedItem
