import Verif.ChainedItem.Lemmas
/-! Every operation preserves the representation. -/
namespace Verif.ChainedItem
open Verif

variable {s s' : State} {ch : Addr → List Addr} {p a c h : Addr} {l : List Addr}

theorem Rep.head_mem (r : Rep s ch) (ht : s.tab p = some h) : h ∈ ch p := by
  rw [r.tab] at ht
  exact List.mem_of_mem_head? (by rw [ht]; rfl)

theorem count_erase_ne {l : List Addr} {x y : Addr} (h : y ≠ x) : (l.erase x).count y = l.count y := by
  rw [List.count_erase]; simp [h, Ne.symm h]

theorem Rep.unlinked (r : Rep s ch) (hc : c ∈ s.hs) (hd : s.chd c = true) :
    c ∈ s.live ∧ s.mm c = false ∧ s.ac c = false ∧ s.nxt c = none ∧ (∀ q, c ∉ ch q) := by
  have hl := r.hsl c hc
  have hm : s.mm c = false := by
    cases hm : s.mm c with
    | false => rfl
    | true =>
      have := r.lnk c hl hd hm
      have := List.count_pos_iff.mpr hc
      omega
  have hq : ∀ q, c ∉ ch q := fun q hq => by
    have := ((r.mem q c).mp hq).2.2.1
    rw [hm] at this; cases this
  refine ⟨hl, hm, ?_, r.unl c hl hd hm, hq⟩
  cases ha : s.ac c with
  | false => rfl
  | true => exact absurd (r.head_mem ((r.acc c hl hd).mp ha)) (hq _)

/-- addChainedItem -/
theorem add_rep (r : Rep s ch) (hdr : Drn s) (hp : p ∈ s.hs) (hc : c ∈ s.hs) (hpc : s.chd p = false) (hd : s.chd c = true)
    (hpar : s.par c = p) (h1 : s.hs.count c = 1) :
    Rep { addChainedItem s p c with hs := s.hs.erase c } (upd ch p (c :: ch p)) ∧
    Drn { addChainedItem s p c with hs := s.hs.erase c } ∧ (addChainedItem s p c).live = s.live := by
  obtain ⟨hl, hm, ha, hn, hq⟩ := r.unlinked hc hd
  have hpl := r.hsl p hp
  have hrc : s.rc c = 1 := by have := r.rc c hl; simp [hm, h1] at this; exact this
  have hpne : p ≠ c := by rintro rfl; rw [hpc] at hd; cases hd
  have hcount : ∀ x, (s.hs.erase c).count x = if x = c then 0 else s.hs.count x := by
    intro x; split
    · rename_i e; subst e; rw [List.count_erase_self]; omega
    · rename_i e; exact count_erase_ne e
  cases ht : s.tab p with
  | none =>
    have hnil : ch p = [] := by rw [r.tab] at ht; exact List.head?_eq_none_iff.mp ht
    have e : addChainedItem s p c = { s with
        tab := upd s.tab p (some c), ac := upd s.ac c true, has := upd s.has p true,
        rc := upd (upd s.rc c 2) c 1, mm := upd s.mm c true } := by
      simp [addChainedItem, tabPut, hl, ha, hpar, ht, inc, dec, hrc]
    rw [e]
    refine ⟨⟨r.nf, r.ndl, ?_, ?_, ?_, ?_, ?_, ?_, ?_, ?_, ?_, ?_, ?_⟩, ?_, rfl⟩
    · exact fun x hx => r.hsl x (List.mem_of_mem_erase hx)
    · intro q; have := r.tab q; simp only [upd_ap]; split <;> simp_all
    · intro q; simp only [upd_ap]; split
      · simp [hnil, chain_cons, hn]
      · exact r.chn q
    · intro q; simp only [upd_ap]; split
      · simp [hnil]
      · exact r.nd q
    · intro q x; have := r.mem q x; have := r.mem p x; simp only [upd_ap]; grind
    · intro x hx hxd; have := r.acc x hx hxd; have := r.mem p x; simp only [upd_ap] at *; grind
    · intro q hq' hqd; have := r.has q hq' hqd; simp only [upd_ap]; grind
    · intro q hq'; have := r.own q; simp only [upd_ap] at *; grind
    · intro x hx; have := r.rc x hx; simp only [upd_ap, hcount] at *; grind
    · intro x hx; have := r.lnk x hx; simp only [upd_ap, hcount] at *; grind
    · intro x hx; have := r.unl x hx; simp only [upd_ap] at *; grind
    · intro x hx; have := hdr x hx; simp only [upd_ap] at *; grind
  | some o =>
    have ho := r.head_mem ht
    obtain ⟨g1, g2, g3, g4⟩ := (r.mem p o).mp ho
    have hoc : o ≠ c := fun e => hq p (e ▸ ho)
    have hro : s.rc o = 1 := by
      have := r.rc o g1; have := r.lnk o g1 g2 g3; simp_all
    have e : addChainedItem s p c = { s with
        tab := upd s.tab p (some c), ac := upd (upd s.ac c true) o false, has := upd s.has p true, nxt := upd s.nxt c (some o),
        rc := upd (upd (upd (upd s.rc o 2) o 1) c 2) c 1, mm := upd s.mm c true } := by
      simp [addChainedItem, tabPut, hl, ha, hpar, ht, inc, dec, hrc, hro, g1, hoc, upd_ap, Ne.symm hoc]
    rw [e]
    obtain ⟨l, hcl⟩ : ∃ l, ch p = o :: l := by
      rw [r.tab] at ht
      cases hh : ch p with
      | nil => rw [hh] at ht; cases ht
      | cons y l => rw [hh] at ht; simp at ht; subst ht; exact ⟨l, rfl⟩
    refine ⟨⟨r.nf, r.ndl, ?_, ?_, ?_, ?_, ?_, ?_, ?_, ?_, ?_, ?_, ?_⟩, ?_, rfl⟩
    · exact fun x hx => r.hsl x (List.mem_of_mem_erase hx)
    · intro q; have := r.tab q; simp only [upd_ap]; split <;> simp_all
    · intro q
      have := r.chn q
      by_cases hqp : q = p
      · subst hqp
        rw [upd_same, chain_cons]
        exact ⟨by simp [hcl], (chain_upd_of_not_mem (hq q)).mpr this⟩
      · rw [upd_ne _ _ hqp]; exact (chain_upd_of_not_mem (hq q)).mpr this
    · intro q; simp only [upd_ap]; split
      · exact List.nodup_cons.mpr ⟨hq p, r.nd p⟩
      · exact r.nd q
    · intro q x; have := r.mem q x; have := r.mem p x; simp only [upd_ap]; grind
    · intro x hx hxd; have := r.acc x hx hxd; have := r.mem p x; simp only [upd_ap] at *; grind
    · intro q hq' hqd; have := r.has q hq' hqd; simp only [upd_ap]; grind
    · intro q hq'; have := r.own q; simp only [upd_ap] at *; grind
    · intro x hx; have := r.rc x hx; simp only [upd_ap, hcount] at *; grind
    · intro x hx; have := r.lnk x hx; simp only [upd_ap, hcount] at *; grind
    · intro x hx; have := r.unl x hx; simp only [upd_ap] at *; grind
    · intro x hx; have := hdr x hx; simp only [upd_ap] at *; grind

theorem Rep.linked (r : Rep s ch) (hc : c ∈ ch p) :
    c ∈ s.live ∧ s.chd c = true ∧ s.mm c = true ∧ s.par c = p ∧ s.rc c = 1 ∧ c ∉ s.hs := by
  obtain ⟨g1, g2, g3, g4⟩ := (r.mem p c).mp hc
  have h0 := r.lnk c g1 g2 g3
  have h1 := r.rc c g1
  refine ⟨g1, g2, g3, g4, by simp_all, fun hh => ?_⟩
  have := List.count_pos_iff.mpr hh
  omega

theorem Rep.disj (r : Rep s ch) {q : Addr} (h1 : c ∈ ch p) (h2 : c ∈ ch q) : p = q := by
  rw [← (r.linked h1).2.2.2.1, ← (r.linked h2).2.2.2.1]

theorem Rep.acc_head (r : Rep s ch) {l : List Addr} (e : ch p = h :: l) : s.ac h = true ∧ s.tab p = some h := by
  have ht : s.tab p = some h := by rw [r.tab, e]; rfl
  have hm := r.linked (p := p) (c := h) (by rw [e]; simp)
  exact ⟨(r.acc h hm.1 hm.2.1).mpr (by rw [hm.2.2.2.1]; exact ht), ht⟩

theorem Rep.acc_tail (r : Rep s ch) {l : List Addr} (e : ch p = h :: l) (hc : c ∈ l) : s.ac c = false := by
  have hm := r.linked (p := p) (c := c) (by rw [e]; simp [hc])
  cases ha : s.ac c with
  | false => rfl
  | true =>
    have := (r.acc c hm.1 hm.2.1).mp ha
    rw [hm.2.2.2.1, r.tab, e] at this
    have hn := r.nd p
    rw [e] at hn
    simp at this; subst this
    exact absurd hc (List.nodup_cons.mp hn).1

/-- popChainedItem -/
theorem pop_rep (r : Rep s ch) (hdr : Drn s) (hp : p ∈ s.hs) (hpc : s.chd p = false) {l : List Addr}
    (e : ch p = h :: l) :
    (popChainedItem s p).2 = .handle h ∧
    Rep { (popChainedItem s p).1 with hs := h :: s.hs } (upd ch p l) ∧
    Drn { (popChainedItem s p).1 with hs := h :: s.hs } ∧ (popChainedItem s p).1.live = s.live := by
  obtain ⟨ha, ht⟩ := r.acc_head e
  have hh : h ∈ ch p := by rw [e]; simp
  obtain ⟨g1, g2, g3, g4, g5, g6⟩ := r.linked hh
  have hpl := r.hsl p hp
  have hpne : p ≠ h := by rintro rfl; rw [hpc] at g2; cases g2
  have hnd := r.nd p
  rw [e] at hnd
  obtain ⟨hnl, hnd⟩ := List.nodup_cons.mp hnd
  have hc := r.chn p
  rw [e, chain_cons] at hc
  obtain ⟨hc1, hc2⟩ := hc
  rw [Option.or_none] at hc1
  have hcount : ∀ x, (h :: s.hs).count x = s.hs.count x + if x = h then 1 else 0 := by
    intro x; rw [List.count_cons]; grind
  have hq : ∀ q, q ≠ p → h ∉ ch q := fun q hq hh' => hq (r.disj hh' hh)
  cases l with
  | nil =>
    have e1 : popChainedItem s p = ({ s with tab := upd s.tab p none, ac := upd s.ac h false, has := upd s.has p false, nxt := upd s.nxt h none, mm := upd s.mm h false, rc := upd (upd s.rc h 2) h 1 }, .handle h) := by
      simp [popChainedItem, ht, inc, g1, hc1, tabDel, ha, g4, dec, g5]
    rw [e1]
    refine ⟨rfl, ⟨r.nf, r.ndl, ?_, ?_, ?_, ?_, ?_, ?_, ?_, ?_, ?_, ?_, ?_⟩, ?_, rfl⟩
    · intro x hx; have := r.hsl x; simp only [List.mem_cons] at hx; grind
    · intro q; simp only [upd_ap]; split
      · rfl
      · exact r.tab q
    · intro q; have := r.chn q
      by_cases hqp : q = p
      · subst hqp; rw [upd_same]; simp
      · rw [upd_ne _ _ hqp]; exact (chain_upd_of_not_mem (hq q hqp)).mpr this
    · intro q; simp only [upd_ap]; split
      · simp
      · exact r.nd q
    · intro q x; have := r.mem q x; have := r.mem p x; simp only [upd_ap]; grind
    · intro x hx hxd; have := r.acc x hx hxd; have := r.mem p x; simp only [upd_ap] at *; grind
    · intro q hq' hqd; have := r.has q hq' hqd; simp only [upd_ap]; grind
    · intro q hq'; have := r.own q; simp only [upd_ap] at *; grind
    · intro x hx; have := r.rc x hx; simp only [upd_ap, hcount] at *; grind
    · intro x hx; have := r.lnk x hx; simp only [upd_ap, hcount] at *; grind
    · intro x hx; have := r.unl x hx; simp only [upd_ap] at *; grind
    · intro x hx; have := hdr x hx; simp only [upd_ap] at *; grind
  | cons n l =>
    have hn : n ∈ ch p := by rw [e]; simp
    obtain ⟨k1, k2, k3, k4, k5, k6⟩ := r.linked hn
    have han := r.acc_tail e (c := n) (by simp)
    have hhn : h ≠ n := by rintro rfl; simp at hnl
    simp only [List.head?_cons] at hc1
    have e1 : popChainedItem s p = ({ s with tab := upd s.tab p (some n), ac := upd (upd s.ac n true) h false, nxt := upd s.nxt h none, mm := upd s.mm h false, rc := upd (upd (upd (upd s.rc h 2) h 3) h 2) h 1 }, .handle h) := by
      simp [popChainedItem, ht, inc, g1, hc1, tabPut, han, k4, dec, g5, k1]
    rw [e1]
    refine ⟨rfl, ⟨r.nf, r.ndl, ?_, ?_, ?_, ?_, ?_, ?_, ?_, ?_, ?_, ?_, ?_⟩, ?_, rfl⟩
    · intro x hx; have := r.hsl x; simp only [List.mem_cons] at hx; grind
    · intro q; have := r.tab q; simp only [upd_ap]; split <;> simp_all
    · intro q; have := r.chn q
      by_cases hqp : q = p
      · subst hqp; rw [upd_same]; exact (chain_upd_of_not_mem hnl).mpr hc2
      · rw [upd_ne _ _ hqp]; exact (chain_upd_of_not_mem (hq q hqp)).mpr this
    · intro q; simp only [upd_ap]; split
      · exact hnd
      · exact r.nd q
    · intro q x; have := r.mem q x; have := r.mem p x; simp only [upd_ap]; grind
    · intro x hx hxd; have := r.acc x hx hxd; have := r.mem p x; simp only [upd_ap] at *; grind
    · intro q hq' hqd; have := r.has q hq' hqd; simp only [upd_ap]; grind
    · intro q hq'; have := r.own q; simp only [upd_ap] at *; grind
    · intro x hx; have := r.rc x hx; simp only [upd_ap, hcount] at *; grind
    · intro x hx; have := r.lnk x hx; simp only [upd_ap, hcount] at *; grind
    · intro x hx; have := r.unl x hx; simp only [upd_ap] at *; grind
    · intro x hx; have := hdr x hx; simp only [upd_ap] at *; grind

/-- transferChainLocked.  `p'` has no children. -/
theorem transfer_rep (r : Rep s ch) {p' : Addr} (hp' : p' ∈ s.live)
    (hpc' : s.chd p' = false) {l : List Addr} (e : ch p = h :: l) (e' : ch p' = []) :
    transferChain s p p' = { s with tab := upd (upd s.tab p none) p' (some h), has := upd (upd s.has p' true) p false, par := (fun a => if a ∈ h :: l then p' else s.par a), ac := upd (upd s.ac h false) h true, rc := upd (upd s.rc h 2) h 1 } ∧
    Rep (transferChain s p p') (upd (upd ch p []) p' (h :: l)) := by
  obtain ⟨ha, ht⟩ := r.acc_head e
  have hh : h ∈ ch p := by rw [e]; simp
  obtain ⟨g1, g2, g3, g4, g5, g6⟩ := r.linked hh
  have hne : p ≠ p' := by rintro rfl; rw [e] at e'; cases e'
  have hnd := r.nd p
  have hc := r.chn p
  rw [e] at hnd hc
  have ht' : s.tab p' = none := by rw [r.tab, e']; rfl
  have hlen := r.len p
  rw [e] at hlen
  have hck : changeKeys s.live.length { s with rc := upd s.rc h 2, tab := upd s.tab p none, ac := upd s.ac h false } (some h) p' =
      { s with rc := upd s.rc h 2, tab := upd s.tab p none, ac := upd s.ac h false, par := fun a => if a ∈ h :: l then p' else s.par a } := by
    have := changeKeys_spec (p := p') s.live.length (h :: l) { s with rc := upd s.rc h 2, tab := upd s.tab p none, ac := upd s.ac h false } hc ?_ hlen
    · exact this
    · intro c hc'
      rw [← e] at hc'
      refine ⟨(r.linked hc').1, ?_⟩
      simp only [upd_ap]
      rw [e] at hc'
      rcases List.mem_cons.mp hc' with rfl | hc'
      · simp
      · simp [r.acc_tail e hc']
  have e1 : transferChain s p p' = { s with tab := upd (upd s.tab p none) p' (some h), has := upd (upd s.has p' true) p false, par := (fun a => if a ∈ h :: l then p' else s.par a), ac := upd (upd s.ac h false) h true, rc := upd (upd s.rc h 2) h 1 } := by
    simp only [transferChain, ht, inc, g1, if_true, tabDel, ha, g4, and_self, g5]
    simp only [show (1 : Nat) + 1 = 2 from rfl, hck]
    simp [tabPut, g1, upd_ap, ht', Ne.symm hne, dec]
  refine ⟨e1, ?_⟩
  rw [e1]
  have hm : ∀ x, x ∈ h :: l ↔ x ∈ s.live ∧ s.chd x = true ∧ s.mm x = true ∧ s.par x = p := by
    intro x; rw [← e]; exact r.mem p x
  refine ⟨r.nf, r.ndl, r.hsl, ?_, ?_, ?_, ?_, ?_, ?_, ?_, ?_, ?_, ?_⟩
  · intro q; have := r.tab q; simp only [upd_ap]; split <;> simp_all
    split <;> simp_all
  · intro q; have := r.chn q; simp only [upd_ap]; split
    · exact hc
    · split
      · simp
      · exact this
  · intro q; have := r.nd q; simp only [upd_ap]; split
    · exact hnd
    · split
      · simp
      · exact this
  · intro q x
    have := r.mem q x; have := r.mem p x; have := r.mem p' x; have := hm x
    rw [e'] at *
    simp only [upd_ap]
    by_cases hx : x ∈ h :: l
    · grind
    · grind
  · intro x hx hxd
    have h1 := r.acc x hx hxd
    have h2 := hm x
    have h3 : ∀ q, s.tab q = some x → q = s.par x := fun q hq => ((r.linked (r.head_mem hq)).2.2.2.1).symm
    have h4 : x ∈ l → s.ac x = false := r.acc_tail e
    simp only [upd_ap] at *; grind
  · intro q hq' hqd; have := r.has q hq' hqd; simp only [upd_ap]; grind
  · intro q hq'; have := r.own q; simp only [upd_ap] at *; grind
  · intro x hx; have := r.rc x hx; simp only [upd_ap] at *; grind
  · intro x hx; exact r.lnk x hx
  · intro x hx; exact r.unl x hx

end Verif.ChainedItem
