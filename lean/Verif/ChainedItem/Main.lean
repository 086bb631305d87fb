import Verif.ChainedItem.Ops4
/-! Eviction, moves of parents, and the invariant of all runs. -/
namespace Verif.ChainedItem
open Verif

variable {s s' : State} {ch : Addr → List Addr} {p a c h : Addr} {l : List Addr}

structure Good (s : State) (ch : Addr → List Addr) : Prop where
  rep : Rep s ch
  drn : Drn s

theorem Rep.reg_nil (r : Rep s ch) (h : p ∉ s.live ∨ s.chd p = true) : ch p = [] := by
  cases e : ch p with
  | nil => rfl
  | cons x l =>
    have := r.own p (by simp [e])
    grind

/-- the parent that is evicted with `t` -/
def root (s : State) (t : Addr) : Addr := if s.chd t then s.par t else t

theorem root_spec (r : Rep s ch) {t : Addr} (hl : t ∈ s.live) (hm : s.mm t = true) :
    root s t ∈ s.live ∧ s.chd (root s t) = false ∧ (t = root s t ∨ t ∈ ch (root s t)) := by
  unfold root
  cases hd : s.chd t with
  | false => simp [hl, hd]
  | true =>
    have : t ∈ ch (s.par t) := (r.mem _ _).mpr ⟨hl, hd, hm, rfl⟩
    have h2 := r.own (s.par t) (List.ne_nil_of_mem this)
    simp [h2, this]

/-- Eviction. -/
theorem evict_eq (r : Rep s ch) {t : Addr} (hl : t ∈ s.live) (hm : s.mm t = true) (hx : exclusive s (root s t) = true) :
    step s (.evict t) = (after { s with ac := upd s.ac (root s t) false, mm := upd s.mm (root s t) false } (root s t) (ch (root s t)), .recycled t) := by
  obtain ⟨h1, h2, h3⟩ := root_spec r hl hm
  have h0 : s.rc (root s t) = 0 := by simp [exclusive] at hx; exact hx.1.2
  have e0 : step s (.evict t) = (releaseBack { s with ac := upd s.ac (root s t) false, mm := upd (upd s.mm t false) (root s t) false } (root s t), .recycled t) := by
    simp only [step, hl, hm, and_self, if_true]
    rw [show (if s.chd t = true then s.par t else t) = root s t from rfl, hx]
    simp
  rw [e0]
  have hi : root s t ∉ ch (root s t) := fun hh => by have := (r.linked hh).2.1; rw [h2] at this; cases this
  rw [releaseBack_eq (s := { s with ac := upd s.ac (root s t) false, mm := upd (upd s.mm t false) (root s t) false }) r.ndl h1 h0
    (by simp) (by simp) h2 (r.has _ h1 h2) (r.tab _) (r.chn _) (r.nd _) hi ?_ ?_ (r.len _)]
  · congr 1
    simp only [after]
    congr 1
    funext x; simp only [upd_ap]; grind
  · intro c hc; have := r.linked hc; exact ⟨this.1, this.2.2.2.2.1, this.2.2.2.1⟩
  · intro c hc
    cases e : ch (root s t) with
    | nil => rw [e] at hc; cases hc
    | cons y l =>
      rw [e] at hc; simp at hc; subst hc
      have h4 := (r.acc_head e).1
      have : y ≠ root s t := by rintro rfl; rw [e] at hi; simp at hi
      simp only [upd_ap, this, if_false]; exact h4

theorem evict_good (g : Good s ch) {t : Addr} (hl : t ∈ s.live) (hm : s.mm t = true) (hx : exclusive s (root s t) = true) :
    Good (step s (.evict t)).1 (upd ch (root s t) []) := by
  rw [evict_eq g.rep hl hm hx]
  obtain ⟨h1, h2, h3⟩ := root_spec g.rep hl hm
  have h0 : s.rc (root s t) = 0 := by simp [exclusive] at hx; exact hx.1.2
  have r' : Rep { s with ac := upd s.ac (root s t) false, mm := upd s.mm (root s t) false } ch := by
    apply flag_rep g.rep
    intro x hx; have : x ≠ root s t := by rintro rfl; rw [h2] at hx; cases hx
    simp [upd_ap, this]
  refine ⟨after_rep r' h1 h2 h0, after_drn ?_⟩
  intro x hx hne h0
  have := g.drn x hx h0
  simp only [upd_ap, hne, if_false]; exact this

/-- A parent that has been moved away, or has no children, is freed. -/
theorem free_good (r : Rep s ch) (hx : DrnX s p) (hl : p ∈ s.live) (hd : s.chd p = false) (h0 : s.rc p = 0) (hc : ch p = []) :
    Good (free s p) ch := by
  have ht : s.tab p = none := by rw [r.tab, hc]; rfl
  rw [free_eq_after r.ndl hl ht]
  have e : upd ch p [] = ch := by funext q; simp only [upd_ap]; grind
  have h1 := after_rep r hl hd h0
  have h2 := after_drn (ch := ch) hx
  rw [hc] at h1 h2
  rw [e] at h1
  exact ⟨h1, h2⟩

theorem Rep.disj_ne (r : Rep s ch) (hd : s.chd p = false) (q : Addr) : p ∉ ch q := fun hh => by
  have := (r.linked hh).2.1; rw [hd] at this; cases this

/-- the state of a parent move after the chain was transferred -/
theorem moved_rep (g : Good s ch) {old n : Addr} (hl : old ∈ s.live) (hd : s.chd old = false) (h0 : s.rc old = 0) (hm : s.mm old = true)
    (hn : n ∉ s.live) :
    ∃ s2, s2 = (let s1 := { construct s n false 0 with hs := n :: s.hs }
      let s1 := { s1 with mm := upd s1.mm n true }
      if s1.has old then transferChain s1 old n else s1) ∧
      Good s2 (upd (upd ch old []) n (ch old)) ∧ s2.hs = n :: s.hs ∧ s2.live = n :: s.live ∧ s2.chd old = false ∧ s2.chd n = false ∧
      s2.ac n = false ∧ s2.mm n = true ∧ s2.rc old = 0 ∧ s2.mm old = true ∧
      (∀ x, x ≠ n → s2.chd x = s.chd x) ∧ (∀ x, x ≠ n → s.chd x = false → s2.rc x = s.rc x) := by
  refine ⟨_, rfl, ?_⟩
  have hne : old ≠ n := fun e => hn (e ▸ hl)
  obtain ⟨c1, c2⟩ := construct_rep g.rep g.drn hn false 0
  obtain ⟨s1, hs1⟩ : ∃ s1, s1 = { construct s n false 0 with hs := n :: s.hs, mm := upd (upd s.mm n false) n true } := ⟨_, rfl⟩
  have r1 : Rep s1 ch := by
    rw [hs1]
    refine flag_rep c1 (ac := (construct s n false 0).ac) ?_
    intro x hx
    have : x ≠ n := by rintro rfl; simp [construct] at hx
    simp [construct, upd_ap, this]
  have d1 : Drn s1 := by
    intro x hx h0'
    have := c2 x (by rw [hs1] at hx; exact hx) (by rw [hs1] at h0'; exact h0')
    rw [hs1]
    simp only [construct, upd_ap] at *; grind
  have hcn : ch n = [] := g.rep.reg_nil (Or.inl hn)
  have l1 : s1.live = n :: s.live := by rw [hs1]; rfl
  have h1 : s1.has old = s.has old := by rw [hs1]; simp [construct, upd_ap, hne]
  have f1 : s1.chd old = false ∧ s1.chd n = false ∧ s1.ac n = false ∧ s1.mm n = true ∧ s1.rc old = 0 ∧ s1.mm old = true ∧ s1.hs = n :: s.hs := by
    rw [hs1]; simp [construct, upd_ap, hne, hd, h0, hm]
  have f2 : (∀ x, x ≠ n → s1.chd x = s.chd x) ∧ (∀ x, x ≠ n → s.chd x = false → s1.rc x = s.rc x) := by
    rw [hs1]; simp only [construct, upd_ap]; grind
  have e0 : (let s1 := { construct s n false 0 with hs := n :: s.hs }
      let s1 := { s1 with mm := upd s1.mm n true }
      if s1.has old then transferChain s1 old n else s1) = if s1.has old then transferChain s1 old n else s1 := by
    rw [hs1]; rfl
  rw [e0, h1]
  cases hh : s.has old with
  | false =>
    have hco : ch old = [] := by
      have := g.rep.has old hl hd
      rw [hh] at this; simpa using this
    have e : upd (upd ch old []) n (ch old) = ch := by funext q; simp only [upd_ap]; grind
    rw [e]
    simp only [Bool.false_eq_true, if_false]
    exact ⟨⟨r1, d1⟩, f1.2.2.2.2.2.2, l1, f1.1, f1.2.1, f1.2.2.1, f1.2.2.2.1, f1.2.2.2.2.1, f1.2.2.2.2.2.1, f2⟩
  | true =>
    have hco : ch old ≠ [] := (g.rep.has old hl hd).mp hh
    obtain ⟨y, l, hyl⟩ := List.exists_cons_of_ne_nil hco
    obtain ⟨te, tr⟩ := transfer_rep (p := old) (p' := n) r1 (by rw [l1]; simp) f1.2.1 hyl hcn
    have hym := r1.linked (p := old) (c := y) (by rw [hyl]; simp)
    have hyn : y ≠ n := by rintro rfl; rw [f1.2.1] at hym; exact absurd hym.2.1 (by simp)
    have hyo : y ≠ old := by rintro rfl; rw [f1.1] at hym; exact absurd hym.2.1 (by simp)
    simp only [if_true]
    rw [← hyl] at tr
    refine ⟨⟨tr, ?_⟩, ?_⟩
    · rw [te]
      intro x hx h0'
      have := d1 x hx
      simp only [upd_ap] at *; grind
    · rw [te]
      obtain ⟨a1, a2, a3, a4, a5, a6, a7⟩ := f1
      refine ⟨a7, l1, a1, a2, ?_, a4, ?_, a6, f2.1, ?_⟩
      · simp [upd_ap, Ne.symm hyn, a3]
      · simp [upd_ap, Ne.symm hyo, a5]
      · intro x hx hxd
        have h3 := f2.2 x hx hxd
        have : x ≠ y := by rintro rfl; rw [f2.1 x hx, hxd] at hym; exact absurd hym.2.1 (by simp)
        simp only [upd_ap, this, if_false]; exact h3

theorem moveParent_good (g : Good s ch) {old n : Addr} (hl : old ∈ s.live) (hd : s.chd old = false) (hx : exclusive s old = true)
    (hn : n ∉ s.live) (lost : Bool) :
    Good (step s (.moveParent old n lost)).1 (if lost then upd ch old [] else upd (upd ch old []) n (ch old)) ∧
    (step s (.moveParent old n lost)).2 = (if lost then .ok else .handle n) ∧
    (step s (.moveParent old n lost)).1.hs = s.hs ∧
    (∀ x, x ∈ (step s (.moveParent old n lost)).1.live ↔
      if lost then x ∈ s.live ∧ x ≠ old ∧ x ∉ ch old else x = n ∨ (x ≠ old ∧ x ∈ s.live)) := by
  have h0 : s.rc old = 0 ∧ s.mm old = true := by simp [exclusive] at hx; exact ⟨hx.1.2, hx.2⟩
  obtain ⟨s2, hs2, g2, b1, b2, b3, b4, b5, b6, b7, b8, b9, b10⟩ := moved_rep g hl hd h0.1 h0.2 hn
  have hne : old ≠ n := fun e => hn (e ▸ hl)
  have hcn : ch n = [] := g.rep.reg_nil (Or.inl hn)
  have hlo : old ∈ s2.live := by rw [b2]; simp [hl]
  have hln : n ∈ s2.hs := by rw [b1]; simp
  have hnc : s.hs.count n = 0 := List.count_eq_zero.mpr (fun hh => hn (g.rep.hsl n hh))
  cases lost with
  | true =>
    have e0 : step s (.moveParent old n true) = (
        let s3 := release { s2 with ac := upd s2.ac old false, mm := upd s2.mm n false, hs := s2.hs.erase n } n
        (releaseBack { s3 with mm := upd s3.mm old false } old, .ok)) := by
      simp only [step, hl, hd, hx, hn, true_and, not_false_eq_true, if_true]
      rw [hs2]
    have r3 : Rep { s2 with ac := upd s2.ac old false, mm := upd s2.mm n false } (upd (upd ch old []) n (ch old)) := by
      apply flag_rep g2.rep
      intro x hxd
      have h1 : x ≠ old := by rintro rfl; rw [b3] at hxd; cases hxd
      have h2 : x ≠ n := by rintro rfl; rw [b4] at hxd; cases hxd
      simp [upd_ap, h1, h2]
    have d3 : Drn { s2 with ac := upd s2.ac old false, mm := upd s2.mm n false } := by
      intro x hxl h0'
      have := g2.drn x hxl h0'
      have h5 := g2.rep.rc n (g2.rep.hsl n hln)
      have h6 := List.count_pos_iff.mpr hln
      by_cases hxo : x = old
      · subst hxo; left; simp only [upd_ap, hne, if_false]; exact b8
      · by_cases hxn : x = n
        · subst hxn; simp only at h0'; omega
        · simp only [upd_ap, hxo, hxn, if_false]; exact this
    obtain ⟨r4, d4, l4, k4⟩ := drop_rep r3 d3 (a := n) hln
    have hlr : lastRef { s2 with ac := upd s2.ac old false, mm := upd s2.mm n false } n := by
      refine ⟨?_, ?_, ?_⟩
      · simp only [b1, List.count_cons_self, hnc]
      · simp
      · simp [upd_ap, Ne.symm hne, b5]
    have hch : (upd (upd ch old []) n (ch old)) n = ch old := by simp
    have hch2 : upd (upd (upd ch old []) n (ch old)) n [] = upd ch old [] := by
      funext q; simp only [upd_ap]; grind
    simp only [hlr, if_true, hch, hch2, true_implies] at r4 l4
    obtain ⟨s3, hs3⟩ : ∃ s3, s3 = release { s2 with ac := upd s2.ac old false, mm := upd s2.mm n false, hs := s2.hs.erase n } n := ⟨_, rfl⟩
    -- fields that the release of `n` does not touch
    have hfr : s3.chd = s2.chd ∧ s3.ac old = false ∧ s3.rc old = 0 := by
      have e5 := (undec_rep r3 d3 (a := n) hln).1
      have hnl : n ∈ s2.live := by rw [b2]; simp
      have hrc : s2.rc n = 1 := by
        have := g2.rep.rc n hnl
        rw [b4, b1] at this
        simp [List.count_cons_self, hnc] at this
        exact this
      have e6 := e5.releaseBack (it := n) hnl b4 (by simp [hrc]) (by simp) (by simp [upd_ap, Ne.symm hne, b5])
      have e7 : s3 = after { s2 with ac := upd s2.ac old false, mm := upd s2.mm n false, hs := s2.hs.erase n, rc := upd s2.rc n (s2.rc n - 1) } n (ch old) := by
        rw [hs3, ← hch, ← e6]
        simp only [release, hnl, hrc, true_and]
        rw [if_pos (by omega), if_pos]
        exact ⟨by simp, by simp, by simp [upd_ap, Ne.symm hne, b5]⟩
      rw [e7]
      have hoc : old ∉ ch old := g.rep.disj_ne hd old
      refine ⟨rfl, ?_, ?_⟩
      · simp [after]
      · simp [after, upd_ap, hne, hoc, b7]
    rw [← hs3] at r4 d4 l4 k4
    rw [e0]
    simp only [← hs3, Bool.true_eq_false, if_true]
    have r5 : Rep { s3 with mm := upd s3.mm old false } (upd ch old []) := by
      refine flag_rep r4 (ac := s3.ac) ?_
      intro x hxd
      have h1 : x ≠ old := by rintro rfl; rw [hfr.1, b3] at hxd; cases hxd
      simp [upd_ap, h1]
    have hoc : old ∉ ch old := g.rep.disj_ne hd old
    have hl5 : old ∈ s3.live := by rw [l4]; exact ⟨hlo, hne, hoc⟩
    have hd5 : s3.chd old = false := by rw [hfr.1, b3]
    rw [r5.releaseBack hl5 hd5 hfr.2.2 (by simp) hfr.2.1]
    have h6 := after_rep r5 hl5 hd5 hfr.2.2
    have h7 : Drn (after { s3 with mm := upd s3.mm old false } old (upd ch old [] old)) := by
      refine after_drn ?_
      intro x hxl hxo h0'
      have := d4 x hxl h0'
      simp only [upd_ap, hxo, if_false]; exact this
    have e8 : upd (upd ch old []) old [] = upd ch old [] := by funext q; simp only [upd_ap]; grind
    rw [e8] at h6
    refine ⟨⟨h6, h7⟩, trivial, ?_, ?_⟩
    · simp only [after, k4, b1]; simp
    · intro x
      simp only [after, List.mem_filter, upd_same, l4]
      simp only [b2, List.mem_cons, decide_eq_true_eq]
      grind
  | false =>
    have e0 : step s (.moveParent old n false) = (
        free (release { s2 with ac := upd (upd s2.ac old false) n true, mm := upd s2.mm old false, hs := s2.hs.erase n } n) old, .handle n) := by
      simp only [step, hl, hd, hx, hn, true_and, not_false_eq_true, if_true]
      rw [hs2]
      simp
    have r3 : Rep { s2 with ac := upd (upd s2.ac old false) n true, mm := upd s2.mm old false } (upd (upd ch old []) n (ch old)) := by
      apply flag_rep g2.rep
      intro x hxd
      have h1 : x ≠ old := by rintro rfl; rw [b3] at hxd; cases hxd
      have h2 : x ≠ n := by rintro rfl; rw [b4] at hxd; cases hxd
      simp [upd_ap, h1, h2]
    have hnl : n ∈ s2.live := by rw [b2]; simp
    have hrc : s2.rc n = 1 := by
      have := g2.rep.rc n hnl
      rw [b4, b1] at this
      simp [List.count_cons_self, hnc] at this
      exact this
    have e5 : release { s2 with ac := upd (upd s2.ac old false) n true, mm := upd s2.mm old false, hs := s2.hs.erase n } n =
        { s2 with ac := upd (upd s2.ac old false) n true, mm := upd s2.mm old false, hs := s2.hs.erase n, rc := upd s2.rc n 0 } := by
      simp [release, hnl, hrc]
    have r4 : Rep { s2 with ac := upd (upd s2.ac old false) n true, mm := upd s2.mm old false, hs := s2.hs.erase n, rc := upd s2.rc n 0 } (upd (upd ch old []) n (ch old)) := by
      have hc2 : ∀ x, (s2.hs.erase n).count x = s2.hs.count x - if x = n then 1 else 0 := by
        intro x; rw [List.count_erase]; grind
      refine ⟨r3.nf, r3.ndl, ?_, r3.tab, r3.chn, r3.nd, r3.mem, r3.acc, r3.has, r3.own, ?_, ?_, r3.unl⟩
      · exact fun x hx => r3.hsl x (List.mem_of_mem_erase hx)
      · intro x hx; have := r3.rc x hx; simp only [upd_ap, hc2] at *; grind
      · intro x hx; have := r3.lnk x hx; simp only [hc2] at *; grind
    rw [e0, e5]
    simp only [Bool.false_eq_true, if_false]
    have hco : upd (upd ch old []) n (ch old) old = [] := by simp [upd_ap, hne]
    refine ⟨?_, trivial, ?_, ?_⟩
    · refine free_good r4 ?_ hlo b3 (by simp [upd_ap, hne, b7]) hco
      intro x hxl hxo h0'
      have := g2.drn x hxl
      simp only [upd_ap] at *; grind
    · simp only [free, hlo, if_true, b1]; simp
    · intro x
      simp only [free, hlo, if_true]
      rw [g2.rep.ndl.mem_erase_iff, b2, List.mem_cons]
      grind

/-- transferChainAndReplace -/
theorem transfer_good (g : Good s ch) {p' : Addr} (hp : p ∈ s.hs) (hp' : p' ∈ s.hs) (hd : s.chd p = false) (hd' : s.chd p' = false)
    (hh : s.has p = true) (hh' : s.has p' = false) (ha' : s.ac p' = false) :
    Good (step s (.transfer p p')).1 (upd (upd ch p []) p' (ch p)) ∧ (step s (.transfer p p')).2 = .ok ∧
    (step s (.transfer p p')).1.hs = s.hs ∧ (step s (.transfer p p')).1.live = s.live := by
  have hl := g.rep.hsl p hp
  have hl' := g.rep.hsl p' hp'
  have hco : ch p ≠ [] := (g.rep.has p hl hd).mp hh
  have hco' : ch p' = [] := by have := g.rep.has p' hl' hd'; rw [hh'] at this; simpa using this
  obtain ⟨y, l, hyl⟩ := List.exists_cons_of_ne_nil hco
  obtain ⟨te, tr⟩ := transfer_rep (p := p) (p' := p') g.rep hl' hd' hyl hco'
  rw [← hyl] at tr
  obtain ⟨s1, hs1⟩ : ∃ s1, s1 = transferChain s p p' := ⟨_, rfl⟩
  have hc1 : s1.chd = s.chd := by rw [hs1, te]
  have hh1 : s1.hs = s.hs := by rw [hs1, te]
  have hv1 : s1.live = s.live := by rw [hs1, te]
  have hc : s1.rc p ≠ 0 ∧ s1.rc p' ≠ 0 := by
    rw [← hs1] at tr
    have h1 := tr.rc p (tr.hsl p (by rw [hh1]; exact hp))
    have h2 := tr.rc p' (tr.hsl p' (by rw [hh1]; exact hp'))
    have h3 := List.count_pos_iff.mpr hp
    have h4 := List.count_pos_iff.mpr hp'
    rw [hh1] at h1 h2
    omega
  have d1 : Drn s1 := by
    intro x hx h0
    have h1 := g.drn x
    rw [hs1, te] at hx h0 ⊢
    simp only [upd_ap] at *
    grind
  have e0 : step s (.transfer p p') = (if s1.ac p then ({ s1 with ac := upd (upd s1.ac p false) p' true, mm := upd (upd s1.mm p false) p' true }, .ok) else (s1, .ok)) := by
    simp only [step, hp, hp', hd, hd', hh, hh', ha', and_self, if_true, Bool.false_eq_true, if_false, hs1]
  rw [e0]
  rw [← hs1] at tr
  split
  · refine ⟨⟨?_, ?_⟩, rfl, hh1, hv1⟩
    · apply flag_rep tr
      intro x hx
      rw [hc1] at hx
      have h1 : x ≠ p := by rintro rfl; rw [hd] at hx; cases hx
      have h2 : x ≠ p' := by rintro rfl; rw [hd'] at hx; cases hx
      simp [upd_ap, h1, h2]
    · intro x hx h0
      have := d1 x hx h0
      have h1 : x ≠ p := fun e => hc.1 (e ▸ h0)
      have h2 : x ≠ p' := fun e => hc.2 (e ▸ h0)
      simp only [upd_ap, h1, h2, if_false]; exact this
  · exact ⟨⟨tr, d1⟩, rfl, hh1, hv1⟩

/-- Move of a child. -/
theorem moveChild_good (g : Good s ch) {old n : Addr} {a b : List Addr} (hl : old ∈ s.live) (hd : s.chd old = true) (hm : s.mm old = true)
    (hx : exclusive s (s.par old) = true) (hn : n ∉ s.live) (e : ch (s.par old) = a ++ old :: b) :
    Good (step s (.moveChild old n)).1 (upd ch (s.par old) (a ++ n :: b)) ∧ (step s (.moveChild old n)).2 = .handle n ∧
    (step s (.moveChild old n)).1.hs = s.hs ∧ (step s (.moveChild old n)).1.live = n :: s.live.erase old := by
  obtain ⟨s', hs', r', d', h1, h2⟩ := moveChild_rep g.rep g.drn hn e
  have e0 : step s (.moveChild old n) = (s', .handle n) := by
    simp only [step, hl, hd, hm, hx, hn, not_false_eq_true, and_self, if_true]
    rw [hs']
  rw [e0]
  exact ⟨⟨r', d'⟩, rfl, h1, h2⟩

/-- Every call keeps the invariant. -/
theorem step_good (g : Good s ch) (o : Op) : ∃ ch', Good (step s o).1 ch' := by
  cases o with
  | allocate a =>
    simp only [step]; split
    · rename_i h; exact ⟨ch, (construct_rep g.rep g.drn h false 0).1, (construct_rep g.rep g.drn h false 0).2⟩
    · exact ⟨ch, g⟩
  | allocateChained p a =>
    simp only [step]; split
    · rename_i h; exact ⟨ch, (construct_rep g.rep g.drn h.2.2 true p).1, (construct_rep g.rep g.drn h.2.2 true p).2⟩
    · exact ⟨ch, g⟩
  | clone a =>
    simp only [step]; split
    · rename_i h; have := clone_rep g.rep g.drn h; exact ⟨ch, this.1, this.2.1⟩
    · exact ⟨ch, g⟩
  | drop a =>
    simp only [step]; split
    · rename_i h; have := drop_rep g.rep g.drn h; exact ⟨_, this.1, this.2.1⟩
    · exact ⟨ch, g⟩
  | insert p =>
    simp only [step]; split
    · rename_i h
      refine ⟨ch, flag_rep g.rep ?_, ?_⟩
      · intro x hx
        have h1 : x ≠ p := by rintro rfl; rw [h.2] at hx; cases hx
        simp [upd_ap, h1]
      · intro x hx h0
        have := g.drn x hx h0
        simp only [upd_ap]; grind
    · exact ⟨ch, g⟩
  | remove p =>
    simp only [step]; split
    · rename_i h
      refine ⟨ch, flag_rep g.rep ?_, ?_⟩
      · intro x hx
        have h1 : x ≠ p := by rintro rfl; rw [h.2] at hx; cases hx
        simp [upd_ap, h1]
      · intro x hx h0
        have := g.drn x hx h0
        have h2 := g.rep.rc x hx
        have h3 := List.count_pos_iff.mpr h.1
        have h1 : x ≠ p := by rintro rfl; simp only at h0; omega
        simp only [upd_ap, h1, if_false]; exact this
    · exact ⟨ch, g⟩
  | add p c =>
    simp only [step]; split
    · rename_i h
      split
      · rename_i hc
        split
        · rename_i h1
          have := add_rep g.rep g.drn h.1 h.2.1 h.2.2 hc h1.1 h1.2
          exact ⟨_, this.1, this.2.1⟩
        · exact ⟨ch, g⟩
      · exact ⟨ch, g⟩
    · exact ⟨ch, g⟩
  | pop p =>
    simp only [step]; split
    · rename_i h
      split
      · rename_i hh
        obtain ⟨y, l, e⟩ := List.exists_cons_of_ne_nil ((g.rep.has p (g.rep.hsl p h.1) h.2).mp hh)
        have := pop_rep g.rep g.drn h.1 h.2 e
        rw [this.1]
        exact ⟨_, this.2.1, this.2.2.1⟩
      · exact ⟨ch, g⟩
    · exact ⟨ch, g⟩
  | replace old new p =>
    simp only [step]; split
    · rename_i h
      split
      · exact ⟨ch, g⟩
      · rename_i hc
        have hm : old ∈ ch p := (g.rep.mem p old).mpr ⟨h.2.2.2, by grind⟩
        obtain ⟨a, b, e⟩ := List.append_of_mem hm
        have := replace_rep g.rep g.drn h.2.1 h.2.2.1 (by grind) (by grind) e
        exact ⟨_, this.1, this.2.1⟩
    · exact ⟨ch, g⟩
  | transfer p p' =>
    by_cases h : p ∈ s.hs ∧ p' ∈ s.hs ∧ s.chd p = false ∧ s.chd p' = false ∧ s.has p = true ∧ s.ac p' = false
    · cases hh : s.has p' with
      | true => refine ⟨ch, ?_⟩; simp only [step, h, hh]; exact g
      | false => exact ⟨_, (transfer_good g h.1 h.2.1 h.2.2.1 h.2.2.2.1 h.2.2.2.2.1 hh h.2.2.2.2.2).1⟩
    · refine ⟨ch, ?_⟩; simp only [step, h, if_false]; exact g
  | evict t =>
    by_cases h : t ∈ s.live ∧ s.mm t = true
    · cases hx : exclusive s (root s t) with
      | true => exact ⟨_, evict_good g h.1 h.2 hx⟩
      | false =>
        refine ⟨ch, ?_⟩
        simp only [step, h, and_self, if_true]
        rw [show (if s.chd t = true then s.par t else t) = root s t from rfl, hx]
        exact g
    · refine ⟨ch, ?_⟩; simp only [step, h, if_false]; exact g
  | moveChild old n =>
    by_cases h : old ∈ s.live ∧ s.chd old = true ∧ s.mm old = true ∧ exclusive s (s.par old) = true ∧ n ∉ s.live
    · have hm : old ∈ ch (s.par old) := (g.rep.mem _ old).mpr ⟨h.1, h.2.1, h.2.2.1, rfl⟩
      obtain ⟨a, b, e⟩ := List.append_of_mem hm
      exact ⟨_, (moveChild_good g h.1 h.2.1 h.2.2.1 h.2.2.2.1 h.2.2.2.2 e).1⟩
    · refine ⟨ch, ?_⟩; simp only [step, h, if_false]; exact g
  | moveParent old n lost =>
    by_cases h : old ∈ s.live ∧ s.chd old = false ∧ exclusive s old = true ∧ n ∉ s.live
    · exact ⟨_, (moveParent_good g h.1 h.2.1 h.2.2.1 h.2.2.2 lost).1⟩
    · refine ⟨ch, ?_⟩; simp only [step, h, if_false]; exact g

theorem run_good (ops : List Op) : ∃ ch, Good (run ops) ch := by
  have : ∀ (ops : List Op) (s : State) (ch), Good s ch → ∃ ch', Good (ops.foldl (fun s o => (step s o).1) s) ch' := by
    intro ops
    induction ops with
    | nil => intro s ch g; exact ⟨ch, g⟩
    | cons o ops ih => intro s ch g; obtain ⟨ch', g'⟩ := step_good g o; exact ih _ _ g'
  exact this ops init _ ⟨init_rep, fun a ha => by simp [init] at ha⟩

/-- The children seen by the user. -/
theorem Rep.view (r : Rep s ch) (p : Addr) : view s p = ch p := by
  have hw : walk s.nxt s.live.length (s.tab p) = ch p := by
    rw [r.tab]; exact walk_chain (r.chn p) s.live.length (r.len p)
  unfold ChainedItem.view
  split
  · exact hw
  · rename_i hh
    cases e : ch p with
    | nil => rfl
    | cons y l =>
      have := r.own p (by simp [e])
      have h2 := (r.has p this.1 this.2).mpr (by simp [e])
      exact absurd h2 hh

end Verif.ChainedItem
