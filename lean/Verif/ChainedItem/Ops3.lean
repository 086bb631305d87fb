import Verif.ChainedItem.Ops2
/-! Every call preserves the representation. -/
namespace Verif.ChainedItem
open Verif

variable {s s' : State} {ch : Addr → List Addr} {p a c h : Addr} {l : List Addr}

theorem free_eq_after {it : Addr} (hnd : s.live.Nodup) (hl : it ∈ s.live) (ht : s.tab it = none) :
    free s it = after s it [] := by
  rw [free, if_pos hl, hnd.erase_eq_filter, after]
  congr 1
  · apply List.filter_congr; intro x _; simp
    grind
  · funext x; simp only [upd_ap]; split
    · rename_i e; rw [e, ht]
    · rfl

/-- replaceChainedItemLocked -/
theorem replace_rep {old new : Addr} {a b : List Addr} (r : Rep s ch) (hdr : Drn s) (hnew : new ∈ s.hs) (h1 : s.hs.count new = 1)
    (hnd : s.chd new = true) (hnp : s.par new = p) (e : ch p = a ++ old :: b) :
    Rep { replaceChainedItem s old new p with hs := old :: s.hs.erase new } (upd ch p (a ++ new :: b)) ∧
    Drn { replaceChainedItem s old new p with hs := old :: s.hs.erase new } ∧
    (replaceChainedItem s old new p).live = s.live := by
  obtain ⟨n1, n2, n3, n4, n5⟩ := r.unlinked hnew hnd
  have hold : old ∈ ch p := by rw [e]; simp
  obtain ⟨g1, g2, g3, g4, g5, g6⟩ := r.linked hold
  have hrn : s.rc new = 1 := by have := r.rc new n1; simp [n2, h1] at this; exact this
  have hon : old ≠ new := by rintro rfl; exact n5 p hold
  have e0 := r.nd p
  have ec := r.chn p
  have et := r.tab p
  have el := r.len p
  have hno := n5 p
  have hlk : ∀ c ∈ ch p, c ∈ s.live ∧ s.rc c = 1 ∧ s.par c = p := fun c hc => by
    have := r.linked hc; exact ⟨this.1, this.2.2.2.2.1, this.2.2.2.1⟩
  rw [e] at e0 ec et el hno hlk
  have e1 := replaceInChain_eq (s := { s with rc := upd s.rc old 2, mm := upd (upd s.mm old false) new true }) (p := p) (new := new)
    (old := old) false et ec e0 el ?_ ?_ n1 hno n3 hnp
  rotate_left
  · intro c hc; have := hlk c hc; simp only [upd_ap]; grind
  · simp
  have hne : a = [] ↔ s.tab p = some old := by
    rw [et]
    cases a with
    | nil => simp
    | cons y a => simp; rintro rfl; simp at e0
  have e2 : replaceChainedItem s old new p = { s with
      nxt := (fun x => if x = old then none else if x = new then b.head? else if a.getLast? = some x then some new else s.nxt x),
      rc := s.rc, mm := upd (upd s.mm old false) new true,
      tab := (if a = [] then upd s.tab p (some new) else s.tab),
      ac := (if a = [] then upd (upd s.ac new true) old false else s.ac) } := by
    have hi : inc s old = { s with rc := upd s.rc old 2 } := by simp [inc, g1, g5]
    simp only [replaceChainedItem, hi, e1]
    simp only [upd_ap, Ne.symm hon, if_false, hrn, dec, n1, if_true]
    simp only [true_and]
    rw [if_pos (by omega)]
    congr 1
    funext x
    simp only [upd_ap]; grind
  have hcount : ∀ x, (old :: s.hs.erase new).count x = if x = old then 1 else if x = new then 0 else s.hs.count x := by
    intro x
    have h2 : s.hs.count old = 0 := List.count_eq_zero.mpr g6
    rw [List.count_cons, List.count_erase]; grind
  have hmem : ∀ x, x ∈ a ++ new :: b ↔ x = new ∨ (x ≠ old ∧ x ∈ ch p) := by
    intro x
    have := List.nodup_append.mp e0
    rw [e]; simp only [List.mem_append, List.mem_cons]
    have h2 : old ∉ a := fun h => this.2.2 old h old (by simp) rfl
    have h3 : old ∉ b := (List.nodup_cons.mp this.2.1).1
    grind
  have hothers : ∀ q, q ≠ p → old ∉ ch q ∧ new ∉ ch q := fun q hq => ⟨fun h => hq (r.disj h hold), n5 q⟩
  rw [e2]
  refine ⟨⟨r.nf, r.ndl, ?_, ?_, ?_, ?_, ?_, ?_, ?_, ?_, ?_, ?_, ?_⟩, ?_, rfl⟩
  · intro x hx
    rcases List.mem_cons.mp hx with rfl | hx
    · exact g1
    · exact r.hsl x (List.mem_of_mem_erase hx)
  · intro q
    have := r.tab q
    by_cases hq : q = p
    · subst hq
      rw [upd_same]
      cases a with
      | nil => simp
      | cons y a => simp only [reduceCtorEq, if_false]; rw [this, e]; rfl
    · rw [upd_ne _ _ hq]
      split
      · simp only [upd_ap, hq, if_false]; exact this
      · exact this
  · intro q
    by_cases hq : q = p
    · subst hq; rw [upd_same]; exact replace_chain ec e0 hno
    · rw [upd_ne _ _ hq]
      refine (chain_congr ?_).mpr (r.chn q)
      intro x hx
      have h2 := hothers q hq
      have h3 : x ≠ old := fun e => h2.1 (e ▸ hx)
      have h4 : x ≠ new := fun e => h2.2 (e ▸ hx)
      have h5 : a.getLast? ≠ some x := fun e' => hq (r.disj hx (by rw [e]; exact List.mem_append_left _ (List.mem_of_mem_getLast? (by rw [e']; rfl))))
      simp [h3, h4, h5]
  · intro q
    simp only [upd_ap]; split
    · have := List.nodup_append.mp e0
      rw [List.nodup_append]
      refine ⟨this.1, List.nodup_cons.mpr ⟨fun h => hno (by simp [h]), (List.nodup_cons.mp this.2.1).2⟩, ?_⟩
      intro x hx y hy
      rcases List.mem_cons.mp hy with rfl | hy
      · rintro rfl; exact hno (by simp [hx])
      · exact this.2.2 x hx y (by simp [hy])
    · exact r.nd q
  · intro q x
    have h1 := r.mem q x; have h2 := hmem x; have h3 := r.mem p x
    simp only [upd_ap]; grind
  · intro x hx hxd
    have h1 := r.acc x hx hxd
    have h3 := r.acc old g1 g2
    have h4 : ∀ q, s.tab q = some x → q = s.par x := fun q hq => ((r.linked (r.head_mem hq)).2.2.2.1).symm
    have h5 : s.tab p = some new → False := fun h => n5 p (r.head_mem h)
    simp only [upd_ap] at *
    by_cases ha : a = []
    · simp only [ha, if_true, upd_ap]; grind
    · simp only [ha, if_false]; grind
  · intro q hq' hqd; have := r.has q hq' hqd; simp only [upd_ap]; grind
  · intro q hq'; have := r.own q; have := r.own p; simp only [upd_ap] at *; grind
  · intro x hx; have := r.rc x hx; simp only [upd_ap, hcount] at *; grind
  · intro x hx; have := r.lnk x hx; simp only [upd_ap, hcount] at *; grind
  · intro x hx hxd hxm
    have h1 := r.unl x hx hxd
    have h5 : x ≠ old → x ≠ new → a.getLast? ≠ some x := fun h6 h7 e' => by
      have h8 : x ∈ ch p := by rw [e]; exact List.mem_append_left _ (List.mem_of_mem_getLast? (by rw [e']; rfl))
      have h9 := (r.linked h8).2.2.1
      simp only [upd_ap] at hxm
      grind
    simp only [upd_ap] at *; grind
  · intro x hx h0
    have := hdr x hx
    simp only [upd_ap] at *
    by_cases ha : a = []
    · simp only [ha, if_true, upd_ap]; grind
    · simp only [ha, if_false]; grind

end Verif.ChainedItem
