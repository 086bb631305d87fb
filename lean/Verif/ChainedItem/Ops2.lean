import Verif.ChainedItem.Ops
/-! Release of an item and replacement of a child. -/
namespace Verif.ChainedItem
open Verif

variable {s s' : State} {ch : Addr → List Addr} {p a c h : Addr} {l : List Addr}

/-- every allocated item other than `x` is referenced, linked or accessible -/
def DrnX (s : State) (x : Addr) : Prop := ∀ a ∈ s.live, a ≠ x → s.rc a = 0 → s.mm a = true ∨ s.ac a = true

/-- what releasing a regular item with children `l` leaves -/
def after (s : State) (it : Addr) (l : List Addr) : State :=
  { s with live := s.live.filter (fun a => a ∉ it :: l), mm := (fun a => if a ∈ l then false else s.mm a), rc := (fun a => if a ∈ l then 0 else s.rc a), tab := upd s.tab it none, ac := (fun a => if l.head? = some a then false else s.ac a) }

theorem releaseBack_eq {it : Addr} (hnd : s.live.Nodup) (hl : it ∈ s.live) (h0 : s.rc it = 0) (hm : s.mm it = false)
    (ha : s.ac it = false) (hd : s.chd it = false) (hh : s.has it = true ↔ l ≠ []) (ht : s.tab it = l.head?)
    (hc : Chain s.nxt l none) (hln : l.Nodup) (hi : it ∉ l)
    (hall : ∀ c ∈ l, c ∈ s.live ∧ s.rc c = 1 ∧ s.par c = it) (hac : ∀ c, l.head? = some c → s.ac c = true)
    (hlen : l.length ≤ s.live.length) :
    releaseBack s it = after s it l := by
  cases l with
  | nil =>
    have hh' : s.has it = false := by simpa using hh
    simp only [List.head?_nil] at ht
    have : releaseBack s it = free s it := by simp [releaseBack, hl, h0, hm, ha, hd, hh']
    rw [this, free, if_pos hl, hnd.erase_eq_filter, after]
    congr 1
    · apply List.filter_congr; intro x _; simp
      grind
    · funext x; simp only [upd_ap]; split
      · rename_i e; rw [e, ht]
      · rfl
  | cons h l =>
    have hh' : s.has it = true := by simpa using hh
    simp only [List.head?_cons] at ht
    obtain ⟨g1, g2, g3⟩ := hall h (by simp)
    have g4 := hac h rfl
    have e1 : tabDel (dec (inc s h) h) h = { s with rc := upd (upd s.rc h 2) h 1, tab := upd s.tab it none, ac := upd s.ac h false } := by
      simp [inc, dec, g1, g2, tabDel, g4, g3, ht]
    have : releaseBack s it = free (freeLoop s.live.length (tabDel (dec (inc s h) h) h) (some h)) it := by
      have e2 : (tabDel (dec (inc s h) h) h).live = s.live := by rw [e1]
      simp only [releaseBack, hl, h0, hm, ha, hd, hh', ht, g3, and_self, if_true, e2]
      simp
    rw [this, e1]
    have e3 := freeLoop_spec s.live.length (h :: l) { s with rc := upd (upd s.rc h 2) h 1, tab := upd s.tab it none, ac := upd s.ac h false } hnd hc hln ?_ hlen
    · simp only [List.head?_cons] at e3
      rw [e3, free]
      have hl' : it ∈ s.live.filter (fun a => a ∉ h :: l) := by
        simp only [List.mem_filter]; exact ⟨hl, by simpa using hi⟩
      simp only [hl', if_true, after]
      congr 1
      · rw [(hnd.filter _).erase_eq_filter, List.filter_filter]
        apply List.filter_congr; intro x _; grind
      · funext x; simp only [upd_ap]; grind
      · funext x; simp only [upd_ap, List.head?_cons]; grind
    · intro x hx
      obtain ⟨k1, k2, k3⟩ := hall x hx
      refine ⟨k1, ?_⟩
      simp only [upd_ap]; grind

theorem after_mm {t : Addr} (ht : t ∈ l) : after { s with mm := upd s.mm t false } a l = after s a l := by
  simp only [after]; congr 1; funext x; simp only [upd_ap]; grind

/-- Release of a regular item. -/
theorem after_rep {it : Addr} (r : Rep s ch) (hl : it ∈ s.live) (hd : s.chd it = false) (h0 : s.rc it = 0) :
    Rep (after s it (ch it)) (upd ch it []) := by
  have hih : it ∉ s.hs := by
    intro hh
    have := List.count_pos_iff.mpr hh
    have := r.rc it hl
    omega
  have hi : it ∉ ch it := fun hh => by have := (r.linked hh).2.1; rw [hd] at this; cases this
  have hin : ∀ x, x ∈ (after s it (ch it)).live ↔ x ∈ s.live ∧ x ≠ it ∧ x ∉ ch it := by
    intro x; simp only [after, List.mem_filter]; simp
  have hpar : ∀ x, x ∈ ch it → s.par x = it := fun x hx => (r.linked hx).2.2.2.1
  refine ⟨r.nf, r.ndl.filter _, ?_, ?_, ?_, ?_, ?_, ?_, ?_, ?_, ?_, ?_, ?_⟩
  · intro x hx
    rw [hin]
    refine ⟨r.hsl x hx, fun e => hih (e ▸ hx), fun hc => (r.linked hc).2.2.2.2.2 hx⟩
  · intro q; have := r.tab q; simp only [after, upd_ap]; split
    · rfl
    · exact this
  · intro q; have := r.chn q; simp only [after, upd_ap]; split
    · trivial
    · exact this
  · intro q; simp only [upd_ap]; split
    · simp
    · exact r.nd q
  · intro q x
    rw [hin]
    have h1 := r.mem q x; have h2 := r.mem it x; have h3 := hpar x
    simp only [after, upd_ap]
    by_cases hx : x ∈ ch it
    · have := r.own q; have := @Rep.disj s ch it x r q hx; grind
    · have : x ∈ ch q → x ≠ it := by rintro h rfl; have := (r.linked h).2.1; rw [hd] at this; cases this
      grind
  · intro x hx hxd
    rw [hin] at hx
    have h1 := r.acc x hx.1 hxd
    have h2 : (ch it).head? ≠ some x := fun e => hx.2.2 (List.mem_of_mem_head? (by rw [e]; rfl))
    have h3 : s.tab it ≠ some x := by rw [r.tab]; exact h2
    simp only [after, upd_ap] at hxd h1 ⊢
    grind
  · intro q hq hqd
    rw [hin] at hq
    have := r.has q hq.1 hqd
    simp only [after, upd_ap] at *; grind
  · intro q hq
    simp only [upd_ap] at hq
    have hne : q ≠ it := by grind
    rw [if_neg hne] at hq
    have := r.own q hq
    rw [hin]
    refine ⟨⟨this.1, hne, fun hc => ?_⟩, this.2⟩
    have := (r.linked hc).2.1; simp_all
  · intro x hx
    rw [hin] at hx
    have := r.rc x hx.1
    simp only [after] at *; grind
  · intro x hx
    rw [hin] at hx
    have := r.lnk x hx.1
    simp only [after] at *; grind
  · intro x hx
    rw [hin] at hx
    have := r.unl x hx.1
    simp only [after] at *; grind

theorem after_drn {it : Addr} (hx : DrnX s it) : Drn (after s it (ch it)) := by
  intro x hx'
  simp only [after, List.mem_filter] at hx' ⊢
  have := hx x hx'.1
  have h2 : (ch it).head? ≠ some x := fun e => by
    have := List.mem_of_mem_head? (l := ch it) (a := x) (by rw [e]; rfl)
    grind
  grind

/-- releaseBackToAllocator of a regular item in a represented state -/
theorem Rep.releaseBack (r : Rep s ch) {it : Addr} (hl : it ∈ s.live) (hd : s.chd it = false) (h0 : s.rc it = 0)
    (hm : s.mm it = false) (ha : s.ac it = false) : releaseBack s it = after s it (ch it) := by
  have hi : it ∉ ch it := fun hh => by have := (r.linked hh).2.1; rw [hd] at this; cases this
  refine releaseBack_eq r.ndl hl h0 hm ha hd (r.has it hl hd) (r.tab it) (r.chn it) (r.nd it) hi ?_ ?_ (r.len it)
  · intro c hc; have := r.linked hc; exact ⟨this.1, this.2.2.2.2.1, this.2.2.2.1⟩
  · intro c hc
    cases e : ch it with
    | nil => rw [e] at hc; cases hc
    | cons y l => rw [e] at hc; simp at hc; subst hc; exact (r.acc_head e).1

/-- Release of a chained item that is in no chain. -/
theorem free_chained_rep {it : Addr} (r : Rep s ch) (hl : it ∈ s.live) (hd : s.chd it = true) (hm : s.mm it = false)
    (h0 : s.rc it = 0) : Rep { s with live := s.live.erase it } ch := by
  have hih : it ∉ s.hs := by
    intro hh
    have := List.count_pos_iff.mpr hh
    have := r.rc it hl
    omega
  have hi : ∀ q, it ∉ ch q := fun q hh => by have := (r.linked hh).2.2.1; rw [hm] at this; cases this
  have hin : ∀ x, x ∈ s.live.erase it ↔ x ≠ it ∧ x ∈ s.live := fun x => r.ndl.mem_erase_iff
  refine ⟨r.nf, r.ndl.erase _, ?_, r.tab, r.chn, r.nd, ?_, ?_, ?_, ?_, ?_, ?_, ?_⟩
  · intro x hx; simp only [hin]; exact ⟨fun e => hih (e ▸ hx), r.hsl x hx⟩
  · intro q x; have := r.mem q x; have := hi q; simp only [hin]; grind
  · intro x hx; exact r.acc x ((hin x).mp hx).2
  · intro x hx; exact r.has x ((hin x).mp hx).2
  · intro q hq; have := r.own q hq; simp only [hin]; grind
  · intro x hx; exact r.rc x ((hin x).mp hx).2
  · intro x hx; exact r.lnk x ((hin x).mp hx).2
  · intro x hx; exact r.unl x ((hin x).mp hx).2

/-! ### replacement -/

theorem replaceInChain_eq {old new : Addr} {a b : List Addr} (fm : Bool) (ht : s.tab p = (a ++ old :: b).head?)
    (hc : Chain s.nxt (a ++ old :: b) none) (hn : (a ++ old :: b).Nodup) (hlen : (a ++ old :: b).length ≤ s.live.length)
    (hall : ∀ c ∈ a ++ old :: b, c ∈ s.live ∧ 1 ≤ s.rc c ∧ s.par c = p)
    (hro : s.rc old = if fm then 1 else 2)
    (hnl : new ∈ s.live) (hno : new ∉ a ++ old :: b) (hna : s.ac new = false) (hnp : s.par new = p) :
    replaceInChain s old new p fm = { s with
      nxt := (fun x => if x = old then none else if x = new then b.head? else if a.getLast? = some x then some new else s.nxt x),
      rc := (fun x => if x = old then s.rc old - 1 else if x = new then s.rc new + 1 else s.rc x),
      tab := (if a = [] then upd s.tab p (some new) else s.tab),
      ac := (if a = [] then upd (upd s.ac new true) old false else s.ac) } := by
  have hnx : s.nxt old = b.head? := by
    have := ((chain_append _ _ _ _).mp hc).2
    rw [chain_cons, Option.or_none] at this
    exact this.1
  have hon : old ≠ new := by rintro rfl; simp at hno
  obtain ⟨o1, o2, o3⟩ := hall old (by simp)
  cases a with
  | nil =>
    simp only [List.nil_append, List.head?_cons] at ht
    have e1 : replaceInChain s old new p fm = { s with
        nxt := upd (upd s.nxt new b.head?) old none,
        rc := upd (upd s.rc old (s.rc old - 1)) new (s.rc new + 1),
        tab := upd s.tab p (some new), ac := upd (upd s.ac new true) old false } := by
      cases fm with
      | true =>
        simp only [if_true] at hro
        simp [replaceInChain, ht, inc, o1, tabPut, hnl, hna, hnp, dec, dec0, hro, Ne.symm hon, upd_ap, hnx]
        funext x; simp only [upd_ap]; grind
      | false =>
        simp at hro
        simp [replaceInChain, ht, inc, o1, tabPut, hnl, hna, hnp, dec, hro, Ne.symm hon, upd_ap, hnx]
        funext x; simp only [upd_ap]; grind
    rw [e1]
    simp only [if_true, List.getLast?_nil]
    congr 1
    all_goals (funext x; simp only [upd_ap]; grind)
  | cons h a =>
    simp only [List.cons_append, List.head?_cons] at ht
    obtain ⟨h1, h2, h3⟩ := hall h (by simp)
    have hho : h ≠ old := by rintro rfl; simp at hn
    have hhn : h ≠ new := by rintro rfl; simp at hno
    obtain ⟨a', prev, hap⟩ : ∃ (a' : List Addr) (prev : Addr), h :: a = a' ++ [prev] := ⟨_, _, (List.dropLast_append_getLast (List.cons_ne_nil h a)).symm⟩
    have hlast : (h :: a).getLast? = some prev := by rw [hap]; simp
    have hpo : prev ≠ old := by
      rintro rfl
      rw [hap] at hn
      have := List.nodup_append.mp hn
      exact (this.2.2 prev (by simp) prev (by simp)) rfl
    have hpn : prev ≠ new := by
      rintro rfl; rw [hap] at hno; simp at hno
    have hf : findPrev s.live.length { s with rc := upd s.rc h (s.rc h + 1) } h old = some prev := by
      have e : h :: a ++ old :: b = a' ++ prev :: old :: b := by rw [hap]; simp
      rw [e] at hc hn hlen
      exact findPrev_spec (s := { s with rc := upd s.rc h (s.rc h + 1) }) s.live.length a' h (by rw [← e]; rfl) hc hn hlen
    have e1 : replaceInChain s old new p fm = { s with
        nxt := upd (upd (upd s.nxt prev (some new)) new b.head?) old none,
        rc := upd (upd s.rc old (s.rc old - 1)) new (s.rc new + 1) } := by
      have hd0 : 2 ≤ s.rc h + 1 := by omega
      cases fm with
      | true =>
        simp only [if_true] at hro
        simp [replaceInChain, ht, inc, o1, h1, hho, hf, dec, dec0, hro, Ne.symm hon, upd_ap, hnx, hnl, Ne.symm hpo, Ne.symm hho, hd0, Ne.symm hhn]
        funext x; simp only [upd_ap]; grind
      | false =>
        simp at hro
        simp [replaceInChain, ht, inc, o1, h1, hho, hf, dec, hro, Ne.symm hon, upd_ap, hnx, hnl, Ne.symm hpo, Ne.symm hho, hd0, Ne.symm hhn]
        funext x; simp only [upd_ap]; grind
    rw [e1]
    simp only [reduceCtorEq, if_false, hlast]
    congr 1
    all_goals (funext x; simp only [upd_ap]; grind)

/-- the chain after a replacement -/
theorem replace_chain {old new : Addr} {a b : List Addr} {nxt : Addr → Option Addr}
    (hc : Chain nxt (a ++ old :: b) none) (hn : (a ++ old :: b).Nodup) (hno : new ∉ a ++ old :: b) :
    Chain (fun x => if x = old then none else if x = new then b.head? else if a.getLast? = some x then some new else nxt x)
      (a ++ new :: b) none := by
  have hab := (chain_append _ _ _ _).mp hc
  rw [chain_cons] at hab
  have hn' := List.nodup_append.mp hn
  rw [chain_append, chain_cons]
  have hob : old ∉ b := (List.nodup_cons.mp hn'.2.1).1
  refine ⟨?_, ?_, ?_⟩
  · rcases List.eq_nil_or_concat a with rfl | ⟨a', x, rfl⟩
    · trivial
    · simp only [List.concat_eq_append] at *
      have h1 := ((chain_append _ _ _ _).mp hab.1)
      rw [chain_append]
      refine ⟨?_, ?_⟩
      · refine (chain_congr ?_).mpr h1.1
        intro y hy
        have h2 : y ≠ old := hn'.2.2 y (by simp [hy]) old (by simp)
        have h3 : y ≠ new := by rintro rfl; simp [hy] at hno
        have h4 : x ≠ y := by
          rintro rfl
          exact (List.nodup_append.mp hn'.1).2.2 x hy x (by simp) rfl
        simp [h2, h3, h4]
      · have h2 : x ≠ old := hn'.2.2 x (by simp) old (by simp)
        have h3 : x ≠ new := by rintro rfl; simp at hno
        simp [chain_cons, h2, h3]
  · have : new ≠ old := by rintro rfl; simp at hno
    simp [this]
  · refine (chain_congr ?_).mpr hab.2.2
    intro y hy
    have h2 : y ≠ old := fun e => hob (e ▸ hy)
    have h3 : y ≠ new := by rintro rfl; simp [hy] at hno
    have h4 : a.getLast? ≠ some y := fun e => hn'.2.2 y (List.mem_of_mem_getLast? (by rw [e]; rfl)) y (by simp [hy]) rfl
    simp [h2, h3, h4]

end Verif.ChainedItem
