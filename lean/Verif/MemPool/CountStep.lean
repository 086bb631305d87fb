import Verif.MemPool.Counts
namespace Verif.MemPool
open Verif AllocClass

theorem upd_other {X : Type} {f : Nat → X} {p q : Nat} {v : X} (h : q ≠ p) : upd f p v q = f q := upd_ne _ _ h

theorem upd2_row {X : Type} {f : Nat → Nat → X} {p c q : Nat} {v : X} (h : q ≠ p) : upd2 f p c v q = f q := by
  simp [upd2, upd_ne _ _ h]

theorem upd2_row_same {X : Type} {f : Nat → Nat → X} {p c : Nat} {v : X} : upd2 f p c v p = upd (f p) c v := by
  simp [upd2]

theorem length_last {l : List Nat} {sl : Nat} (h : l.getLast? = some sl) : l.length = l.dropLast.length + 1 := by
  obtain ⟨ys, rfl⟩ := List.getLast?_eq_some_iff.1 h
  simp

theorem fetch_le (x : Pool) : fetch x ≤ x.lk.need := by unfold fetch; split <;> omega

theorem lost_le (l : List (Nat × Nat)) (q : Nat) : 0 ≤ l.countP (fun x => x.1 == q) := Nat.zero_le _

theorem B_step {x y : St} {o : Op} (he : exec x o = some y) {own} (a : A x.1 x.2 own) (b : B x.1 x.2) : B y.1 y.2 := by
  obtain ⟨g, h⟩ := x
  simp only at a b
  cases o with
  | cls p c o m =>
    simp only [exec] at he
    split at he
    · rename_i hpc
      split at he
      · rename_i s k hr
        simp only [Option.some.injEq] at he; subst he
        have f := runCls_frame (a.inv hpc.1 hpc.2) hr
        have hs : k.slabs = (h.cl p c).slabs := f.slabs
        have hn : s.next = g.next := f.next
        have hb := b.pool p
        have hcs := clsSlabs_upd hpc.2 (h.cl p) k
        rw [hs] at hcs
        have hcs : clsSlabs (g.pools p).sizes.length (upd (h.cl p) c k) = clsSlabs (g.pools p).sizes.length (h.cl p) := by omega
        refine ⟨pool_B (p := p) b ?_ (fun _ _ _ _ => rfl) (fun _ _ => rfl) ?_, b.adv, ?_, ?_, b.sum, b.word⟩
        · intro q hq
          exact ⟨rfl, upd2_row hq, rfl, rfl, rfl, rfl⟩
        · simp only [Hist.setCl, upd2_row_same, G.setCls]
          exact ⟨by rw [hcs]; exact hb.cur, hb.pk, hb.lo, by rw [hcs]; exact hb.lim⟩
        · simp only [G.setCls, hn]; exact b.can
        · simp only [G.setCls, hn]; exact b.next
      · rename_i s k sl hr
        simp only [Option.some.injEq] at he; subst he
        have f := runCls_frame (a.inv hpc.1 hpc.2) hr
        have hs : k.slabs = (h.cl p c).slabs.erase sl := f.slabs
        have hn : s.next = g.next := f.next
        have hb := b.pool p
        have hcs := clsSlabs_upd hpc.2 (h.cl p) k
        have hm := (f.rel sl rfl).1
        have hlen := List.length_erase_of_mem hm
        have hpos := List.length_pos_of_mem hm
        rw [hs, hlen] at hcs
        have e1 : (Tok.rel p sl m :: g.toks).countP (isRel p) = g.toks.countP (isRel p) + 1 := by simp [List.countP_cons, isRel]
        have e2 : (Tok.rel p sl m :: g.toks).countP (isAdvd p) = g.toks.countP (isAdvd p) := by simp [List.countP_cons, isAdvd]
        have e3 : (Tok.rel p sl m :: g.toks).countP (isDec p) = g.toks.countP (isDec p) := by simp [List.countP_cons, isDec]
        refine ⟨pool_B (p := p) b ?_ (fun q hq f hf => cons_other rfl hq f hf) (fun _ _ => rfl) ?_, ?_, ?_, ?_, b.sum, b.word⟩
        · intro q hq
          exact ⟨rfl, upd2_row hq, rfl, rfl, rfl, rfl⟩
        · simp only [Hist.setCl, upd2_row_same, G.setCls]
          refine ⟨?_, hb.pk, hb.lo, ?_⟩
          · rw [e1, e2, e3]; have := hb.cur; omega
          · rw [e1, e2]; intro hrc; have := hb.lim hrc; omega
        · have := b.adv
          simp only [G.setCls, List.countP_cons, someAdvd, someRecl]; simpa using this
        · simp only [G.setCls, hn]; exact b.can
        · simp only [G.setCls, hn]; exact b.next
      · simp at he
    · simp at he
  | lock p =>
    simp only [exec] at he
    split at he
    · rename_i hpc
      simp only [Option.some.injEq] at he; subst he
      have hb := b.pool p
      have hl := hpc.2
      refine ⟨pool_B (p := p) b (fun q hq => ⟨upd_other hq, rfl, rfl, rfl, rfl, rfl⟩) (fun _ _ _ _ => rfl) (fun _ _ => rfl) ?_,
        ?_, b.can, b.next, ?_, b.word⟩
      · simp only [G.setPool, upd_same]
        obtain ⟨h1, h2, h3, h4⟩ := hb
        simp only [hl, Lk.hand, Lk.need, fetch] at h1 h3 h4
        refine ⟨by simpa [Lk.hand, Lk.need] using h1, h2, ?_, ?_⟩
        · intro hlo; exact ⟨(h3 hlo).1, by simp, (h3 hlo).2.2⟩
        · simpa [Lk.hand, Lk.need, fetch] using h4
      · simp only [G.setPool]; rw [adv_pools (by rfl)]; exact b.adv
      · simp only [G.setPool, G.sum]; rw [sum_pools (by rfl)]; exact b.sum
    · simp at he
  | unlock p =>
    simp only [exec] at he
    split at he
    · rename_i hl
      simp only [Option.some.injEq] at he; subst he
      have hb := b.pool p
      refine ⟨pool_B (p := p) b (fun q hq => ⟨upd_other hq, rfl, rfl, rfl, rfl, rfl⟩) (fun _ _ _ _ => rfl) (fun _ _ => rfl) ?_,
        ?_, b.can, b.next, ?_, b.word⟩
      · simp only [G.setPool, upd_same]
        obtain ⟨h1, h2, h3, h4⟩ := hb
        simp only [hl, Lk.hand, Lk.need, fetch] at h1 h3 h4
        refine ⟨by simpa [Lk.hand, Lk.need] using h1, h2, ?_, ?_⟩
        · intro hlo; exact ⟨(h3 hlo).1, by simp, (h3 hlo).2.2⟩
        · simpa [Lk.hand, Lk.need, fetch] using h4
      · simp only [G.setPool]; rw [adv_pools (by rfl)]; exact b.adv
      · simp only [G.setPool, G.sum]; rw [sum_pools (by rfl)]; exact b.sum
    · simp at he
  | readAdv p =>
    simp only [exec] at he
    split at he
    · rename_i l hl
      have hl := handReady_eq hl
      simp only [Option.some.injEq] at he; subst he
      have hb := b.pool p
      refine ⟨pool_B (p := p) b (fun q hq => ⟨upd_other hq, rfl, rfl, rfl, rfl, rfl⟩) (fun _ _ _ _ => rfl) (fun _ _ => rfl) ?_,
        ?_, b.can, b.next, ?_, b.word⟩
      · simp only [G.setPool, upd_same]
        obtain ⟨h1, h2, h3, h4⟩ := hb
        simp only [hl, Lk.hand, Lk.need, fetch] at h1 h3 h4
        refine ⟨by simpa [Lk.hand, Lk.need] using h1, h2, ?_, ?_⟩
        · intro hlo
          refine ⟨(h3 hlo).1, ?_, (h3 hlo).2.2⟩
          intro l' a' he
          simp only [Lk.held.injEq, LSt.read.injEq] at he
          rw [← he.2]; exact (h3 hlo).1
        · simpa [Lk.hand, Lk.need, fetch] using h4
      · simp only [G.setPool]; rw [adv_pools (by rfl)]; exact b.adv
      · simp only [G.setPool, G.sum]; rw [sum_pools (by rfl)]; exact b.sum
    · simp at he
  | check p =>
    simp only [exec] at he
    split at he
    · rename_i l d hl
      have hl := advRead_eq hl
      have hb := b.pool p
      split at he
      · simp only [Option.some.injEq] at he; subst he
        refine ⟨pool_B (p := p) b (fun q hq => ⟨upd_other hq, rfl, rfl, rfl, rfl, rfl⟩) (fun _ _ _ _ => rfl) (fun _ _ => rfl) ?_,
          ?_, b.can, b.next, ?_, b.word⟩
        · simp only [G.setPool, upd_same]
          obtain ⟨h1, h2, h3, h4⟩ := hb
          simp only [hl, Lk.hand, Lk.need, fetch] at h1 h3 h4
          refine ⟨by simpa [Lk.hand, Lk.need] using h1, h2, ?_, ?_⟩
          · intro hlo; exact ⟨(h3 hlo).1, by simp, (h3 hlo).2.2⟩
          · simpa [Lk.hand, Lk.need, fetch] using h4
        · simp only [G.setPool]; rw [adv_pools (by rfl)]; exact b.adv
        · simp only [G.setPool, G.sum]; rw [sum_pools (by rfl)]; exact b.sum
      · rename_i hov
        simp only [Option.some.injEq] at he; subst he
        refine ⟨pool_B (p := p) b (fun q hq => ⟨upd_other hq, rfl, rfl, rfl, upd_other hq, rfl⟩) (fun _ _ _ _ => rfl) (fun _ _ => rfl) ?_,
          ?_, b.can, b.next, ?_, b.word⟩
        · simp only [G.setPool, upd_same]
          obtain ⟨h1, h2, h3, h4⟩ := hb
          simp only [hl, Lk.hand, Lk.need, fetch] at h1 h3 h4
          simp only [Pool.over, decide_eq_true_eq, not_or, not_lt] at hov
          refine ⟨?_, h2, ?_, ?_⟩
          · simp only [Lk.hand, Lk.need]; omega
          · intro hlo
            have := h3 hlo
            have h0 := this.2.1 l d rfl
            refine ⟨this.1, by simp, ?_⟩
            simp only; omega
          · intro hrc
            simp only [Bool.or_eq_false_iff, decide_eq_false_iff_not, not_lt] at hrc
            have := h4 hrc.1
            simp only [Lk.hand, Lk.need, fetch]
            by_cases hf : (g.pools p).free.isEmpty = true
            · rw [if_pos hf] at this ⊢
              have hf' : (g.pools p).free.length = 0 := by simpa using hf
              rw [hf']
              omega
            · rw [if_neg hf] at this ⊢
              exact this
        · simp only [G.setPool]; rw [adv_pools (by rfl)]; exact b.adv
        · simp only [G.setPool, G.sum]; rw [sum_pools (by rfl)]; exact b.sum
    · simp at he
  | take p flag =>
    simp only [exec] at he
    split at he
    · rename_i l hl
      have hl := needs_eq hl
      have hb := b.pool p
      rw [Option.map_eq_some_iff] at he
      obtain ⟨g', he, rfl⟩ := he
      unfold takeSlab at he
      dsimp only at he
      split at he
      · rename_i sl hsl
        simp only [Option.some.injEq] at he; subst he
        refine ⟨pool_B (p := p) b (fun q hq => ⟨upd_other hq, rfl, rfl, rfl, rfl, rfl⟩) (fun _ _ _ _ => rfl) (fun _ _ => rfl) ?_,
          ?_, b.can, b.next, ?_, b.word⟩
        · simp only [G.setPool, upd_same]
          obtain ⟨h1, h2, h3, h4⟩ := hb
          have hlen := length_last hsl
          simp only [hl, Lk.hand, Lk.need, fetch] at h1 h3 h4
          refine ⟨?_, h2, ?_, ?_⟩
          · simp only [Lk.hand, Lk.need, List.length_append, List.length_singleton]; omega
          · intro hlo; exact ⟨(h3 hlo).1, by simp, (h3 hlo).2.2⟩
          · intro hrc
            have := h4 hrc
            have hf : (g.pools p).free.isEmpty = false := by
              cases hh : (g.pools p).free with
              | nil => rw [hh] at hsl; simp at hsl
              | cons => rfl
            simp only [hf] at this
            simp only [Lk.hand, Lk.need, fetch, List.length_append, List.length_singleton, ite_self]
            simp at this
            omega
        · simp only [G.setPool]; rw [adv_pools (by rfl)]; exact b.adv
        · simp only [G.setPool, G.sum]; rw [sum_pools (by rfl)]; exact b.sum
      · rename_i hfr
        have hf : (g.pools p).free = [] := by simpa using hfr
        have hnone : BP p { g.pools p with cur := (g.pools p).cur - 1, lk := .held l .ready } (h.cl p) g.toks g.lost (h.off p) (h.peak p) (h.raced p) (h.low p) := by
          obtain ⟨h1, h2, h3, h4⟩ := hb
          simp only [hl, Lk.hand, Lk.need, fetch] at h1 h3 h4
          refine ⟨?_, h2, ?_, ?_⟩
          · simp only [Lk.hand, Lk.need]; omega
          · intro hlo; exact ⟨(h3 hlo).1, by simp, by have := (h3 hlo).2.2; simp only; omega⟩
          · intro hrc
            have := h4 hrc
            simp only [hf, Lk.hand, Lk.need, fetch] at this ⊢
            simp at this ⊢
            omega
        have hsome : ∀ sl, BP p { g.pools p with lk := .held (l ++ [sl]) .ready } (h.cl p) g.toks g.lost (h.off p) (h.peak p) (h.raced p) (h.low p) := by
          intro sl
          obtain ⟨h1, h2, h3, h4⟩ := hb
          simp only [hl, Lk.hand, Lk.need, fetch] at h1 h3 h4
          refine ⟨?_, h2, ?_, ?_⟩
          · simp only [Lk.hand, Lk.need, List.length_append, List.length_singleton]; omega
          · intro hlo; exact ⟨(h3 hlo).1, by simp, (h3 hlo).2.2⟩
          · intro hrc
            have := h4 hrc
            simp only [hf, Lk.hand, Lk.need, fetch, List.length_append, List.length_singleton] at this ⊢
            simp at this ⊢
            omega
        split at he
        · split at he
          · simp at he
          · simp only [Option.some.injEq] at he; subst he
            refine ⟨pool_B (p := p) b (fun q hq => ⟨upd_other hq, rfl, rfl, rfl, rfl, rfl⟩) (fun _ _ _ _ => rfl) (fun _ _ => rfl) ?_,
              ?_, b.can, b.next, ?_, b.word⟩
            · simp only [G.setPool, upd_same]; exact hnone
            · simp only [G.setPool]; rw [adv_pools (by rfl)]; exact b.adv
            · simp only [G.setPool, G.sum]; rw [sum_pools (by rfl)]; exact b.sum
        · unfold makeNewSlab at he
          split at he
          · rename_i g1 sl hm
            simp only [Option.some.injEq] at he; subst he
            split at hm
            · simp only [Prod.mk.injEq, Option.some.injEq] at hm
              obtain ⟨rfl, rfl⟩ := hm
              rename_i hsl
              refine ⟨pool_B (p := p) b (fun q hq => ⟨upd_other hq, rfl, rfl, rfl, rfl, rfl⟩) (fun _ _ _ _ => rfl) (fun _ _ => rfl) ?_,
                ?_, ?_, b.next, ?_, b.word⟩
              · simp only [G.setPool, upd_same]; exact hsome _
              · simp only [G.setPool]; rw [adv_pools (by rfl)]; exact b.adv
              · intro hc
                have := b.can hc
                rw [this.1] at hsl; simp at hsl
              · simp only [G.setPool, G.sum]; rw [sum_pools (by rfl)]; exact b.sum
            · rename_i hsl
              split at hm
              · simp at hm
              · rename_i hnt
                simp only [Prod.mk.injEq, Option.some.injEq] at hm
                obtain ⟨rfl, rfl⟩ := hm
                refine ⟨pool_B (p := p) b (fun q hq => ⟨upd_other hq, rfl, rfl, rfl, rfl, rfl⟩) (fun _ _ _ _ => rfl) (fun _ _ => rfl) ?_,
                  ?_, ?_, ?_, ?_, b.word⟩
                · simp only [G.setPool, upd_same]; exact hsome _
                · simp only [G.setPool]; rw [adv_pools (by rfl)]; exact b.adv
                · intro hc
                  exact absurd (b.can hc).2 hnt
                · have := b.next; simp only [G.setPool]; omega
                · simp only [G.setPool, G.sum]; rw [sum_pools (by rfl)]; exact b.sum
          · rename_i g1 hm
            simp only [Option.some.injEq] at he; subst he
            split at hm
            · simp at hm
            · rename_i hsl
              split at hm
              · rename_i hnt
                simp only [Prod.mk.injEq] at hm
                obtain ⟨rfl, _⟩ := hm
                refine ⟨pool_B (p := p) b (fun q hq => ⟨upd_other hq, rfl, rfl, rfl, rfl, rfl⟩) (fun _ _ _ _ => rfl) (fun _ _ => rfl) ?_,
                  ?_, ?_, b.next, ?_, b.word⟩
                · simp only [G.setPool, upd_same]; exact hnone
                · simp only [G.setPool]; rw [adv_pools (by rfl)]; exact b.adv
                · intro _; exact ⟨List.getLast?_eq_none_iff.1 hsl, hnt⟩
                · simp only [G.setPool, G.sum]; rw [sum_pools (by rfl)]; exact b.sum
              · simp at hm
    · simp at he
  | add p c =>
    simp only [exec] at he
    split at he
    · rename_i sl l hl
      have hl := handReady_eq hl
      split at he
      · rename_i hc
        simp only [Option.some.injEq] at he; subst he
        have hb := b.pool p
        have hcs := clsSlabs_upd hc (h.cl p) { h.cl p c with slabs := sl :: (h.cl p c).slabs }
        simp only [List.length_cons] at hcs
        refine ⟨pool_B (p := p) b (fun q hq => ⟨upd_other hq, upd2_row hq, rfl, rfl, rfl, rfl⟩) (fun _ _ _ _ => rfl) (fun _ _ => rfl) ?_,
          ?_, b.can, b.next, ?_, b.word⟩
        · simp only [G.setPool, G.setCls, Hist.setCl, upd2_row_same, upd_same]
          obtain ⟨h1, h2, h3, h4⟩ := hb
          simp only [hl, Lk.hand, Lk.need, fetch, List.length_cons, ite_self] at h1 h3 h4
          refine ⟨?_, h2, ?_, ?_⟩
          · simp only [Lk.hand, Lk.need]; omega
          · intro hlo; exact ⟨(h3 hlo).1, by simp, (h3 hlo).2.2⟩
          · intro hrc
            have := h4 hrc
            simp only [Lk.hand, Lk.need, fetch, ite_self]
            omega
        · simp only [G.setPool, G.setCls]; rw [adv_pools (by rfl)]; exact b.adv
        · simp only [G.setPool, G.setCls, G.sum]; rw [sum_pools (by rfl)]; exact b.sum
      · simp at he
    · simp at he
  | addAlloc p c =>
    simp only [exec] at he
    split at he
    · rename_i sl l hl
      have hl := handReady_eq hl
      split at he
      · rename_i hc
        split at he
        · rename_i ac r hal
          simp only [Option.some.injEq] at he; subst he
          have hb := b.pool p
          have hcs := clsSlabs_upd hc (h.cl p) { h.cl p c with slabs := sl :: (h.cl p c).slabs, live := r.toList ++ (h.cl p c).live }
          simp only [List.length_cons] at hcs
          refine ⟨pool_B (p := p) b (fun q hq => ⟨upd_other hq, upd2_row hq, rfl, rfl, rfl, rfl⟩) (fun _ _ _ _ => rfl) (fun _ _ => rfl) ?_,
            ?_, b.can, b.next, ?_, b.word⟩
          · simp only [G.setPool, G.setCls, Hist.setCl, upd2_row_same, upd_same]
            obtain ⟨h1, h2, h3, h4⟩ := hb
            simp only [hl, Lk.hand, Lk.need, fetch, List.length_cons, ite_self] at h1 h3 h4
            refine ⟨?_, h2, ?_, ?_⟩
            · simp only [Lk.hand, Lk.need]; omega
            · intro hlo; exact ⟨(h3 hlo).1, by simp, (h3 hlo).2.2⟩
            · intro hrc
              have := h4 hrc
              simp only [Lk.hand, Lk.need, fetch, ite_self]
              omega
          · simp only [G.setPool, G.setCls]; rw [adv_pools (by rfl)]; exact b.adv
          · simp only [G.setPool, G.setCls, G.sum]; rw [sum_pools (by rfl)]; exact b.sum
        · simp at he
      · simp at he
    · simp at he
  | giveBack p =>
    simp only [exec] at he
    split at he
    · rename_i sl l hl
      have hl := handReady_eq hl
      simp only [Option.some.injEq] at he; subst he
      have hb := b.pool p
      refine ⟨pool_B (p := p) b (fun q hq => ⟨upd_other hq, rfl, rfl, rfl, rfl, rfl⟩) (fun _ _ _ _ => rfl) (fun _ _ => rfl) ?_,
        ?_, ?_, b.next, ?_, b.word⟩
      · simp only [G.setPool, freeSlab, upd_same]
        obtain ⟨h1, h2, h3, h4⟩ := hb
        simp only [hl, Lk.hand, Lk.need, fetch, List.length_cons, ite_self] at h1 h3 h4
        refine ⟨?_, h2, ?_, ?_⟩
        · simp only [Lk.hand, Lk.need]; omega
        · intro hlo; exact ⟨(h3 hlo).1, by simp, by have := (h3 hlo).2.2; simp only; omega⟩
        · intro hrc
          have := h4 hrc
          simp only [Lk.hand, Lk.need, fetch, ite_self]
          omega
      · simp only [G.setPool, freeSlab]; rw [adv_pools (by rfl)]; exact b.adv
      · simp [G.setPool, freeSlab]
      · simp only [G.setPool, freeSlab, G.sum]; rw [sum_pools (by rfl)]; exact b.sum
    · simp at he
  | takeOff p =>
    simp only [exec] at he
    split at he
    · rename_i hpc
      split at he
      · rename_i sl hsl
        simp only [Option.some.injEq] at he; subst he
        have hb := b.pool p
        have hl := hpc.2
        have hlen := length_last hsl
        have e1 : (Tok.rel p sl .resize :: g.toks).countP (isRel p) = g.toks.countP (isRel p) + 1 := by simp [List.countP_cons, isRel]
        have e2 : (Tok.rel p sl .resize :: g.toks).countP (isAdvd p) = g.toks.countP (isAdvd p) := by simp [List.countP_cons, isAdvd]
        have e3 : (Tok.rel p sl .resize :: g.toks).countP (isDec p) = g.toks.countP (isDec p) := by simp [List.countP_cons, isDec]
        refine ⟨pool_B (p := p) b (fun q hq => ⟨upd_other hq, rfl, upd_other hq, rfl, rfl, rfl⟩) (fun q hq f hf => cons_other rfl hq f hf) (fun _ _ => rfl) ?_,
          ?_, b.can, b.next, ?_, b.word⟩
        · simp only [G.setPool, upd_same]
          obtain ⟨h1, h2, h3, h4⟩ := hb
          simp only [hl, Lk.hand, Lk.need, fetch, ite_self] at h1 h3 h4
          refine ⟨?_, h2, ?_, ?_⟩
          · simp only [hl, Lk.hand, Lk.need]; rw [e1, e2, e3]; omega
          · intro hlo; exact ⟨(h3 hlo).1, by simp [hl], (h3 hlo).2.2⟩
          · intro hrc
            have := h4 hrc
            simp only [hl, Lk.hand, Lk.need, fetch, ite_self]
            rw [e1, e2]
            omega
        · have := b.adv
          simp only [G.setPool, List.countP_cons, someAdvd, someRecl]; rw [adv_pools (by rfl)]; simpa using this
        · simp only [G.setPool, G.sum]; rw [sum_pools (by rfl)]; exact b.sum
      · simp at he
    · simp at he
  | release p sl m ok =>
    simp only [exec] at he
    split at he
    · rename_i ht
      have hb := b.pool p
      have hadv := b.adv
      have c1 := countP_swap (t1 := .dec p) ht (isRel p)
      have c2 := countP_swap (t1 := .dec p) ht (isAdvd p)
      have c3 := countP_swap (t1 := .dec p) ht (isDec p)
      have d2 := countP_swap (t1 := .dec p) ht someAdvd
      have d3 := countP_swap (t1 := .dec p) ht someRecl
      have e1 := countP_swap (t1 := .advd p) ht (isRel p)
      have e2 := countP_swap (t1 := .advd p) ht (isAdvd p)
      have e3 := countP_swap (t1 := .advd p) ht (isDec p)
      have f2 := countP_swap (t1 := .advd p) ht someAdvd
      have f3 := countP_swap (t1 := .advd p) ht someRecl
      have k1 := countP_erase' ht (isRel p)
      have k2 := countP_erase' ht (isAdvd p)
      have k3 := countP_erase' ht (isDec p)
      have k4 := countP_erase' ht someAdvd
      have k5 := countP_erase' ht someRecl
      simp only [isRel, isAdvd, isDec, someAdvd, someRecl, beq_self_eq_true, if_true, Bool.false_eq_true, if_false, Nat.add_zero] at c1 c2 c3 d2 d3 e1 e2 e3 f2 f3 k1 k2 k3 k4 k5
      have hpushed : (g.pools p).lk = .idle → B ({ g.setPool p { g.pools p with free := (g.pools p).free ++ [sl] } with
          toks := .dec p :: g.toks.erase (.rel p sl m) }) h := by
        intro hl
        refine ⟨pool_B (p := p) b (fun q hq => ⟨upd_other hq, rfl, rfl, rfl, rfl, rfl⟩)
          (fun q hq f hf => swap_other (p := p) (q := q) ht rfl rfl hq f hf) (fun _ _ => rfl) ?_, ?_, b.can, b.next, ?_, b.word⟩
        · simp only [G.setPool, upd_same]
          obtain ⟨h1, h2, h3, h4⟩ := hb
          simp only [hl, Lk.hand, Lk.need, fetch, ite_self] at h1 h3 h4
          refine ⟨?_, h2, ?_, ?_⟩
          · simp only [hl, Lk.hand, Lk.need]; omega
          · intro hlo; exact ⟨(h3 hlo).1, by simp [hl], (h3 hlo).2.2⟩
          · intro hrc
            have := h4 hrc
            simp only [hl, Lk.hand, Lk.need, fetch, ite_self, List.length_append, List.length_singleton]
            omega
        · simp only [G.setPool]; rw [adv_pools (by rfl)]; omega
        · simp only [G.setPool, G.sum]; rw [sum_pools (by rfl)]; exact b.sum
      unfold releaseSlab at he
      dsimp only at he
      split at he
      · simp only [Option.some.injEq] at he; subst he
        refine ⟨pool_B (p := p) b (fun q hq => ⟨rfl, rfl, rfl, rfl, rfl, rfl⟩)
          (fun q hq f hf => swap_other (p := p) (q := q) ht rfl rfl hq f hf) (fun _ _ => rfl) ?_, ?_, ?_, b.next, b.sum, b.word⟩
        · simp only [freeSlab]
          obtain ⟨h1, h2, h3, h4⟩ := hb
          refine ⟨?_, h2, h3, ?_⟩
          · omega
          · intro hrc
            have := h4 hrc
            omega
        · simp only [freeSlab]; omega
        · simp [freeSlab]
      · split at he
        · simp only [Option.some.injEq] at he; subst he
          refine ⟨pool_B (p := p) b (fun q hq => ⟨rfl, rfl, rfl, rfl, rfl, rfl⟩)
            (fun q hq f hf => swap_other (p := p) (q := q) ht rfl rfl hq f hf) (fun _ _ => rfl) ?_, ?_, b.can, b.next, b.sum, b.word⟩
          · simp only [adviseSlab]
            obtain ⟨h1, h2, h3, h4⟩ := hb
            refine ⟨?_, h2, h3, ?_⟩
            · omega
            · intro hrc
              have := h4 hrc
              omega
          · simp only [adviseSlab, List.length_append, List.length_singleton]; omega
        · split at he
          · rename_i hl
            simp only [Option.some.injEq] at he; subst he
            exact hpushed hl
          · simp at he
      · rename_i c
        split at he
        · rename_i hc
          simp only [Option.some.injEq] at he; subst he
          have hcs := clsSlabs_upd hc (h.cl p) { h.cl p c with slabs := sl :: (h.cl p c).slabs }
          simp only [List.length_cons] at hcs
          refine ⟨pool_B (p := p) b (fun q hq => ⟨rfl, upd2_row hq, rfl, rfl, rfl, rfl⟩)
            (fun q hq f hf => erase_other (p := p) (q := q) ht rfl hq f hf) (fun _ _ => rfl) ?_, ?_, b.can, b.next, b.sum, b.word⟩
          · simp only [G.setCls, Hist.setCl, upd2_row_same]
            obtain ⟨h1, h2, h3, h4⟩ := hb
            refine ⟨?_, h2, h3, ?_⟩
            · omega
            · intro hrc
              have := h4 hrc
              omega
          · simp only [G.setCls]; omega
        · simp only [Option.some.injEq] at he; subst he
          refine ⟨pool_B (p := p) b (fun q hq => ⟨rfl, rfl, rfl, rfl, rfl, rfl⟩)
            (fun q hq f hf => erase_other (p := p) (q := q) ht rfl hq f hf) ?_ ?_, ?_, b.can, b.next, b.sum, b.word⟩
          · intro q hq
            rw [List.countP_cons]; simp [Ne.symm hq]
          · obtain ⟨h1, h2, h3, h4⟩ := hb
            refine ⟨?_, h2, h3, ?_⟩
            · simp only [List.countP_cons, beq_self_eq_true, if_true]
              omega
            · intro hrc
              have := h4 hrc
              simp only
              omega
          · simp only; omega
      · split at he
        · rename_i hl
          simp only [Option.some.injEq] at he; subst he
          exact hpushed hl
        · simp at he
    · simp at he
  | advInc p =>
    simp only [exec] at he
    split at he
    · rename_i ht
      simp only [Option.some.injEq] at he; subst he
      have hp : p < g.np := a.toks _ ht
      have hb := b.pool p
      have hadv := b.adv
      have c1 := countP_swap (t1 := .dec p) ht (isRel p)
      have c2 := countP_swap (t1 := .dec p) ht (isAdvd p)
      have c3 := countP_swap (t1 := .dec p) ht (isDec p)
      have d2 := countP_swap (t1 := .dec p) ht someAdvd
      have d3 := countP_swap (t1 := .dec p) ht someRecl
      simp only [isRel, isAdvd, isDec, someAdvd, someRecl, beq_self_eq_true, if_true, Bool.false_eq_true, if_false, Nat.add_zero] at c1 c2 c3 d2 d3
      refine ⟨pool_B (p := p) b (fun q hq => ⟨upd_other hq, rfl, rfl, rfl, rfl, rfl⟩)
        (fun q hq f hf => swap_other (p := p) (q := q) ht rfl rfl hq f hf) (fun _ _ => rfl) ?_, ?_, b.can, b.next, ?_, b.word⟩
      · simp only [G.setPool, upd_same]
        obtain ⟨h1, h2, h3, h4⟩ := hb
        refine ⟨?_, h2, ?_, ?_⟩
        · simp only; omega
        · intro hlo
          have := h3 hlo
          exact ⟨by simp only; omega, this.2.1, this.2.2⟩
        · intro hrc
          have := h4 hrc
          simp only [fetch] at this ⊢
          omega
      · simp only [G.setPool]; rw [adv_pools' hp]; simp only; omega
      · simp only [G.setPool, G.sum]; rw [sum_pools (by rfl)]; exact b.sum
    · simp at he
  | decr p =>
    simp only [exec] at he
    split at he
    · rename_i ht
      simp only [Option.some.injEq] at he; subst he
      have hb := b.pool p
      have hadv := b.adv
      have c1 := countP_erase' ht (isRel p)
      have c2 := countP_erase' ht (isAdvd p)
      have c3 := countP_erase' ht (isDec p)
      have d2 := countP_erase' ht someAdvd
      have d3 := countP_erase' ht someRecl
      simp only [isRel, isAdvd, isDec, someAdvd, someRecl, beq_self_eq_true, if_true, Bool.false_eq_true, if_false, Nat.add_zero] at c1 c2 c3 d2 d3
      refine ⟨pool_B (p := p) b (fun q hq => ⟨upd_other hq, rfl, rfl, rfl, rfl, rfl⟩)
        (fun q hq f hf => erase_other (p := p) (q := q) ht rfl hq f hf) (fun _ _ => rfl) ?_, ?_, b.can, b.next, ?_, b.word⟩
      · simp only [G.setPool, upd_same]
        obtain ⟨h1, h2, h3, h4⟩ := hb
        refine ⟨?_, h2, ?_, ?_⟩
        · simp only; omega
        · intro hlo
          have := h3 hlo
          exact ⟨this.1, this.2.1, by simp only; omega⟩
        · intro hrc
          have := h4 hrc
          simp only [fetch] at this ⊢
          omega
      · simp only [G.setPool]; rw [adv_pools (by rfl)]; omega
      · simp only [G.setPool, G.sum]; rw [sum_pools (by rfl)]; exact b.sum
    · simp at he
  | reclaim p =>
    simp only [exec] at he
    split at he
    · rename_i hp
      unfold reclaimSlab at he
      split at he
      · rename_i g1 sl hr
        split at hr
        · simp at hr
        rename_i sl' hsl
        simp only [Prod.mk.injEq, Option.some.injEq] at hr
        obtain ⟨rfl, rfl⟩ := hr
        simp only [Option.some.injEq] at he; subst he
        have hb := b.pool p
        have hlen := length_last hsl
        refine ⟨pool_B (p := p) b (fun q hq => ⟨rfl, rfl, rfl, rfl, rfl, rfl⟩) (fun q hq f hf => cons_other rfl hq f hf) (fun _ _ => rfl) ?_,
          ?_, b.can, b.next, b.sum, b.word⟩
        · have e1 : (Tok.recl p sl' :: g.toks).countP (isRel p) = g.toks.countP (isRel p) := by simp [List.countP_cons, isRel]
          have e2 : (Tok.recl p sl' :: g.toks).countP (isAdvd p) = g.toks.countP (isAdvd p) := by simp [List.countP_cons, isAdvd]
          have e3 : (Tok.recl p sl' :: g.toks).countP (isDec p) = g.toks.countP (isDec p) := by simp [List.countP_cons, isDec]
          obtain ⟨h1, h2, h3, h4⟩ := hb
          refine ⟨?_, h2, h3, ?_⟩
          · simp only; rw [e1, e2, e3]; exact h1
          · simp only; rw [e1, e2]; exact h4
        · have := b.adv
          simp only [List.countP_cons, someAdvd, someRecl, if_true, Bool.false_eq_true, if_false]
          omega
      · simp at he
    · simp at he
  | reclaimed p sl =>
    simp only [exec] at he
    split at he
    · rename_i hpc
      obtain ⟨ht, hl⟩ := hpc
      simp only [Option.some.injEq] at he; subst he
      have hp : p < g.np := a.toks _ ht
      have hb := b.pool p
      have hadv := b.adv
      have c1 := countP_erase' ht (isRel p)
      have c2 := countP_erase' ht (isAdvd p)
      have c3 := countP_erase' ht (isDec p)
      have d2 := countP_erase' ht someAdvd
      have d3 := countP_erase' ht someRecl
      simp only [isRel, isAdvd, isDec, someAdvd, someRecl, beq_self_eq_true, if_true, Bool.false_eq_true, if_false, Nat.add_zero] at c1 c2 c3 d2 d3
      refine ⟨pool_B (p := p) b (fun q hq => ⟨upd_other hq, rfl, rfl, rfl, rfl, upd_other hq⟩)
        (fun q hq f hf => erase_other (p := p) (q := q) ht rfl hq f hf) (fun _ _ => rfl) ?_, ?_, b.can, b.next, ?_, b.word⟩
      · simp only [G.setPool, upd_same]
        obtain ⟨h1, h2, h3, h4⟩ := hb
        simp only [hl, Lk.hand, Lk.need, fetch, ite_self] at h1 h3 h4
        refine ⟨?_, h2, ?_, ?_⟩
        · simp only [hl, Lk.hand, Lk.need]; omega
        · intro hlo
          simp only [Bool.or_eq_false_iff, decide_eq_false_iff_not, not_lt] at hlo
          have := h3 hlo.1
          exact ⟨hlo.2, by simp [hl], this.2.2⟩
        · intro hrc
          have := h4 hrc
          simp only [hl, Lk.hand, Lk.need, fetch, ite_self, List.length_append, List.length_singleton]
          omega
      · simp only [G.setPool]; rw [adv_pools' hp]; simp only; omega
      · simp only [G.setPool, G.sum]; rw [sum_pools (by rfl)]; exact b.sum
    · simp at he
  | create size sizes =>
    simp only [exec, Option.map_eq_some_iff] at he
    obtain ⟨g', he, rfl⟩ := he
    unfold createPool at he
    split at he
    · simp at he
    split at he
    · simp at he
    rename_i hrem
    split at he
    · simp at he
    simp only [Option.some.injEq] at he; subst he
    rw [remaining_eq b.sum b.word] at hrem
    have hz := a.pools g.np (Nat.le_refl _)
    have hb := b.pool g.np
    have htk : ∀ f : Tok → Bool, (∀ t, t.pool ≠ g.np → f t = false) → g.toks.countP f = 0 := by
      intro f hf
      rw [List.countP_eq_zero]
      intro t ht
      rw [hf t (by have := a.toks t ht; omega)]; simp
    have t1 := htk (isRel g.np) (by intro t; cases t <;> simp [isRel, Tok.pool])
    have t2 := htk (isAdvd g.np) (by intro t; cases t <;> simp [isAdvd, Tok.pool])
    have hcs : ∀ n, clsSlabs n (h.cl g.np) = 0 := by
      intro n
      unfold clsSlabs
      have : (List.range n).map (fun c => (h.cl g.np c).slabs.length) = (List.range n).map fun _ => 0 := by
        apply List.map_congr_left
        intro c _
        rw [a.cls _ c (Nat.le_refl _)]; rfl
      rw [this]
      induction n with
      | zero => rfl
      | succ n ih => simp [List.range_succ]
    refine ⟨pool_B (p := g.np) b (fun q hq => ⟨upd_other hq, rfl, rfl, upd_other hq, rfl, rfl⟩) (fun _ _ _ _ => rfl) (fun _ _ => rfl) ?_,
      ?_, b.can, b.next, ?_, b.word⟩
    · simp only [upd_same]
      rw [hz] at hb
      obtain ⟨h1, h2, h3, h4⟩ := hb
      simp only [Pool.zero, Lk.hand, Lk.need, hcs] at h1
      refine ⟨?_, Nat.le_refl _, ?_, ?_⟩
      · simp only [Lk.hand, Lk.need, hcs]; exact h1
      · intro _; exact ⟨Int.le_refl 0, by simp, by simp⟩
      · intro _
        simp only [Lk.hand, Lk.need, hcs, fetch, t1, t2, ite_self, List.length_nil]
        omega
    · simp only
      rw [List.range_succ, List.map_append, List.sum_append, adv_pools (by rw [hz]; rfl)]
      simp only [List.map_cons, List.map_nil, List.sum_cons, List.sum_nil, upd_same]
      have := b.adv
      omega
    · simp only [G.sum]
      rw [List.range_succ, List.map_append, List.sum_append]
      have : ((List.range g.np).map fun p => (upd g.pools g.np ⟨size, 0, [], 0, sizes, .idle⟩ p).max) = (List.range g.np).map fun p => (g.pools p).max := by
        apply List.map_congr_left
        intro q hq
        rw [upd_ne _ _ (by have := List.mem_range.1 hq; omega)]
      rw [this]
      simp only [List.map_cons, List.map_nil, List.sum_cons, List.sum_nil, upd_same]
      have hs := b.sum
      unfold G.sum at hs hrem
      omega
  | grow p bytes =>
    simp only [exec, Option.map_eq_some_iff] at he
    obtain ⟨g', he, rfl⟩ := he
    unfold growPool at he
    split at he
    · simp at he
    rename_i hp
    have hp : p < g.np := by simpa using hp
    split at he
    · simp at he
    rename_i hrem
    simp only [Option.some.injEq] at he; subst he
    rw [remaining_eq b.sum b.word] at hrem
    have hb := b.pool p
    refine ⟨pool_B (p := p) b (fun q hq => ⟨upd_other hq, rfl, rfl, upd_other hq, rfl, rfl⟩) (fun _ _ _ _ => rfl) (fun _ _ => rfl) ?_,
      ?_, b.can, b.next, ?_, b.word⟩
    · simp only [G.setPool, upd_same]
      obtain ⟨h1, h2, h3, h4⟩ := hb
      refine ⟨h1, Nat.le_max_right _ _, ?_, ?_⟩
      · intro hlo
        have := h3 hlo
        exact ⟨this.1, this.2.1, by simp only; omega⟩
      · intro hrc
        have := h4 hrc
        simp only [fetch] at this ⊢
        omega
    · simp only [G.setPool]; rw [adv_pools (by rfl)]; exact b.adv
    · simp only [G.setPool, G.sum]
      have := sum_updN hp (fun q => (g.pools q).max) (fun q => (upd g.pools p { g.pools p with max := (g.pools p).max + bytes } q).max)
        (fun q hq => by rw [upd_ne _ _ hq])
      simp only [upd_same] at this
      have hs := b.sum
      unfold G.sum at hs hrem
      omega
  | shrink p bytes =>
    simp only [exec, Option.map_eq_some_iff] at he
    obtain ⟨g', he, rfl⟩ := he
    unfold shrinkPool at he
    split at he
    · simp at he
    rename_i hp
    have hp : p < g.np := by simpa using hp
    split at he
    · simp at he
    simp only [Option.some.injEq] at he; subst he
    have hb := b.pool p
    refine ⟨pool_B (p := p) b (fun q hq => ⟨upd_other hq, rfl, rfl, rfl, rfl, rfl⟩) (fun _ _ _ _ => rfl) (fun _ _ => rfl) ?_,
      ?_, b.can, b.next, ?_, b.word⟩
    · simp only [G.setPool, upd_same]
      obtain ⟨h1, h2, h3, h4⟩ := hb
      refine ⟨h1, by simp only; omega, h3, h4⟩
    · simp only [G.setPool]; rw [adv_pools (by rfl)]; exact b.adv
    · simp only [G.setPool, G.sum]
      have := sum_updN hp (fun q => (g.pools q).max) (fun q => (upd g.pools p { g.pools p with max := (g.pools p).max - bytes } q).max)
        (fun q hq => by rw [upd_ne _ _ hq])
      simp only [upd_same] at this
      have hs := b.sum
      unfold G.sum at hs
      omega
  | resize src dest bytes =>
    simp only [exec, Option.map_eq_some_iff] at he
    obtain ⟨g', he, rfl⟩ := he
    unfold resizePools at he
    split at he
    · simp at he
    rename_i hp
    have hp : src < g.np ∧ dest < g.np := by simpa using hp
    split at he
    · simp at he
    rename_i hby
    simp only [Option.some.injEq] at he; subst he
    have hsum1 := sum_updN hp.1 (fun q => (g.pools q).max) (fun q => (upd g.pools src { g.pools src with max := (g.pools src).max - bytes } q).max)
        (fun q hq => by rw [upd_ne _ _ hq])
    simp only [upd_same] at hsum1
    -- first half: a shrink
    have b1 : B (g.setPool src { g.pools src with max := (g.pools src).max - bytes }) h := by
      have hb := b.pool src
      refine ⟨pool_B (p := src) b (fun q hq => ⟨upd_other hq, rfl, rfl, rfl, rfl, rfl⟩) (fun _ _ _ _ => rfl) (fun _ _ => rfl) ?_,
        ?_, b.can, b.next, ?_, b.word⟩
      · simp only [G.setPool, upd_same]
        obtain ⟨h1, h2, h3, h4⟩ := hb
        refine ⟨h1, by simp only; omega, h3, h4⟩
      · simp only [G.setPool]; rw [adv_pools (by rfl)]; exact b.adv
      · simp only [G.setPool, G.sum]
        have hs := b.sum
        unfold G.sum at hs
        omega
    have hs1 : (g.setPool src { g.pools src with max := (g.pools src).max - bytes }).sum + bytes ≤ g.total * KS := by
      have hs := b.sum
      simp only [G.setPool, G.sum] at hs ⊢
      omega
    generalize hg1 : g.setPool src { g.pools src with max := (g.pools src).max - bytes } = g1 at *
    have hnp : g1.np = g.np := by rw [← hg1]; rfl
    have htot : g1.total = g.total := by rw [← hg1]; rfl
    have hp2 : dest < g1.np := by rw [hnp]; exact hp.2
    have hb := b1.pool dest
    refine ⟨pool_B (p := dest) b1 (fun q hq => ⟨upd_other hq, rfl, rfl, upd_other hq, rfl, rfl⟩) (fun _ _ _ _ => rfl) (fun _ _ => rfl) ?_,
      ?_, b1.can, b1.next, ?_, b1.word⟩
    · simp only [G.setPool, upd_same]
      obtain ⟨h1, h2, h3, h4⟩ := hb
      refine ⟨h1, Nat.le_max_right _ _, ?_, ?_⟩
      · intro hlo
        have := h3 hlo
        exact ⟨this.1, this.2.1, by simp only; omega⟩
      · intro hrc
        have := h4 hrc
        simp only [fetch] at this ⊢
        omega
    · simp only [G.setPool]; rw [adv_pools (by rfl)]; exact b1.adv
    · simp only [G.setPool, G.sum]
      have := sum_updN hp2 (fun q => (g1.pools q).max) (fun q => (upd g1.pools dest { g1.pools dest with max := (g1.pools dest).max + bytes } q).max)
        (fun q hq => by rw [upd_ne _ _ hq])
      simp only [upd_same] at this
      unfold G.sum at hs1
      rw [htot]
      omega

theorem B_init (total : Nat) (h : total * KS < 2 ^ 64) : B (G.init total) Hist.init := by
  refine ⟨?_, by simp [G.init], by simp [G.init], by simp [G.init], by simp [G.init, G.sum], h⟩
  intro q
  refine ⟨by simp [G.init, Hist.init, Pool.zero, clsSlabs, Lk.hand, Lk.need], by simp [G.init, Hist.init, Pool.zero],
    by simp [G.init, Hist.init, Pool.zero], by simp [G.init, Hist.init, Pool.zero, clsSlabs, Lk.hand, Lk.need, fetch]⟩

theorem reach_B {x : St} (h : Reach x) : B x.1 x.2 := by
  induction h with
  | init total h => exact B_init total h
  | step x o y hr he ih =>
    obtain ⟨own, a⟩ := reach_A hr
    exact B_step he a ih

end Verif.MemPool
