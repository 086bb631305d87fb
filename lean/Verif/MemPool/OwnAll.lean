import Verif.MemPool.OwnStep
namespace Verif.MemPool
open Verif AllocClass

theorem moves_cls_tok {g h own p c s' k sl m} (a : A g h own) (hp : p < g.np) (hc : c < (g.pools p).sizes.length)
    (hk : k.slabs = (h.cl p c).slabs.erase sl) (hm : sl ∈ (h.cl p c).slabs) (hn : s'.next = g.next) :
    Moves g h { g.setCls p c s' with toks := .rel p sl m :: g.toks } (h.setCl p c k) (.cls p c) .tok sl := by
  apply MoveSpec.moves
  refine { pf := fun q x => by simp [G.setCls], hd := fun q x => by simp [G.setCls], cl := ?_, fresh := ?_, tok := ?_ }
  · intro q c' x
    simp only [cnt, G.setCls, Hist.setCl]
    by_cases he : q = p ∧ c' = c
    · obtain ⟨rfl, rfl⟩ := he
      rw [upd2_same, hk]
      simp only [hp, hc, and_self, if_true, true_and, reduceCtorEq, false_and, if_false, Nat.add_zero]
      by_cases hx : x = sl
      · subst hx
        have := List.count_pos_iff.2 hm
        rw [List.count_erase_self]; simp; omega
      · rw [List.count_erase_of_ne hx]; simp [hx]
    · rw [upd2_ne he]; simp [he]; rfl
  · intro x; simp [G.setCls, hn]
  · intro x; rw [toks_cons]; simp [Tok.slab, eq_comm]

theorem A_runCls {g h own p c o s' k rel m} (a : A g h own) (hp : p < g.np) (hc : c < (g.pools p).sizes.length)
    (he : runCls (g.cs p c) (h.cl p c) o = some (s', k, rel)) :
    match rel with
    | none => A (g.setCls p c s') (h.setCl p c k) own
    | some sl => A { g.setCls p c s' with toks := .rel p sl m :: g.toks } (h.setCl p c k) (upd own sl .tok) := by
  have f := runCls_frame (a.inv hp hc) he
  have hcall := runCls_call he
  cases rel with
  | none =>
    have hs : k.slabs = (h.cl p c).slabs := f.slabs
    refine A_call (own' := own) a hp hc hcall f.next ?_ (fun x hx => absurd rfl hx) ?_ (fun x h1 h2 => absurd h1 h2) f.pool ?_ rfl
      (fun t ht => Or.inl ht) rfl rfl rfl f.next (fun _ => rfl) (fun _ _ => rfl)
    · intro x; rw [hs]; exact a.mem_cls hp hc
    · intro x hx _
      exact f.hdr x (fun hh => hx ((a.mem_cls hp hc).1 hh))
    · intro O x
      rw [← a.places O x]
      cases O with
      | cls q c' =>
        simp only [cnt, G.setCls, Hist.setCl]
        by_cases he : q = p ∧ c' = c
        · obtain ⟨rfl, rfl⟩ := he
          rw [upd2_same, hs]; rfl
        · rw [upd2_ne he]; rfl
      | fresh =>
        show (if s'.next ≤ x then 1 else 0) = (if g.next ≤ x then 1 else 0)
        rw [f.next]; rfl
      | _ => rfl
  | some sl =>
    have hs : k.slabs = (h.cl p c).slabs.erase sl := f.slabs
    obtain ⟨hm, hr1, hr2⟩ := f.rel sl rfl
    have hmv := moves_cls_tok (m := m) a hp hc hs hm f.next
    obtain ⟨ho, hpl⟩ := own_moves a.places (by simp) hmv
    refine A_call a hp hc hcall f.next ?_ ?_ ?_ ?_ f.pool hpl rfl ?_ rfl rfl rfl f.next (fun _ => rfl) (fun _ _ => rfl)
    · intro x
      rw [hs, (a.inv hp hc).slabsNd.mem_erase_iff, a.mem_cls hp hc]
      by_cases hx : x = sl
      · subst hx; simp
      · rw [upd_ne _ _ hx]; simp [hx]
    · intro x hx
      by_cases h0 : x = sl
      · subst h0; left; exact ⟨ho, by simp⟩
      · rw [upd_ne _ _ h0] at hx; exact absurd rfl hx
    · intro x hx _
      exact f.hdr x (fun hh => hx ((a.mem_cls hp hc).1 hh))
    · intro x hx hx'
      by_cases h0 : x = sl
      · subst h0; exact ⟨hr1, hr2⟩
      · rw [upd_ne _ _ h0] at hx'; exact absurd hx hx'
    · intro t ht
      rcases List.mem_cons.1 ht with rfl | ht
      · right
        refine ⟨hp, ?_⟩
        intro x hx
        simp [Tok.slab] at hx
        subst hx
        exact (a.hdrC ho).1
      · exact Or.inl ht

theorem A.head_hand {g h own p sl l st} (a : A g h own) (hl : (g.pools p).lk = .held (sl :: l) st) : own sl = .hand p := by
  refine own_of_count a ?_
  simp [cnt, hl, Lk.hand]

theorem A.tok_own {g h own t sl} (a : A g h own) (ht : t ∈ g.toks) (hs : t.slab = some sl) : own sl = .tok := by
  refine own_of_count a ?_
  exact List.count_pos_iff.2 (mem_slabs ht hs)

theorem moves_add {g h p c k sl O} {g' : G} (hp : p < g.np) (hc : c < (g.pools p).sizes.length)
    (hk : k.slabs = sl :: (h.cl p c).slabs) (hO : O.isCls = false) (hnp : g'.np = g.np)
    (hsz : ∀ p, (g'.pools p).sizes = (g.pools p).sizes) (q c' x : Nat) :
    cnt g' (h.setCl p c k) (.cls q c') x + (if Owner.cls q c' = O ∧ x = sl then 1 else 0) =
    cnt g h (.cls q c') x + (if Owner.cls q c' = Owner.cls p c ∧ x = sl then 1 else 0) := by
  have e1 : Owner.cls q c' ≠ O := by rintro rfl; simp [Owner.isCls] at hO
  simp only [cnt, Hist.setCl, hnp, hsz]
  by_cases he : q = p ∧ c' = c
  · obtain ⟨rfl, rfl⟩ := he
    rw [upd2_same, hk, count_cons']
    simp [hp, hc, e1]
  · rw [upd2_ne he]; simp [he, e1]

theorem A_release {g h own p sl m ok x} (a : A g h own) (ht : Tok.rel p sl m ∈ g.toks)
    (he : releaseSlab g h p sl m ok = some x) : ∃ own', A x.1 x.2 own' := by
  have hp : p < g.np := a.toks _ ht
  have ho : own sl = .tok := a.tok_own ht rfl
  have hN := a.hdrN sl (by rw [ho]; rfl)
  have hpl : (g.hdr sl).pool = p := a.hdrT _ ht sl rfl
  have hte : ∀ y, ((g.toks.erase (.rel p sl m)).filterMap Tok.slab).count y + (if y = sl then 1 else 0) =
      (g.toks.filterMap Tok.slab).count y := by
    intro y; rw [toks_erase ht y]; simp [Tok.slab, eq_comm]
  have hdec : ∀ t ∈ (Tok.dec p :: g.toks.erase (.rel p sl m)), t ∈ g.toks ∨ (t.pool < g.np ∧ ∀ y, t.slab = some y → y = sl ∧ False) := by
    intro t h1
    rcases List.mem_cons.1 h1 with rfl | h1
    · right; exact ⟨hp, by simp [Tok.slab]⟩
    · left; exact List.mem_of_mem_erase h1
  have hpush : ∃ own', A { g.setPool p { g.pools p with free := (g.pools p).free ++ [sl] } with
      toks := .dec p :: g.toks.erase (.rel p sl m) } h own' := by
    refine ⟨upd own sl (.pfree p), A_move (O1 := .tok) a (by simp) (MoveSpec.moves ?_) rfl rfl (fun _ _ => rfl) hN ?_ ?_ rfl rfl rfl (Nat.le_refl _)
      (pools_upd_sizes rfl) (fun q hq => pools_upd_ge hp q hq)⟩
    · refine { pf := ?_, hd := ?_, cl := cl_same rfl rfl (pools_upd_sizes rfl) rfl rfl, tok := ?_ }
      · exact pf_gen (fun x => by simp [count_one]) (by simp) (by simp)
      · exact hd_gen (fun x => by simp) (by simp) (by simp)
      · intro y; rw [toks_cons]; simp [Tok.slab, ← hte y]
    · intro q hq; simp at hq; subst hq; exact hpl
    · intro t h1
      rcases hdec t h1 with h2 | h2
      · exact Or.inl h2
      · exact Or.inr ⟨h2.1, fun y hy => (h2.2 y hy).2.elim⟩
  unfold releaseSlab at he
  dsimp only at he
  split at he
  · -- resize
    simp only [Option.some.injEq] at he; subst he
    refine ⟨upd own sl .sa, A_move (O1 := .tok) a (by simp) (MoveSpec.moves ?_) rfl rfl (fun x hx => upd_ne _ _ hx) ?_ ?_ ?_ rfl rfl rfl (Nat.le_refl _)
      (fun _ => rfl) (fun q hq => rfl)⟩
    · refine { pf := fun q x => by simp [freeSlab], hd := fun q x => by simp [freeSlab], cl := cl_same rfl rfl (fun _ => rfl) rfl rfl, sa := ?_, tok := ?_ }
      · intro y; simp [freeSlab, count_one]
      · intro y; rw [toks_cons]; simp [Tok.slab, ← hte y, freeSlab]
    · simp [freeSlab, Hdr.reset, hN.2]
    · intro q hq; simp at hq
    · intro t h1
      rcases hdec t h1 with h2 | h2
      · exact Or.inl h2
      · exact Or.inr ⟨h2.1, fun y hy => (h2.2 y hy).2.elim⟩
  · split at he
    · simp only [Option.some.injEq] at he; subst he
      refine ⟨upd own sl .adv, A_move (O1 := .tok) a (by simp) (MoveSpec.moves ?_) rfl rfl (fun x hx => upd_ne _ _ hx) ?_ ?_ ?_ rfl rfl rfl (Nat.le_refl _)
        (fun _ => rfl) (fun q hq => rfl)⟩
      · refine { pf := fun q x => by simp [adviseSlab], hd := fun q x => by simp [adviseSlab], cl := cl_same rfl rfl (fun _ => rfl) rfl rfl, adv := ?_, tok := ?_ }
        · intro y; simp [adviseSlab, count_one]
        · intro y; rw [toks_cons]; simp [Tok.slab, ← hte y, adviseSlab]
      · simp [adviseSlab, Hdr.reset, hN.2]
      · intro q hq; simp at hq
      · intro t h1
        rcases List.mem_cons.1 h1 with rfl | h1
        · right; exact ⟨hp, by simp [Tok.slab]⟩
        · left; exact List.mem_of_mem_erase h1
    · split at he
      · simp only [Option.some.injEq] at he; subst he
        exact hpush
      · simp at he
  · rename_i c
    split at he
    · rename_i hc
      simp only [Option.some.injEq] at he; subst he
      have hi := a.inv hp hc
      refine ⟨upd own sl (.cls p c), A_add (O := .tok) a hp hc rfl
        (addSlab_call a hp hc (by rw [ho]; rfl) (by rw [ho]; simp) hpl) rfl ?_ rfl (MoveSpec.moves ?_) rfl ?_ rfl rfl rfl rfl (fun _ => rfl) (fun _ _ => rfl)⟩
      · simp only [addSlab, hi.hcls, hi.hsize]; rfl
      · refine { pf := fun q x => by simp [G.setCls], hd := fun q x => by simp [G.setCls], cl := ?_, tok := ?_ }
        · intro q c' x
          exact moves_add hp hc rfl rfl rfl (fun _ => rfl) q c' x
        · intro y; simp [← hte y]
      · intro t h1; exact List.mem_of_mem_erase h1
    · simp only [Option.some.injEq] at he; subst he
      refine ⟨upd own sl .lost, A_move (O1 := .tok) a (by simp) (MoveSpec.moves ?_) rfl rfl (fun x hx => rfl) hN ?_ ?_ rfl rfl rfl (Nat.le_refl _)
        (fun _ => rfl) (fun q hq => rfl)⟩
      · refine { pf := fun q x => by simp, hd := fun q x => by simp, cl := cl_same rfl rfl (fun _ => rfl) rfl rfl, tok := ?_, lost := ?_ }
        · intro y; simp [← hte y]
        · intro y; simp only [List.map_cons]; rw [count_cons']; simp
      · intro q hq; simp at hq
      · intro t h1; left; exact List.mem_of_mem_erase h1
  · split at he
    · simp only [Option.some.injEq] at he; subst he
      exact hpush
    · simp at he

theorem sizesOK_get {l : List Nat} (h : sizesOK l = true) {c : Nat} (hc : c < l.length) : 64 ≤ l.getD c 0 ∧ l.getD c 0 ≤ KS := by
  simp only [sizesOK, Bool.and_eq_true, List.all_eq_true, decide_eq_true_eq] at h
  have := h.1.2 l[c] (List.getElem_mem hc)
  simpa [hc] using this

theorem A_create {g h own size sizes g'} (a : A g h own) (he : createPool g size sizes = some g') (pk : Nat → Nat) :
    A g' { h with peak := pk } own := by
  unfold createPool at he
  split at he
  · simp at he
  split at he
  · simp at he
  split at he
  · simp at he
  rename_i hs
  simp only [Option.some.injEq] at he; subst he
  have hs' : sizesOK sizes = true := by simpa using hs
  have hne : ∀ q, q < g.np → q ≠ g.np := fun q hq => by omega
  refine ⟨?_, a.hdrN, a.hdrP, a.hdrT, ?_, ?_, ?_, ?_, ?_⟩
  · intro O x
    rw [← a.places O x]
    cases O with
    | pfree q =>
      simp only [cnt]
      by_cases hq : q = g.np
      · subst hq; rw [upd_same, a.pools _ (Nat.le_refl _)]; rfl
      · rw [upd_ne _ _ hq]
    | hand q =>
      simp only [cnt]
      by_cases hq : q = g.np
      · subst hq; rw [upd_same, a.pools _ (Nat.le_refl _)]; rfl
      · rw [upd_ne _ _ hq]
    | cls q c =>
      simp only [cnt]
      by_cases hq : q = g.np
      · subst hq
        rw [a.cls _ _ (Nat.le_refl _)]; simp
      · rw [upd_ne _ _ hq]
        refine if_congr ?_ rfl rfl
        have : q < g.np + 1 ↔ q < g.np := by omega
        rw [this]
    | _ => rfl
  · intro t ht; exact Nat.lt_succ_of_lt (a.toks t ht)
  · intro p c hp hc
    by_cases hq : p = g.np
    · subst hq
      simp only [upd_same] at hc ⊢
      have hz := sizesOK_get hs' hc
      simp only [G.cs, upd_same]
      rw [a.cls _ _ (Nat.le_refl _)]
      refine AllocClass.Reach.init g.hdr g.next (by omega) (by omega) hz.2 ?_
      intro x
      rintro ⟨e1, e2⟩
      cases hb : (own x).isCls with
      | false => rw [(a.hdrN x hb).1] at e1; omega
      | true =>
        cases ho : own x with
        | cls p' c' =>
          have := (a.hdrC ho).1
          have := (a.cls_bound ho).1
          omega
        | _ => rw [ho] at hb; simp [Owner.isCls] at hb
    · have hp' : p < g.np := by simp only at hp; omega
      simp only [upd_ne _ _ hq] at hc ⊢
      simp only [G.cs, upd_ne _ _ hq]
      exact a.reach p c hp' hc
  · intro p hp
    by_cases hq : p = g.np
    · subst hq; simpa using hs'
    · simp only [upd_ne _ _ hq]
      exact a.sizes p (by simp only at hp; omega)
  · intro p hp
    simp only at hp
    simp only [upd_ne g.pools _ (show p ≠ g.np by omega)]
    exact a.pools p (by omega)
  · intro p c hp
    simp only at hp
    exact a.cls p c (by omega)

theorem mem_cons_or {g : G} {own h} (a : A g h own) {p : Nat} {t0 t1 : Tok} (h0 : t0 ∈ g.toks) (h1 : t1.pool = p) (h2 : t0.pool = p) (h3 : t1.slab = none) :
    ∀ t ∈ t1 :: g.toks.erase t0, t ∈ g.toks ∨ (t.pool < g.np ∧ t.slab = none) := by
  intro t ht
  rcases List.mem_cons.1 ht with rfl | ht
  · right; exact ⟨by rw [h1, ← h2]; exact a.toks t0 h0, h3⟩
  · left; exact List.mem_of_mem_erase ht

/-- Every step keeps it. -/
theorem A_step {x y : St} {o : Op} (he : exec x o = some y) (hx : ∃ own, A x.1 x.2 own) : ∃ own, A y.1 y.2 own := by
  obtain ⟨own, a⟩ := hx
  obtain ⟨g, h⟩ := x
  simp only at a
  cases o with
  | cls p c o m =>
    simp only [exec] at he
    split at he
    · rename_i hpc
      split at he
      · rename_i s k hr
        simp only [Option.some.injEq] at he; subst he
        exact ⟨own, A_runCls (m := m) a hpc.1 hpc.2 hr⟩
      · rename_i s k sl hr
        simp only [Option.some.injEq] at he; subst he
        exact ⟨_, A_runCls (m := m) a hpc.1 hpc.2 hr⟩
      · simp at he
    · simp at he
  | lock p =>
    simp only [exec] at he
    split at he
    · rename_i hpc
      simp only [Option.some.injEq] at he; subst he
      exact ⟨own, A_pool (toks := g.toks) a hpc.1 rfl (by simp [hpc.2, Lk.hand]) rfl rfl (fun _ => rfl) (fun t ht => Or.inl ht)⟩
    · simp at he
  | unlock p =>
    simp only [exec] at he
    split at he
    · rename_i hl
      simp only [Option.some.injEq] at he; subst he
      exact ⟨own, A_pool (toks := g.toks) a (a.lk_lt (by rw [hl]; simp)) rfl (by simp [hl, Lk.hand]) rfl rfl (fun _ => rfl) (fun t ht => Or.inl ht)⟩
    · simp at he
  | readAdv p =>
    simp only [exec] at he
    split at he
    · rename_i l hl
      have hl := handReady_eq hl
      simp only [Option.some.injEq] at he; subst he
      exact ⟨own, A_pool (toks := g.toks) a (a.lk_lt (by rw [hl]; simp)) rfl (by simp [hl, Lk.hand]) rfl rfl (fun _ => rfl) (fun t ht => Or.inl ht)⟩
    · simp at he
  | check p =>
    simp only [exec] at he
    split at he
    · rename_i l b hl
      have hl := advRead_eq hl
      split at he
      · simp only [Option.some.injEq] at he; subst he
        exact ⟨own, A_pool (toks := g.toks) a (a.lk_lt (by rw [hl]; simp)) rfl (by simp [hl, Lk.hand]) rfl rfl (fun _ => rfl) (fun t ht => Or.inl ht)⟩
      · simp only [Option.some.injEq] at he; subst he
        exact ⟨own, A_pool (toks := g.toks) a (a.lk_lt (by rw [hl]; simp)) rfl (by simp [hl, Lk.hand]) rfl rfl (fun _ => rfl) (fun t ht => Or.inl ht)⟩
    · simp at he
  | take p flag =>
    simp only [exec] at he
    split at he
    · rename_i l hl
      rw [Option.map_eq_some_iff] at he
      obtain ⟨g', he, rfl⟩ := he
      exact takeSlab_A a (needs_eq hl) he
    · simp at he
  | add p c =>
    simp only [exec] at he
    split at he
    · rename_i sl l hl
      have hl := handReady_eq hl
      split at he
      · rename_i hc
        simp only [Option.some.injEq] at he; subst he
        have hp := a.lk_lt (p := p) (by rw [hl]; simp)
        have ho := a.head_hand hl
        have hi := a.inv hp hc
        refine ⟨upd own sl (.cls p c), A_add (O := .hand p) a hp hc rfl
          (addSlab_call a hp hc (by rw [ho]; rfl) (by rw [ho]; simp) (a.hdrP sl p (Or.inr ho))) rfl ?_ rfl (MoveSpec.moves ?_) rfl
          (fun t ht => ht) rfl rfl rfl rfl (pools_upd_sizes (f := g.pools) rfl) (fun q hq => pools_upd_ge hp q hq)⟩
        · simp only [addSlab, hi.hcls, hi.hsize]; rfl
        · refine { pf := ?_, hd := ?_, cl := ?_ }
          · exact pf_gen (f := g.pools) (fun x => by simp) (by simp) (by simp)
          · exact hd_gen (f := g.pools) (fun x => by simp only [hl, Lk.hand]; rw [count_cons']; simp) (by simp) (by simp)
          · intro q c' x
            refine moves_add (O := .hand p) hp hc ?_ ?_ ?_ ?_ q c' x
            all_goals first | rfl | exact fun q => pools_upd_sizes (f := g.pools) (p := p) (x := { g.pools p with lk := .held l .ready }) rfl q
      · simp at he
    · simp at he
  | addAlloc p c =>
    simp only [exec] at he
    split at he
    · rename_i sl l hl
      have hl := handReady_eq hl
      split at he
      · rename_i hc
        split at he
        · rename_i ac r hal
          simp only [Option.some.injEq] at he; subst he
          have hp := a.lk_lt (p := p) (by rw [hl]; simp)
          have ho := a.head_hand hl
          have hi := a.inv hp hc
          have hcall : Call (g.cs p c, h.cl p c) ({ addSlab (g.cs p c) sl with ac := ac },
              { h.cl p c with slabs := sl :: (h.cl p c).slabs, live := r.toList ++ (h.cl p c).live }) := by
            · refine Call.addAlloc _ _ _ _ _ ?_ ?_ ?_ ?_ hal
              · intro hx
                rw [(a.mem_cls hp hc).1 hx] at ho; simp at ho
              · have := a.places .fresh sl
                simp only [cnt, ho, reduceCtorEq, if_false] at this
                show sl < g.next
                split at this <;> omega
              · rw [hi.hpool]; exact a.hdrP sl p (Or.inr ho)
              · exact (a.hdrN sl (by rw [ho]; rfl)).2
          refine ⟨upd own sl (.cls p c), A_add (O := .hand p) a hp hc rfl hcall rfl ?_ rfl (MoveSpec.moves ?_) rfl
            (fun t ht => ht) rfl rfl rfl rfl (pools_upd_sizes (f := g.pools) rfl) (fun q hq => pools_upd_ge hp q hq)⟩
          · simp only [addSlab, hi.hcls, hi.hsize]; rfl
          · refine { pf := ?_, hd := ?_, cl := ?_ }
            · exact pf_gen (f := g.pools) (fun x => by simp) (by simp) (by simp)
            · exact hd_gen (f := g.pools) (fun x => by simp only [hl, Lk.hand]; rw [count_cons']; simp) (by simp) (by simp)
            · intro q c' x
              refine moves_add (O := .hand p) hp hc ?_ ?_ ?_ ?_ q c' x
              all_goals first | rfl | exact fun q => pools_upd_sizes (f := g.pools) (p := p) (x := { g.pools p with lk := .held l .ready }) rfl q
        · simp at he
      · simp at he
    · simp at he
  | giveBack p =>
    simp only [exec] at he
    split at he
    · rename_i sl l hl
      have hl := handReady_eq hl
      simp only [Option.some.injEq] at he; subst he
      have hp := a.lk_lt (p := p) (by rw [hl]; simp)
      have ho := a.head_hand hl
      have hN := a.hdrN sl (by rw [ho]; rfl)
      refine ⟨upd own sl .sa, A_move (O1 := .hand p) a (by simp) (MoveSpec.moves ?_) rfl rfl (fun x hx => upd_ne _ _ hx) ?_ ?_ (fun t ht => Or.inl ht) rfl rfl rfl (Nat.le_refl _)
        (pools_upd_sizes (f := g.pools) rfl) (fun q hq => pools_upd_ge hp q hq)⟩
      · refine { pf := ?_, hd := ?_, cl := cl_same rfl rfl (pools_upd_sizes (f := g.pools) rfl) rfl rfl, sa := ?_ }
        · exact pf_gen (f := g.pools) (fun x => by simp) (by simp) (by simp)
        · exact hd_gen (f := g.pools) (fun x => by simp only [hl, Lk.hand]; rw [count_cons']; simp) (by simp) (by simp)
        · intro y; simp [freeSlab, G.setPool, count_one]
      · simp [freeSlab, G.setPool, Hdr.reset, hN.2]
      · intro q hq; simp at hq
    · simp at he
  | takeOff p =>
    simp only [exec] at he
    split at he
    · rename_i hpc
      split at he
      · rename_i sl hsl
        simp only [Option.some.injEq] at he; subst he
        have ho : own sl = .pfree p := by
          refine own_of_count a ?_
          simp only [cnt]
          rw [count_last hsl]; simp
        refine ⟨upd own sl .tok, A_move (O1 := .pfree p) a (by simp) (MoveSpec.moves ?_) rfl rfl (fun x hx => rfl)
          (a.hdrN sl (by rw [ho]; rfl)) ?_ ?_ rfl rfl rfl (Nat.le_refl _)
          (pools_upd_sizes rfl) (fun q hq => pools_upd_ge hpc.1 q hq)⟩
        · refine { pf := ?_, hd := ?_, cl := cl_same rfl rfl (pools_upd_sizes rfl) rfl rfl, tok := ?_ }
          · exact pf_gen (fun x => by simp [count_last hsl x]) (by simp) (by simp)
          · exact hd_gen (fun x => by simp) (by simp) (by simp)
          · intro y; rw [toks_cons]; simp [Tok.slab, eq_comm]
        · intro q hq; simp at hq
        · intro t ht
          rcases List.mem_cons.1 ht with rfl | ht
          · right
            refine ⟨hpc.1, fun y hy => ?_⟩
            simp [Tok.slab] at hy
            subst hy
            exact ⟨rfl, a.hdrP sl p (Or.inl ho)⟩
          · exact Or.inl ht
      · simp at he
    · simp at he
  | release p sl m ok =>
    simp only [exec] at he
    split at he
    · rename_i ht
      exact A_release a ht he
    · simp at he
  | advInc p =>
    simp only [exec] at he
    split at he
    · rename_i ht
      simp only [Option.some.injEq] at he; subst he
      refine ⟨own, A_pool a (a.toks _ ht) rfl rfl rfl rfl ?_ (mem_cons_or a ht rfl rfl rfl)⟩
      intro y; rw [toks_cons, toks_erase ht y]; simp [Tok.slab]
    · simp at he
  | decr p =>
    simp only [exec] at he
    split at he
    · rename_i ht
      simp only [Option.some.injEq] at he; subst he
      refine ⟨own, A_pool a (a.toks _ ht) rfl rfl rfl rfl ?_ (fun t h1 => Or.inl (List.mem_of_mem_erase h1))⟩
      intro y; rw [toks_erase ht y]; simp [Tok.slab]
    · simp at he
  | reclaim p =>
    simp only [exec] at he
    split at he
    · rename_i hp
      unfold reclaimSlab at he
      split at he
      · rename_i g1 sl hr
        split at hr
        · simp at hr
        rename_i sl' hsl
        simp only [Prod.mk.injEq, Option.some.injEq] at hr
        obtain ⟨rfl, rfl⟩ := hr
        simp only [Option.some.injEq] at he; subst he
        refine ⟨upd own sl' .tok, A_move (O1 := .adv) a (by simp) (MoveSpec.moves ?_) rfl rfl (fun x hx => upd_ne _ _ hx)
          ?_ ?_ ?_ rfl rfl rfl (Nat.le_refl _) (fun _ => rfl) (fun q hq => rfl)⟩
        · refine { pf := fun q x => by simp, hd := fun q x => by simp, cl := cl_same rfl rfl (fun _ => rfl) rfl rfl, adv := ?_, tok := ?_ }
          · intro y; simp [count_last hsl y]
          · intro y; rw [toks_cons]; simp [Tok.slab, eq_comm]
        · simp [Hdr.init]
        · intro q hq; simp at hq
        · intro t ht
          rcases List.mem_cons.1 ht with rfl | ht
          · right
            refine ⟨hp, fun y hy => ?_⟩
            simp [Tok.slab] at hy
            subst hy
            exact ⟨rfl, by simp [Hdr.init, Tok.pool]⟩
          · exact Or.inl ht
      · simp at he
    · simp at he
  | reclaimed p sl =>
    simp only [exec] at he
    split at he
    · rename_i hpc
      simp only [Option.some.injEq] at he; subst he
      have hp : p < g.np := a.toks _ hpc.1
      have ho : own sl = .tok := a.tok_own hpc.1 rfl
      refine ⟨upd own sl (.pfree p), A_move (O1 := .tok) a (by simp) (MoveSpec.moves ?_) rfl rfl (fun x hx => rfl)
          (a.hdrN sl (by rw [ho]; rfl)) ?_ (fun t h1 => Or.inl (List.mem_of_mem_erase h1)) rfl rfl rfl (Nat.le_refl _)
          (pools_upd_sizes rfl) (fun q hq => pools_upd_ge hp q hq)⟩
      · refine { pf := ?_, hd := ?_, cl := cl_same rfl rfl (pools_upd_sizes rfl) rfl rfl, tok := ?_ }
        · exact pf_gen (fun x => by simp [count_one]) (by simp) (by simp)
        · exact hd_gen (fun x => by simp) (by simp) (by simp)
        · intro y; rw [toks_erase hpc.1 y]; simp [Tok.slab, eq_comm]
      · intro q hq; simp at hq; subst hq; exact a.hdrT _ hpc.1 sl rfl
    · simp at he
  | create size sizes =>
    simp only [exec, Option.map_eq_some_iff] at he
    obtain ⟨g', he, rfl⟩ := he
    exact ⟨own, A_create a he _⟩
  | grow p bytes =>
    simp only [exec, Option.map_eq_some_iff] at he
    obtain ⟨g', he, rfl⟩ := he
    unfold growPool at he
    split at he
    · simp at he
    rename_i hp
    split at he
    · simp at he
    simp only [Option.some.injEq] at he; subst he
    exact ⟨own, A_pool (toks := g.toks) a (by simpa using hp) rfl rfl rfl rfl (fun _ => rfl) (fun t ht => Or.inl ht)⟩
  | shrink p bytes =>
    simp only [exec, Option.map_eq_some_iff] at he
    obtain ⟨g', he, rfl⟩ := he
    unfold shrinkPool at he
    split at he
    · simp at he
    rename_i hp
    split at he
    · simp at he
    simp only [Option.some.injEq] at he; subst he
    exact ⟨own, A_pool (toks := g.toks) a (by simpa using hp) rfl rfl rfl rfl (fun _ => rfl) (fun t ht => Or.inl ht)⟩
  | resize src dest bytes =>
    simp only [exec, Option.map_eq_some_iff] at he
    obtain ⟨g', he, rfl⟩ := he
    unfold resizePools at he
    split at he
    · simp at he
    rename_i hp
    have hp : src < g.np ∧ dest < g.np := by simpa using hp
    split at he
    · simp at he
    simp only [Option.some.injEq] at he; subst he
    have a1 := A_pool (toks := g.toks) (h' := h) (x := { g.pools src with max := (g.pools src).max - bytes }) a hp.1 rfl rfl rfl rfl (fun _ => rfl) (fun t ht => Or.inl ht)
    exact ⟨own, A_pool (toks := g.toks) a1 hp.2 rfl rfl rfl rfl (fun _ => rfl) (fun t ht => Or.inl ht)⟩

theorem A_init (total : Nat) : A (G.init total) Hist.init fun _ => .fresh := by
  refine ⟨?_, ?_, ?_, ?_, ?_, ?_, ?_, ?_, ?_⟩
  · intro O x
    cases O <;> simp [cnt, G.init, Hist.init, Pool.zero, Lk.hand]
  all_goals simp [G.init, Hist.init]

theorem reach_A {x : St} (h : Reach x) : ∃ own, A x.1 x.2 own := by
  induction h with
  | init total _ => exact ⟨_, A_init total⟩
  | step x o y _ he ih => exact A_step he ih

end Verif.MemPool
