import Verif.MemPool.Inv
/-
Every step keeps the ownership invariant.
-/
namespace Verif.MemPool
open Verif AllocClass

theorem count_push (l : List Nat) (sl x : Nat) : (l ++ [sl]).count x = l.count x + if x = sl then 1 else 0 := by
  rw [List.count_append, List.count_singleton]
  by_cases h : x = sl
  · subst h; simp
  · simp [h, Ne.symm h]

theorem count_one (sl x : Nat) : [sl].count x = if x = sl then 1 else 0 := by
  have := count_push [] sl x; simpa using this

theorem count_last {l : List Nat} {sl : Nat} (h : l.getLast? = some sl) (x : Nat) :
    l.count x = l.dropLast.count x + if x = sl then 1 else 0 := by
  obtain ⟨ys, rfl⟩ := List.getLast?_eq_some_iff.1 h
  rw [count_push, List.dropLast_concat]

theorem count_cons' (l : List Nat) (sl x : Nat) : (sl :: l).count x = l.count x + if x = sl then 1 else 0 := by
  rw [List.count_cons]
  by_cases h : x = sl
  · subst h; simp
  · simp [h, Ne.symm h]

theorem toks_erase {l : List Tok} {t : Tok} (h : t ∈ l) (x : Nat) :
    (l.filterMap Tok.slab).count x = ((l.erase t).filterMap Tok.slab).count x + if t.slab = some x then 1 else 0 := by
  have := ((List.perm_cons_erase h).filterMap Tok.slab).count_eq x
  rw [this, List.filterMap_cons]
  cases ht : t.slab with
  | none => simp
  | some y => simp [List.count_cons]

theorem toks_cons (l : List Tok) (t : Tok) (x : Nat) :
    ((t :: l).filterMap Tok.slab).count x = (l.filterMap Tok.slab).count x + if t.slab = some x then 1 else 0 := by
  rw [List.filterMap_cons]
  cases ht : t.slab with
  | none => simp
  | some y => simp [List.count_cons]

theorem pools_upd_sizes {f : Nat → Pool} {p : Nat} {x : Pool} (h : x.sizes = (f p).sizes) (q : Nat) : (upd f p x q).sizes = (f q).sizes := by
  by_cases hq : q = p
  · subst hq; simp [h]
  · rw [upd_ne _ _ hq]

theorem pools_upd_ge {f : Nat → Pool} {p n : Nat} {x : Pool} (h : p < n) (q : Nat) (hq : n ≤ q) : upd f p x q = f q :=
  upd_ne _ _ (by omega)

/-- a pool whose lock is held exists -/
theorem A.lk_lt {g h own p} (a : A g h own) (hl : (g.pools p).lk ≠ .idle) : p < g.np := by
  by_contra hn
  rw [a.pools p (by omega)] at hl
  exact hl rfl

theorem handReady_eq {x : Pool} {l} (h : x.handReady = some l) : x.lk = .held l .ready := by
  unfold Pool.handReady at h; split at h <;> simp_all

theorem advRead_eq {x : Pool} {l a} (h : x.advRead = some (l, a)) : x.lk = .held l (.read a) := by
  unfold Pool.advRead at h; split at h <;> simp_all

theorem needs_eq {x : Pool} {l} (h : x.needs = some l) : x.lk = .held l .need := by
  unfold Pool.needs at h; split at h <;> simp_all

/-- a pool changes but neither its lists nor its hand -/
theorem A_pool {g h own p x toks} {h' : Hist} (a : A g h own) (hp : p < g.np) (h1 : x.free = (g.pools p).free)
    (h2 : x.lk.hand = (g.pools p).lk.hand) (h3 : x.sizes = (g.pools p).sizes) (hcl : h'.cl = h.cl)
    (ht : ∀ y, (toks.filterMap Tok.slab).count y = (g.toks.filterMap Tok.slab).count y)
    (ht' : ∀ t ∈ toks, t ∈ g.toks ∨ (t.pool < g.np ∧ t.slab = none)) :
    A { g.setPool p x with toks := toks } h' own := by
  refine A_same a ?_ rfl ht' rfl rfl hcl rfl (pools_upd_sizes h3) (fun q hq => pools_upd_ge hp q hq)
  intro O y
  cases O with
  | pfree q =>
    simp only [cnt, G.setPool]
    by_cases hq : q = p
    · subst hq; simp [h1]
    · rw [upd_ne _ _ hq]
  | hand q =>
    simp only [cnt, G.setPool]
    by_cases hq : q = p
    · subst hq; simp [h2]
    · rw [upd_ne _ _ hq]
  | cls q c =>
    simp only [cnt, G.setPool, hcl]
    rw [pools_upd_sizes h3]
  | tok => exact ht y
  | _ => rfl

theorem own_of_count {g h own O x} (a : A g h own) (hx : 0 < cnt g h O x) : own x = O := by
  rw [a.places] at hx
  by_contra hn
  rw [if_neg hn] at hx
  omega

/-- the slab moves if each container says so -/
structure MoveSpec (g : G) (h : Hist) (g' : G) (h' : Hist) (O1 O2 : Owner) (sl : Nat) : Prop where
  pf : ∀ q x, (g'.pools q).free.count x + (if Owner.pfree q = O1 ∧ x = sl then 1 else 0) =
    (g.pools q).free.count x + (if Owner.pfree q = O2 ∧ x = sl then 1 else 0)
  hd : ∀ q x, (g'.pools q).lk.hand.count x + (if Owner.hand q = O1 ∧ x = sl then 1 else 0) =
    (g.pools q).lk.hand.count x + (if Owner.hand q = O2 ∧ x = sl then 1 else 0)
  cl : ∀ q c x, cnt g' h' (.cls q c) x + (if Owner.cls q c = O1 ∧ x = sl then 1 else 0) =
    cnt g h (.cls q c) x + (if Owner.cls q c = O2 ∧ x = sl then 1 else 0)
  fresh : ∀ x, (if g'.next ≤ x then 1 else 0) + (if Owner.fresh = O1 ∧ x = sl then 1 else 0) =
    (if g.next ≤ x then 1 else 0) + (if Owner.fresh = O2 ∧ x = sl then 1 else 0) := by intro x; rfl
  sa : ∀ x, g'.saFree.count x + (if Owner.sa = O1 ∧ x = sl then 1 else 0) =
    g.saFree.count x + (if Owner.sa = O2 ∧ x = sl then 1 else 0) := by intro x; rfl
  adv : ∀ x, g'.saAdv.count x + (if Owner.adv = O1 ∧ x = sl then 1 else 0) =
    g.saAdv.count x + (if Owner.adv = O2 ∧ x = sl then 1 else 0) := by intro x; rfl
  tok : ∀ x, (g'.toks.filterMap Tok.slab).count x + (if Owner.tok = O1 ∧ x = sl then 1 else 0) =
    (g.toks.filterMap Tok.slab).count x + (if Owner.tok = O2 ∧ x = sl then 1 else 0) := by intro x; rfl
  lost : ∀ x, (g'.lost.map Prod.snd).count x + (if Owner.lost = O1 ∧ x = sl then 1 else 0) =
    (g.lost.map Prod.snd).count x + (if Owner.lost = O2 ∧ x = sl then 1 else 0) := by intro x; rfl

theorem MoveSpec.moves {g h g' h' O1 O2 sl} (m : MoveSpec g h g' h' O1 O2 sl) : Moves g h g' h' O1 O2 sl := by
  intro O x
  cases O with
  | pfree q => exact m.pf q x
  | hand q => exact m.hd q x
  | cls q c => exact m.cl q c x
  | fresh => exact m.fresh x
  | sa => exact m.sa x
  | adv => exact m.adv x
  | tok => exact m.tok x
  | lost => exact m.lost x

theorem pf_gen {f : Nat → Pool} {p : Nat} {y : Pool} {O1 O2 : Owner} {sl : Nat}
    (h : ∀ x, y.free.count x + (if Owner.pfree p = O1 ∧ x = sl then 1 else 0) =
      (f p).free.count x + (if Owner.pfree p = O2 ∧ x = sl then 1 else 0))
    (h1 : ∀ q, q ≠ p → Owner.pfree q ≠ O1) (h2 : ∀ q, q ≠ p → Owner.pfree q ≠ O2) (q x : Nat) :
    (upd f p y q).free.count x + (if Owner.pfree q = O1 ∧ x = sl then 1 else 0) =
      (f q).free.count x + (if Owner.pfree q = O2 ∧ x = sl then 1 else 0) := by
  by_cases hq : q = p
  · subst hq; rw [upd_same]; exact h x
  · rw [upd_ne _ _ hq]; simp [h1 q hq, h2 q hq]

theorem hd_gen {f : Nat → Pool} {p : Nat} {y : Pool} {O1 O2 : Owner} {sl : Nat}
    (h : ∀ x, y.lk.hand.count x + (if Owner.hand p = O1 ∧ x = sl then 1 else 0) =
      (f p).lk.hand.count x + (if Owner.hand p = O2 ∧ x = sl then 1 else 0))
    (h1 : ∀ q, q ≠ p → Owner.hand q ≠ O1) (h2 : ∀ q, q ≠ p → Owner.hand q ≠ O2) (q x : Nat) :
    (upd f p y q).lk.hand.count x + (if Owner.hand q = O1 ∧ x = sl then 1 else 0) =
      (f q).lk.hand.count x + (if Owner.hand q = O2 ∧ x = sl then 1 else 0) := by
  by_cases hq : q = p
  · subst hq; rw [upd_same]; exact h x
  · rw [upd_ne _ _ hq]; simp [h1 q hq, h2 q hq]

theorem cl_same {g : G} {h : Hist} {g' : G} {h' : Hist} {O1 O2 : Owner} {sl : Nat} (hcl : h'.cl = h.cl) (hnp : g'.np = g.np)
    (hsz : ∀ p, (g'.pools p).sizes = (g.pools p).sizes) (h1 : O1.isCls = false) (h2 : O2.isCls = false) (q c x : Nat) :
    cnt g' h' (.cls q c) x + (if Owner.cls q c = O1 ∧ x = sl then 1 else 0) =
    cnt g h (.cls q c) x + (if Owner.cls q c = O2 ∧ x = sl then 1 else 0) := by
  have e1 : Owner.cls q c ≠ O1 := by rintro rfl; simp [Owner.isCls] at h1
  have e2 : Owner.cls q c ≠ O2 := by rintro rfl; simp [Owner.isCls] at h2
  simp [cnt, hcl, hnp, hsz, e1, e2]

theorem makeNewSlab_A {g h own p l} (a : A g h own) (hp : p < g.np) (hl : (g.pools p).lk = .held l .need) {g' o}
    (he : makeNewSlab g p = (g', o)) {n : Int} :
    ∃ own', A (g'.setPool p { g.pools p with cur := n, lk := .held (l ++ o.toList) .ready }) h own' := by
  unfold makeNewSlab at he
  split at he
  · rename_i sl hsl
    simp only [Prod.mk.injEq] at he
    obtain ⟨rfl, rfl⟩ := he
    refine ⟨upd own sl (.hand p), A_move (O1 := .sa) a (by simp) (MoveSpec.moves ?_) rfl rfl ?_ ?_ ?_ ?_ rfl rfl rfl (Nat.le_refl _)
      (pools_upd_sizes rfl) (fun q hq => pools_upd_ge hp q hq)⟩
    · refine { pf := ?_, hd := ?_, cl := cl_same rfl rfl (pools_upd_sizes rfl) rfl rfl, sa := ?_ }
      · exact pf_gen (fun _ => by simp) (by simp) (by simp)
      · exact hd_gen (fun x => by simp [hl, Lk.hand, count_one]) (by simp) (by simp)
      · intro x; simp [G.setPool, count_last hsl x]
    · intro x hx; exact upd_ne _ _ hx
    · simp [G.setPool, Hdr.init]
    · intro q hq; simp at hq; subst hq; simp [G.setPool, Hdr.init]
    · intro t ht; exact Or.inl ht
  · split at he
    · simp only [Prod.mk.injEq] at he
      obtain ⟨rfl, rfl⟩ := he
      have := A_pool (toks := g.toks) (h' := h) (x := { g.pools p with cur := n, lk := .held (l ++ []) .ready }) a hp rfl
        (by simp [hl, Lk.hand]) rfl rfl (fun _ => rfl) (fun t ht => Or.inl ht)
      exact ⟨own, A_same this (fun O x => by cases O <;> rfl) rfl (fun t ht => Or.inl ht) rfl rfl rfl rfl (fun _ => rfl) (fun _ _ => rfl)⟩
    · simp only [Prod.mk.injEq] at he
      obtain ⟨rfl, rfl⟩ := he
      refine ⟨upd own g.next (.hand p), A_move (O1 := .fresh) a (by simp) (MoveSpec.moves ?_) rfl rfl ?_ ?_ ?_ ?_ rfl rfl rfl (Nat.le_succ _)
        (pools_upd_sizes rfl) (fun q hq => pools_upd_ge hp q hq)⟩
      · refine { pf := ?_, hd := ?_, cl := cl_same rfl rfl (pools_upd_sizes rfl) rfl rfl, fresh := ?_ }
        · exact pf_gen (fun _ => by simp) (by simp) (by simp)
        · exact hd_gen (fun x => by simp [hl, Lk.hand, count_one]) (by simp) (by simp)
        · intro x
          simp only [G.setPool, true_and, reduceCtorEq, false_and, if_false]
          by_cases h1 : g.next + 1 ≤ x <;> by_cases h2 : g.next ≤ x <;> by_cases h3 : x = g.next <;> simp [h1, h2, h3] <;> omega
      · intro x hx; exact upd_ne _ _ hx
      · simp [G.setPool, Hdr.init]
      · intro q hq; simp at hq; subst hq; simp [G.setPool, Hdr.init]
      · intro t ht; exact Or.inl ht

theorem takeSlab_A {g h own p l flag g'} (a : A g h own) (hl : (g.pools p).lk = .held l .need)
    (he : takeSlab g p l flag = some g') : ∃ own', A g' h own' := by
  have hp : p < g.np := a.lk_lt (by rw [hl]; simp)
  unfold takeSlab at he
  dsimp only at he
  split at he
  · rename_i sl hsl
    simp only [Option.some.injEq] at he; subst he
    have ho : own sl = .pfree p := by
      refine own_of_count a ?_
      simp only [cnt]
      rw [count_last hsl]; simp
    refine ⟨upd own sl (.hand p), A_move (O1 := .pfree p) a (by simp) (MoveSpec.moves ?_) rfl rfl ?_ ?_ ?_ ?_ rfl rfl rfl (Nat.le_refl _)
      (pools_upd_sizes rfl) (fun q hq => pools_upd_ge hp q hq)⟩
    · refine { pf := ?_, hd := ?_, cl := cl_same rfl rfl (pools_upd_sizes rfl) rfl rfl }
      · exact pf_gen (fun x => by simp [count_last hsl x]) (by simp) (by simp)
      · exact hd_gen (fun x => by simp [hl, Lk.hand, count_one]) (by simp) (by simp)
    · intro x hx; rfl
    · exact a.hdrN sl (by rw [ho]; rfl)
    · intro q hq; simp at hq; subst hq; exact a.hdrP sl p (Or.inl ho)
    · intro t ht; exact Or.inl ht
  · split at he
    · split at he
      · simp at he
      · simp only [Option.some.injEq] at he; subst he
        exact ⟨own, A_pool (toks := g.toks) a hp rfl (by simp [hl, Lk.hand]) rfl rfl (fun _ => rfl) (fun t ht => Or.inl ht)⟩
    · split at he
      · rename_i g1 sl hm
        simp only [Option.some.injEq] at he; subst he
        exact makeNewSlab_A a hp hl hm
      · rename_i g1 hm
        simp only [Option.some.injEq] at he; subst he
        have := makeNewSlab_A a hp hl hm (n := (g.pools p).cur - 1)
        simpa using this

/-- a slab from somewhere is added to a class -/
theorem addSlab_call {g h own p c sl} (a : A g h own) (hp : p < g.np) (hc : c < (g.pools p).sizes.length)
    (ho : (own sl).isCls = false) (hf : own sl ≠ .fresh) (hpl : (g.hdr sl).pool = p) :
    Call (g.cs p c, h.cl p c) (addSlab (g.cs p c) sl, { h.cl p c with slabs := sl :: (h.cl p c).slabs }) := by
  have hi := a.inv hp hc
  refine Call.addSlab _ _ _ ?_ ?_ ?_ ?_
  · intro hx
    rw [(a.mem_cls hp hc).1 hx] at ho; simp [Owner.isCls] at ho
  · have := a.places .fresh sl
    simp only [cnt, hf, if_false] at this
    show sl < g.next
    split at this <;> omega
  · rw [hi.hpool]; exact hpl
  · exact (a.hdrN sl ho).2

/-- … by any call that adds it and changes only its header -/
theorem A_add {g h own p c sl O s' k} {g' : G} {h' : Hist} (a : A g h own) (hp : p < g.np) (hc : c < (g.pools p).sizes.length)
    (ho : O.isCls = false) (hcall : Call (g.cs p c, h.cl p c) (s', k)) (hk : k.slabs = sl :: (h.cl p c).slabs)
    (hh : s'.hdr = upd g.hdr sl ((g.hdr sl).assign c ((g.pools p).sizes.getD c 0))) (hn : s'.next = g.next)
    (m : Moves g h g' h' O (.cls p c) sl)
    (e1 : g'.hdr = s'.hdr) (e4 : ∀ t ∈ g'.toks, t ∈ g.toks)
    (hnp : g'.np = g.np) (hac : g'.ac = upd2 g.ac p c s'.ac) (hcl : h'.cl = upd2 h.cl p c k) (hnx : g'.next = g.next)
    (hsz : ∀ p, (g'.pools p).sizes = (g.pools p).sizes) (hpz : ∀ p, g.np ≤ p → g'.pools p = g.pools p) :
    A g' h' (upd own sl (.cls p c)) := by
  obtain ⟨ho', hpl⟩ := own_moves a.places (by rintro rfl; simp [Owner.isCls] at ho) m
  have hb : ∀ x, own x = .cls p c → x ≠ sl := by
    rintro x hx rfl; rw [ho'] at hx; rw [hx] at ho; simp [Owner.isCls] at ho
  refine A_call a hp hc hcall hn ?_ ?_ ?_ ?_ ?_ hpl e1 (fun t ht => Or.inl (e4 t ht)) hnp hac hcl hnx hsz hpz
  · intro x
    rw [hk, List.mem_cons, a.mem_cls hp hc]
    by_cases hx : x = sl
    · subst hx; simp
    · rw [upd_ne _ _ hx]; simp [hx]
  · intro x hx
    by_cases h0 : x = sl
    · subst h0; right; exact ⟨by simp, by rw [ho']; exact ho⟩
    · rw [upd_ne _ _ h0] at hx; exact absurd rfl hx
  · intro x hx hx'
    rw [hh]
    refine upd_ne _ _ ?_
    rintro rfl
    simp at hx'
  · intro x hx hx'
    rw [upd_ne _ _ (hb x hx)] at hx'
    exact absurd hx hx'
  · intro x
    rw [hh]
    by_cases h0 : x = sl
    · subst h0; simp [Hdr.assign]
    · rw [upd_ne _ _ h0]

end Verif.MemPool
