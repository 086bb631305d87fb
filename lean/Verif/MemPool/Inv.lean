import Verif.MemPool.Cls
/-
The invariants of the slab allocator, the pools and their classes.
-/
namespace Verif.MemPool
open Verif AllocClass

def Lk.hand : Lk → List Nat
  | .idle => []
  | .held l _ => l

def Lk.need : Lk → Nat
  | .held _ .need => 1
  | _ => 0

def Tok.slab : Tok → Option Nat
  | .rel _ sl _ => some sl
  | .recl _ sl => some sl
  | _ => none

def Tok.pool : Tok → Nat
  | .rel p _ _ => p
  | .recl p _ => p
  | .advd p => p
  | .dec p => p

/-- where a slab can be -/
inductive Owner where
  | fresh
  | sa
  | adv
  | pfree (p : Nat)
  | hand (p : Nat)
  | tok
  | lost
  | cls (p c : Nat)
  deriving DecidableEq

/-- how often slab `x` is there -/
def cnt (g : G) (h : Hist) (O : Owner) (x : Nat) : Nat :=
  match O with
  | .fresh => if g.next ≤ x then 1 else 0
  | .sa => g.saFree.count x
  | .adv => g.saAdv.count x
  | .pfree p => (g.pools p).free.count x
  | .hand p => (g.pools p).lk.hand.count x
  | .tok => (g.toks.filterMap Tok.slab).count x
  | .lost => (g.lost.map Prod.snd).count x
  | .cls p c => if p < g.np ∧ c < (g.pools p).sizes.length then (h.cl p c).slabs.count x else 0

def Owner.isCls : Owner → Bool
  | .cls _ _ => true
  | _ => false

/-- who owns what, and what the headers say. -/
structure A (g : G) (h : Hist) (own : Nat → Owner) : Prop where
  places : ∀ O x, cnt g h O x = if own x = O then 1 else 0
  hdrN : ∀ x, (own x).isCls = false → (g.hdr x).cls = -1 ∧ (g.hdr x).marked = false
  hdrP : ∀ x p, own x = .pfree p ∨ own x = .hand p → (g.hdr x).pool = p
  hdrT : ∀ t ∈ g.toks, ∀ x, t.slab = some x → (g.hdr x).pool = t.pool
  toks : ∀ t ∈ g.toks, t.pool < g.np
  reach : ∀ p c, p < g.np → c < (g.pools p).sizes.length →
    AllocClass.Reach c p ((g.pools p).sizes.getD c 0) (g.cs p c, h.cl p c)
  sizes : ∀ p, p < g.np → sizesOK (g.pools p).sizes = true
  pools : ∀ p, g.np ≤ p → g.pools p = Pool.zero
  cls : ∀ p c, g.np ≤ p → h.cl p c = ⟨[], [], [], none, false⟩

theorem A.inv {g h own p c} (a : A g h own) (hp : p < g.np) (hc : c < (g.pools p).sizes.length) :
    Inv c p ((g.pools p).sizes.getD c 0) (g.cs p c) (h.cl p c) := reach_inv (a.reach p c hp hc)

theorem A.mem_cls {g h own p c x} (a : A g h own) (hp : p < g.np) (hc : c < (g.pools p).sizes.length) :
    x ∈ (h.cl p c).slabs ↔ own x = .cls p c := by
  have := a.places (.cls p c) x
  simp only [cnt, hp, hc, and_self, if_true] at this
  constructor
  · intro hx
    by_contra hn
    rw [if_neg hn] at this
    exact absurd (List.count_pos_iff.2 hx) (by omega)
  · intro hx
    rw [if_pos hx] at this
    exact List.count_pos_iff.1 (by omega)

theorem A.cls_bound {g h own p c x} (a : A g h own) (hx : own x = .cls p c) : p < g.np ∧ c < (g.pools p).sizes.length := by
  have := a.places (.cls p c) x
  simp only [cnt, hx, if_true] at this
  by_contra hn
  rw [if_neg hn] at this
  omega

theorem A.hdrC {g h own p c x} (a : A g h own) (hx : own x = .cls p c) :
    (g.hdr x).pool = p ∧ (g.hdr x).cls = c := by
  obtain ⟨hp, hc⟩ := a.cls_bound hx
  have := (a.inv hp hc).hdrs x ((a.mem_cls hp hc).2 hx)
  exact ⟨this.2.1, this.2.2.1⟩

/-- moving slab `sl` from `O1` to `O2` -/
def Moves (g : G) (h : Hist) (g' : G) (h' : Hist) (O1 O2 : Owner) (sl : Nat) : Prop :=
  ∀ O x, cnt g' h' O x + (if O = O1 ∧ x = sl then 1 else 0) = cnt g h O x + (if O = O2 ∧ x = sl then 1 else 0)

theorem own_moves {g h g' h' own O1 O2 sl} (a : ∀ O x, cnt g h O x = if own x = O then 1 else 0) (hne : O1 ≠ O2)
    (m : Moves g h g' h' O1 O2 sl) : own sl = O1 ∧ ∀ O x, cnt g' h' O x = if upd own sl O2 x = O then 1 else 0 := by
  have h1 : own sl = O1 := by
    have := m O1 sl
    rw [a] at this
    by_contra hn
    simp [hn, hne] at this
  refine ⟨h1, ?_⟩
  intro O x
  have hm := m O x
  rw [a] at hm
  by_cases hx : x = sl
  · subst hx
    simp only [upd_same]
    rw [h1] at hm
    by_cases h2 : O = O1
    · subst h2; simp [hne, Ne.symm hne] at hm ⊢; omega
    · by_cases h3 : O = O2
      · subst h3; simp [hne, Ne.symm hne] at hm ⊢; omega
      · simp [h2, h3, Ne.symm h2, Ne.symm h3] at hm ⊢; omega
  · rw [upd_ne _ _ hx]
    simp [hx] at hm
    exact hm

theorem setCls_cs_ne {g : G} {p c p' c' : Nat} {s : CS} (h : ¬ (p' = p ∧ c' = c)) :
    (g.setCls p c s).cs p' c' = ⟨g.ac p' c', s.hdr, s.next⟩ := by
  simp only [G.setCls, G.cs, upd2]
  congr 1
  by_cases hp : p' = p
  · subst hp
    rw [upd_same, upd_ne]
    intro hc; exact h ⟨rfl, hc⟩
  · rw [upd_ne _ _ hp]

theorem setCls_cs {g : G} {p c : Nat} {s : CS} : (g.setCls p c s).cs p c = s := by
  simp [G.setCls, G.cs, upd2]

theorem upd2_ne {X : Type} {f : Nat → Nat → X} {p c p' c' : Nat} {v : X} (h : ¬ (p' = p ∧ c' = c)) :
    upd2 f p c v p' c' = f p' c' := by
  simp only [upd2]
  by_cases hp : p' = p
  · subst hp
    rw [upd_same, upd_ne]
    intro hc; exact h ⟨rfl, hc⟩
  · rw [upd_ne _ _ hp]

theorem upd2_same {X : Type} {f : Nat → Nat → X} {p c : Nat} {v : X} : upd2 f p c v p c = v := by simp [upd2]

/-- others change headers of slabs that no class owns. -/
theorem reach_env {g h own} (a : A g h own) {hdr' next'} (h1 : ∀ x, (own x).isCls = true → hdr' x = g.hdr x)
    (h2 : ∀ x, (own x).isCls = false → (hdr' x).cls = -1) (h3 : g.next ≤ next') :
    ∀ p c, p < g.np → c < (g.pools p).sizes.length →
    AllocClass.Reach c p ((g.pools p).sizes.getD c 0) (⟨g.ac p c, hdr', next'⟩, h.cl p c) := by
  intro p c hp hc
  have hi := a.inv hp hc
  refine AllocClass.Reach.step _ _ (a.reach p c hp hc) ?_
  refine AllocClass.Step.env (g.cs p c) (h.cl p c) hdr' next' ?_ ?_ h3
  · intro x hx
    exact h1 x (by rw [(a.mem_cls hp hc).1 hx]; rfl)
  · intro x hx
    rw [hi.hcls, hi.hpool]
    rintro ⟨e1, e2⟩
    cases hb : (own x).isCls with
    | true =>
      rw [h1 x hb] at e1 e2
      exact hi.foreign x hx ⟨e1, e2⟩
    | false =>
      rw [h2 x hb] at e1
      exact hi.clsNe e1.symm

/-- the class `p c` makes a call that takes the slabs `k.slabs`, and leaves the headers of others alone. -/
theorem reach_call {g h own p c s' k} (a : A g h own) (hp : p < g.np) (hc : c < (g.pools p).sizes.length)
    (hcall : Call (g.cs p c, h.cl p c) (s', k)) (hn : s'.next = g.next)
    (h1 : ∀ x, own x ≠ .cls p c → x ∉ k.slabs → s'.hdr x = g.hdr x)
    (h2 : ∀ x ∈ k.slabs, own x = .cls p c ∨ (own x).isCls = false)
    (h3 : ∀ x, own x = .cls p c → x ∉ k.slabs → (s'.hdr x).cls = -1) :
    ∀ p' c', p' < g.np → c' < (g.pools p').sizes.length →
    AllocClass.Reach c' p' ((g.pools p').sizes.getD c' 0) ((g.setCls p c s').cs p' c', upd2 h.cl p c k p' c') := by
  intro p' c' hp' hc'
  have hi := a.inv hp hc
  have hi' := call_inv (x := (g.cs p c, h.cl p c)) (y := (s', k)) hi hcall
  simp only at hi'
  by_cases he : p' = p ∧ c' = c
  · obtain ⟨rfl, rfl⟩ := he
    rw [setCls_cs, upd2_same]
    exact AllocClass.Reach.step _ _ (a.reach _ _ hp hc) (AllocClass.Step.call _ _ hcall)
  · rw [setCls_cs_ne he, upd2_ne he]
    have hj := a.inv hp' hc'
    refine AllocClass.Reach.step _ _ (a.reach p' c' hp' hc') ?_
    refine AllocClass.Step.env (g.cs p' c') (h.cl p' c') s'.hdr s'.next ?_ ?_ (by rw [hn]; exact Nat.le_refl _)
    · intro x hx
      have hx' := (a.mem_cls hp' hc').1 hx
      have hne : Owner.cls p' c' ≠ .cls p c := by simpa using he
      refine h1 x (by rw [hx']; exact hne) ?_
      intro hk
      rcases h2 x hk with hh | hh
      · exact hne (hx'.symm.trans hh)
      · rw [hx'] at hh; simp [Owner.isCls] at hh
    · intro x hx
      rw [hj.hcls, hj.hpool]
      rintro ⟨e1, e2⟩
      by_cases hk : x ∈ k.slabs
      · have := hi'.hdrs x hk
        apply he
        constructor
        · have := this.2.1; omega
        · have := this.2.2.1; omega
      · by_cases ho : own x = .cls p c
        · rw [h3 x ho hk] at e1
          exact hj.clsNe e1.symm
        · rw [h1 x ho hk] at e1 e2
          exact hj.foreign x hx ⟨e1, e2⟩

theorem mem_slabs {l : List Tok} {t : Tok} {x : Nat} (h : t ∈ l) (hs : t.slab = some x) : x ∈ l.filterMap Tok.slab :=
  List.mem_filterMap.2 ⟨t, h, hs⟩

/-- a slab moves between places outside of the classes. -/
theorem A_move {g h own O1 O2 sl} {g' : G} {h' : Hist} (a : A g h own) (hne : O1 ≠ O2) (m : Moves g h g' h' O1 O2 sl)
    (hO1 : O1.isCls = false) (hO2 : O2.isCls = false)
    (e1 : ∀ x, x ≠ sl → g'.hdr x = g.hdr x) (e2 : (g'.hdr sl).cls = -1 ∧ (g'.hdr sl).marked = false)
    (e3 : ∀ p, O2 = .pfree p ∨ O2 = .hand p → (g'.hdr sl).pool = p)
    (e4 : ∀ t ∈ g'.toks, t ∈ g.toks ∨ (t.pool < g.np ∧ ∀ x, t.slab = some x → x = sl ∧ (g'.hdr x).pool = t.pool))
    (hnp : g'.np = g.np) (hac : g'.ac = g.ac) (hcl : h'.cl = h.cl) (hnx : g.next ≤ g'.next)
    (hsz : ∀ p, (g'.pools p).sizes = (g.pools p).sizes) (hpz : ∀ p, g.np ≤ p → g'.pools p = g.pools p) :
    A g' h' (upd own sl O2) := by
  obtain ⟨ho, hp⟩ := own_moves a.places hne m
  have hcls : (own sl).isCls = false := by rw [ho]; exact hO1
  refine ⟨hp, ?_, ?_, ?_, ?_, ?_, ?_, ?_, ?_⟩
  · intro x hx
    by_cases h0 : x = sl
    · subst h0; exact e2
    · rw [e1 x h0]; rw [upd_ne _ _ h0] at hx; exact a.hdrN x hx
  · intro x p hx
    by_cases h0 : x = sl
    · subst h0; rw [upd_same] at hx; exact e3 p hx
    · rw [e1 x h0]; rw [upd_ne _ _ h0] at hx; exact a.hdrP x p hx
  · intro t ht x hx
    rcases e4 t ht with h1 | h1
    · by_cases h0 : x = sl
      · subst h0
        exfalso
        have c1 := hp .tok x
        have c2 := a.places .tok x
        simp only [cnt, upd_same, ho] at c1 c2
        have p1 := List.count_pos_iff.2 (mem_slabs ht hx)
        have p2 := List.count_pos_iff.2 (mem_slabs h1 hx)
        rw [c1] at p1; rw [c2] at p2
        split at p1
        · split at p2
          · rename_i q1 q2; exact hne (q2.trans q1.symm)
          · omega
        · omega
      · rw [e1 x h0]; exact a.hdrT t h1 x hx
    · exact (h1.2 x hx).2
  · intro t ht
    rw [hnp]
    rcases e4 t ht with h1 | h1
    · exact a.toks t h1
    · exact h1.1
  · intro p c hpn hc
    rw [hnp] at hpn
    rw [hsz] at hc ⊢
    have := reach_env a (hdr' := g'.hdr) (next' := g'.next) ?_ ?_ hnx p c hpn hc
    · simpa only [G.cs, hac, hcl] using this
    · intro x hx
      refine e1 x ?_
      rintro rfl
      rw [hcls] at hx; simp at hx
    · intro x hx
      by_cases h0 : x = sl
      · subst h0; exact e2.1
      · rw [e1 x h0]; exact (a.hdrN x hx).1
  · intro p hpn
    rw [hnp] at hpn
    rw [hsz]; exact a.sizes p hpn
  · intro p hpn
    rw [hnp] at hpn
    rw [hpz p hpn]; exact a.pools p hpn
  · intro p c hpn
    rw [hnp] at hpn
    rw [hcl]; exact a.cls p c hpn

/-- no slab moves and no header changes. -/
theorem A_same {g h own} {g' : G} {h' : Hist} (a : A g h own) (m : ∀ O x, cnt g' h' O x = cnt g h O x) (e1 : g'.hdr = g.hdr)
    (e4 : ∀ t ∈ g'.toks, t ∈ g.toks ∨ (t.pool < g.np ∧ t.slab = none))
    (hnp : g'.np = g.np) (hac : g'.ac = g.ac) (hcl : h'.cl = h.cl) (hnx : g'.next = g.next)
    (hsz : ∀ p, (g'.pools p).sizes = (g.pools p).sizes) (hpz : ∀ p, g.np ≤ p → g'.pools p = g.pools p) :
    A g' h' own := by
  refine ⟨fun O x => (m O x).trans (a.places O x), ?_, ?_, ?_, ?_, ?_, ?_, ?_, ?_⟩
  · rw [e1]; exact a.hdrN
  · rw [e1]; exact a.hdrP
  · rw [e1]
    intro t ht x hx
    rcases e4 t ht with h1 | h1
    · exact a.hdrT t h1 x hx
    · rw [h1.2] at hx; simp at hx
  · intro t ht
    rw [hnp]
    rcases e4 t ht with h1 | h1
    · exact a.toks t h1
    · exact h1.1
  · intro p c hpn hc
    rw [hnp] at hpn
    rw [hsz] at hc ⊢
    have := a.reach p c hpn hc
    simpa only [G.cs, hac, hcl, e1, hnx] using this
  · intro p hpn
    rw [hnp] at hpn
    rw [hsz]; exact a.sizes p hpn
  · intro p hpn
    rw [hnp] at hpn
    rw [hpz p hpn]; exact a.pools p hpn
  · intro p c hpn
    rw [hnp] at hpn
    rw [hcl]; exact a.cls p c hpn

/-- a class makes a step that changes its set of slabs to that of `own'`. -/
theorem A_call {g h own own' p c s' k} {g' : G} {h' : Hist} (a : A g h own) (hp : p < g.np) (hc : c < (g.pools p).sizes.length)
    (hcall : Call (g.cs p c, h.cl p c) (s', k)) (hn : s'.next = g.next)
    (hk : ∀ x, x ∈ k.slabs ↔ own' x = .cls p c)
    (ho : ∀ x, own' x ≠ own x → (own x = .cls p c ∧ own' x = .tok) ∨ (own' x = .cls p c ∧ (own x).isCls = false))
    (h1 : ∀ x, own x ≠ .cls p c → own' x ≠ .cls p c → s'.hdr x = g.hdr x)
    (h3 : ∀ x, own x = .cls p c → own' x ≠ .cls p c → (s'.hdr x).cls = -1 ∧ (s'.hdr x).marked = false)
    (h4 : ∀ x, (s'.hdr x).pool = (g.hdr x).pool)
    (m : ∀ O x, cnt g' h' O x = if own' x = O then 1 else 0)
    (e1 : g'.hdr = s'.hdr) (e4 : ∀ t ∈ g'.toks, t ∈ g.toks ∨ (t.pool < g.np ∧ ∀ x, t.slab = some x → (g.hdr x).pool = t.pool))
    (hnp : g'.np = g.np) (hac : g'.ac = upd2 g.ac p c s'.ac) (hcl : h'.cl = upd2 h.cl p c k) (hnx : g'.next = g.next)
    (hsz : ∀ p, (g'.pools p).sizes = (g.pools p).sizes) (hpz : ∀ p, g.np ≤ p → g'.pools p = g.pools p) :
    A g' h' own' := by
  refine ⟨m, ?_, ?_, ?_, ?_, ?_, ?_, ?_, ?_⟩
  · rw [e1]
    intro x hx
    by_cases h0 : own' x = own x
    · rw [h0] at hx
      have hxn : own x ≠ .cls p c := by intro hh; rw [hh] at hx; simp [Owner.isCls] at hx
      rw [h1 x hxn (by rw [h0]; exact hxn)]
      exact a.hdrN x hx
    · rcases ho x h0 with hh | hh
      · exact h3 x hh.1 (by rw [hh.2]; simp)
      · rw [hh.1] at hx; simp [Owner.isCls] at hx
  · rw [e1]
    intro x q hx
    rw [h4]
    by_cases h0 : own' x = own x
    · rw [h0] at hx; exact a.hdrP x q hx
    · rcases ho x h0 with hh | hh
      · rw [hh.2] at hx; simp at hx
      · rw [hh.1] at hx; simp at hx
  · rw [e1]
    intro t ht x hx
    rw [h4]
    rcases e4 t ht with h1 | h1
    · exact a.hdrT t h1 x hx
    · exact h1.2 x hx
  · intro t ht
    rw [hnp]
    rcases e4 t ht with h1 | h1
    · exact a.toks t h1
    · exact h1.1
  · intro p' c' hpn hc'
    rw [hnp] at hpn
    rw [hsz] at hc' ⊢
    have := reach_call a hp hc hcall hn (fun x hx hx' => h1 x hx (fun hh => hx' ((hk x).2 hh))) ?_
      (fun x hx hx' => (h3 x hx (fun hh => hx' ((hk x).2 hh))).1) p' c' hpn hc'
    · simpa only [G.cs, hac, hcl, e1, hnx, G.setCls, hn] using this
    · intro x hx
      have hx' := (hk x).1 hx
      by_cases h0 : own' x = own x
      · left; rw [← h0]; exact hx'
      · rcases ho x h0 with hh | hh
        · left; exact hh.1
        · right; exact hh.2
  · intro p hpn
    rw [hnp] at hpn
    rw [hsz]; exact a.sizes p hpn
  · intro p hpn
    rw [hnp] at hpn
    rw [hpz p hpn]; exact a.pools p hpn
  · intro p' c' hpn
    rw [hnp] at hpn
    rw [hcl, upd2_ne (by rintro ⟨rfl, _⟩; omega)]; exact a.cls p' c' hpn

end Verif.MemPool
