import Verif.MemPool.CountStep
import Verif.MemPool.Sizes
import Verif.AllocClass.Examples
/-
Properties C14, C15, C18 for the whole allocator: `Reach (g, h)` says that some history of any number of threads, cut at critical
sections and atomic accesses, leads to `g`, and that the clients then know `h`.
-/
namespace Verif.MemPool
open Verif AllocClass

/-! ### specification -/

/-- class `c` of pool `p` exists -/
def Exists (x : St) (p c : Nat) : Prop := p < x.1.np ∧ c < (x.1.pools p).sizes.length

/-- the bytes `[a, a+n)` and `[b, b+m)` have nothing in common -/
def Apart (a : Addr) (n : Nat) (b : Addr) (m : Nat) : Prop := ∀ i < n, ∀ j < m, (a.1, a.2 + i) ≠ (b.1, b.2 + j)

/-- all slabs, wherever they are -/
def everywhere (g : G) (h : Hist) : List Nat :=
  g.saFree ++ g.saAdv ++
  ((List.range g.np).flatMap fun p => (g.pools p).free ++
    (match (g.pools p).lk with | .idle => [] | .held l _ => l) ++
    (List.range (g.pools p).sizes.length).flatMap fun c => (h.cl p c).slabs) ++
  (g.toks.filterMap fun t => match t with | .rel _ sl _ => some sl | .recl _ sl => some sl | _ => none) ++
  g.lost.map Prod.snd

/-- slabs in the classes of pool `p` -/
def held (g : G) (h : Hist) (p : Nat) : Nat := ((List.range (g.pools p).sizes.length).map fun c => (h.cl p c).slabs.length).sum

/-! ### C14 -/

/-- Each class sees a legal history of its own, so all that is proved about AllocationClass holds for it. -/
theorem class_reach {x : St} (h : Reach x) {p c : Nat} (he : Exists x p c) :
    AllocClass.Reach c p ((x.1.pools p).sizes.getD c 0) (x.1.cs p c, x.2.cl p c) := by
  obtain ⟨own, a⟩ := reach_A h
  exact a.reach p c he.1 he.2

/-- No two classes have a slab in common. -/
theorem classes_apart {x : St} (h : Reach x) {p c q d sl : Nat} (h1 : Exists x p c) (h2 : Exists x q d)
    (m1 : sl ∈ (x.2.cl p c).slabs) (m2 : sl ∈ (x.2.cl q d).slabs) : p = q ∧ c = d := by
  obtain ⟨own, a⟩ := reach_A h
  have e1 := (a.mem_cls h1.1 h1.2).1 m1
  have e2 := (a.mem_cls h2.1 h2.2).1 m2
  rw [e1] at e2
  simpa using e2

/-- C14: any two live allocations of any classes of any pools are apart, and each lies inside the memory. -/
theorem live_apart {x : St} (h : Reach x) {p c q d : Nat} {a b : Addr} (h1 : Exists x p c) (h2 : Exists x q d)
    (m1 : a ∈ (x.2.cl p c).live) (m2 : b ∈ (x.2.cl q d).live) :
    (a.1 < x.1.total ∧ a.2 + (x.1.pools p).sizes.getD c 0 ≤ 4194304) ∧
    ((p, c, a) ≠ (q, d, b) → Apart a ((x.1.pools p).sizes.getD c 0) b ((x.1.pools q).sizes.getD d 0)) := by
  have r1 := live_disjoint (class_reach h h1)
  have r2 := live_disjoint (class_reach h h2)
  obtain ⟨own, ha⟩ := reach_A h
  have hb := reach_B h
  have s1 := r1.2.1 a m1
  have s2 := r2.2.1 b m2
  refine ⟨⟨?_, s1.2⟩, ?_⟩
  · have e1 := (ha.mem_cls h1.1 h1.2).1 s1.1
    have := ha.places .fresh a.1
    rw [e1] at this
    simp only [cnt, reduceCtorEq, if_false] at this
    split at this
    · omega
    · have := hb.next; omega
  · intro hne i hi j hj he
    simp only [Prod.mk.injEq] at he
    have s2' := s2.1
    rw [← he.1] at s2'
    obtain ⟨rfl, rfl⟩ := classes_apart h h1 h2 s1.1 s2'
    have hab : a ≠ b := by rintro rfl; exact hne rfl
    rcases r1.2.2 a m1 b m2 hab with g | g | g
    · exact g he.1
    · omega
    · omega

/-- C14: free finds the pool and the class from which the memory came (MemoryAllocator.cpp:155-162, MemoryPool.cpp:211-238 read
them from the header of the slab), and that class accepts it. -/
theorem free_routes {x : St} (h : Reach x) {p c : Nat} {a : Addr} (h1 : Exists x p c) (m1 : a ∈ (x.2.cl p c).live) :
    (x.1.hdr a.1).pool = p ∧ (x.1.hdr a.1).cls = c ∧
    ∀ m, ∃ y, exec x (.cls p c (.free a) m) = some y ∧ (y.2.cl p c).live = (x.2.cl p c).live.erase a := by
  have r1 := live_disjoint (class_reach h h1)
  have r3 := alloc_free_total (class_reach h h1)
  obtain ⟨own, ha⟩ := reach_A h
  have e1 := (ha.mem_cls h1.1 h1.2).1 (r1.2.1 a m1).1
  have hh := ha.hdrC e1
  refine ⟨hh.1, hh.2, ?_⟩
  intro m
  obtain ⟨s', hs⟩ := r3.2 a m1
  refine ⟨(x.1.setCls p c s', x.2.setCl p c { x.2.cl p c with live := (x.2.cl p c).live.erase a }), ?_, ?_⟩
  · have : p < x.1.np ∧ c < (x.1.pools p).sizes.length := h1
    simp only [exec, this, and_self, if_true, runCls, m1, hs]
  · simp [Hist.setCl, upd2]

/-- C14: what the locked part of allocate hands out, be it from the class or from a slab that was just added, is apart from all
that is live, and has at least the size that was asked for. -/
theorem alloc_apart {x y : St} (h : Reach x) {p c n : Nat} (hn : classFor (x.1.pools p).sizes n = some c) {o : Op} {a : Addr}
    (ho : o = .addAlloc p c ∨ ∃ m, o = .cls p c .alloc m) (he : exec x o = some y)
    (hy : (y.2.cl p c).live = a :: (x.2.cl p c).live) :
    n ≤ (x.1.pools p).sizes.getD c 0 ∧ a.2 + (x.1.pools p).sizes.getD c 0 ≤ 4194304 ∧
    ∀ q d, Exists x q d → ∀ b ∈ (x.2.cl q d).live, Apart a ((x.1.pools p).sizes.getD c 0) b ((x.1.pools q).sizes.getD d 0) := by
  have hy' : Reach y := Reach.step _ _ _ h he
  obtain ⟨own, ha⟩ := reach_A h
  -- what the step changes
  have key : Exists x p c ∧ y.1.np = x.1.np ∧ (∀ q, (y.1.pools q).sizes = (x.1.pools q).sizes) ∧
      ∀ q d, (q, d) ≠ (p, c) → y.2.cl q d = x.2.cl q d := by
    rcases ho with rfl | ⟨m, rfl⟩
    · simp only [exec] at he
      split at he
      · rename_i sl l hl
        split at he
        · rename_i hc
          split at he
          · rename_i ac r _
            simp only [Option.some.injEq] at he; subst he
            have hp : p < x.1.np := by
              by_contra hp
              have := ha.pools p (by omega)
              rw [this] at hc; simp [Pool.zero] at hc
            refine ⟨⟨hp, hc⟩, rfl, ?_, ?_⟩
            · intro q
              by_cases e : q = p
              · subst e; simp [G.setPool, G.setCls]
              · simp [G.setPool, G.setCls, upd_ne _ _ e]
            · intro q d hq
              simp only [Hist.setCl]
              exact upd2_ne (by rintro ⟨rfl, rfl⟩; exact hq rfl)
          · simp at he
        · simp at he
      · simp at he
    · simp only [exec] at he
      split at he
      · rename_i hpc
        split at he
        · simp only [Option.some.injEq] at he; subst he
          refine ⟨hpc, rfl, fun _ => rfl, ?_⟩
          intro q d hq
          simp only [Hist.setCl]
          exact upd2_ne (by rintro ⟨rfl, rfl⟩; exact hq rfl)
        · rename_i s k sl hr
          simp only [runCls, Option.map_eq_some_iff] at hr
          obtain ⟨_, _, hr⟩ := hr
          simp at hr
        · simp at he
      · simp at he
  obtain ⟨hex, k1, k2, k3⟩ := key
  have hsz := ha.sizes p hex.1
  simp only [sizesOK, Bool.and_eq_true, decide_eq_true_eq] at hsz
  have hcf := classFor_some hsz.2 hn
  have hey : ∀ {q d}, Exists x q d → Exists y q d := by
    intro q d ⟨e1, e2⟩
    exact ⟨by rw [k1]; exact e1, by rw [k2]; exact e2⟩
  have hmem : a ∈ (y.2.cl p c).live := by rw [hy]; simp
  have hnd := (live_disjoint (class_reach hy' (hey hex))).1
  rw [hy, List.nodup_cons] at hnd
  refine ⟨hcf.2.1, ?_, ?_⟩
  · have := (live_apart hy' (hey hex) (hey hex) hmem hmem).1.2
    rw [k2] at this; exact this
  · intro q d hq b hb
    have hby : b ∈ (y.2.cl q d).live := by
      by_cases e : (q, d) = (p, c)
      · obtain ⟨rfl, rfl⟩ := Prod.mk.inj e
        rw [hy]; exact List.mem_cons_of_mem _ hb
      · rw [k3 q d e]; exact hb
    have := (live_apart hy' (hey hex) (hey hq) hmem hby).2 (by
      intro e
      simp only [Prod.mk.injEq] at e
      obtain ⟨rfl, rfl, rfl⟩ := e
      exact hnd.1 hb)
    rw [k2, k2] at this; exact this

theorem count_flatMap_range (n : Nat) (f : Nat → List Nat) (x : Nat) :
    ((List.range n).flatMap f).count x = ((List.range n).map fun p => (f p).count x).sum := by
  induction n with
  | zero => rfl
  | succ n ih => simp [List.range_succ, List.flatMap_append, ih]

theorem sum_indicator (n : Nat) (f : Nat → Nat) (p : Nat) (h : ∀ q < n, f q = if q = p then 1 else 0) :
    ((List.range n).map f).sum = if p < n then 1 else 0 := by
  induction n with
  | zero => rfl
  | succ n ih =>
    rw [List.range_succ, List.map_append, List.sum_append, ih (fun q hq => h q (by omega))]
    simp only [List.map_cons, List.map_nil, List.sum_cons, List.sum_nil]
    rw [h n (by omega)]
    by_cases e : n = p
    · subst e; simp
    · rw [if_neg e]
      by_cases g : p < n
      · rw [if_pos g, if_pos (by omega)]; rfl
      · rw [if_neg g, if_neg (by omega)]; rfl

theorem sum_zero (n : Nat) (f : Nat → Nat) (h : ∀ q < n, f q = 0) : ((List.range n).map f).sum = 0 := by
  induction n with
  | zero => rfl
  | succ n ih =>
    rw [List.range_succ, List.map_append, List.sum_append, ih (fun q hq => h q (by omega))]
    simp [h n (by omega)]

def Owner.inPool : Owner → Option Nat
  | .pfree p => some p
  | .hand p => some p
  | .cls p _ => some p
  | _ => none

/-- C14: every slab that was ever carved is at exactly one place, and no other slab is anywhere. -/
theorem slab_one_place {x : St} (h : Reach x) : (everywhere x.1 x.2).Perm (List.range x.1.next) := by
  obtain ⟨own, a⟩ := reach_A h
  obtain ⟨g, hh⟩ := x
  simp only at a ⊢
  rw [List.perm_iff_count]
  intro sl
  have hfr := a.places .fresh sl
  have c1 := a.places .sa sl
  have c2 := a.places .adv sl
  have c3 := fun p => a.places (.pfree p) sl
  have c4 := fun p => a.places (.hand p) sl
  have c5 := a.places .tok sl
  have c6 := a.places .lost sl
  have c7 := fun p c => a.places (.cls p c) sl
  simp only [cnt] at hfr c1 c2 c3 c4 c5 c6 c7
  have hr : (List.range g.next).count sl = if sl < g.next then 1 else 0 := by
    by_cases hl : sl < g.next
    · rw [if_pos hl]; rw [List.nodup_range.count, if_pos (List.mem_range.2 hl)]
    · rw [if_neg hl]; exact List.count_eq_zero.2 (by simp; omega)
  have e4 : ∀ p, (match (g.pools p).lk with | .idle => [] | .held l _ => l) = (g.pools p).lk.hand := by
    intro p; cases (g.pools p).lk <;> rfl
  have e5 : (g.toks.filterMap fun t => match t with | .rel _ sl _ => some sl | .recl _ sl => some sl | _ => none) = g.toks.filterMap Tok.slab := by
    congr 1
  unfold everywhere
  simp only [List.count_append, count_flatMap_range, e4, e5, hr]
  -- the contribution of the pools
  have hcl : ∀ p < g.np, ((List.range (g.pools p).sizes.length).map fun c => (hh.cl p c).slabs.count sl).sum =
      match own sl with | .cls q _ => if q = p then 1 else 0 | _ => 0 := by
    intro p hp
    have hz : (∀ c, own sl ≠ .cls p c) → ((List.range (g.pools p).sizes.length).map fun c => (hh.cl p c).slabs.count sl).sum = 0 := by
      intro hc
      apply sum_zero
      intro d hd
      have := c7 p d
      rw [if_pos ⟨hp, hd⟩] at this
      rw [this, if_neg (hc d)]
    split
    · rename_i q c hc
      by_cases e : q = p
      · subst e
        rw [if_pos rfl]
        have := sum_indicator (g.pools q).sizes.length (fun c => (hh.cl q c).slabs.count sl) c (by
          intro d hd
          have := c7 q d
          rw [if_pos ⟨hp, hd⟩] at this
          rw [this, hc]
          by_cases e : d = c
          · simp [e]
          · simp [e, Ne.symm e])
        rw [this, if_pos (a.cls_bound hc).2]
      · rw [if_neg e]
        apply hz
        intro d hd
        rw [hc] at hd
        simp at hd
        exact e hd.1
    · rename_i hn
      exact hz fun c hc => hn p c hc
  have hpool : ∀ p < g.np, ((g.pools p).free.count sl + (g.pools p).lk.hand.count sl +
      ((List.range (g.pools p).sizes.length).map fun c => (hh.cl p c).slabs.count sl).sum) =
      if (own sl).inPool = some p then 1 else 0 := by
    intro p hp
    rw [c3, c4, hcl p hp]
    cases ho : own sl <;> simp [Owner.inPool]
  have hbound : ∀ p, (own sl).inPool = some p → p < g.np := by
    intro p hp
    by_contra hn
    have hz := a.pools p (by omega)
    cases ho : own sl <;> rw [ho] at hp <;> simp [Owner.inPool] at hp
    · subst hp; rename_i q; have := c3 q; rw [hz, ho] at this; simp [Pool.zero] at this
    · subst hp; rename_i q; have := c4 q; rw [hz, ho] at this; simp [Pool.zero, Lk.hand] at this
    · subst hp; exact hn (a.cls_bound ho).1
  have htot : ((List.range g.np).map fun p => ((g.pools p).free.count sl + (g.pools p).lk.hand.count sl +
      ((List.range (g.pools p).sizes.length).map fun c => (hh.cl p c).slabs.count sl).sum)).sum =
      if (own sl).inPool.isSome then 1 else 0 := by
    cases he : (own sl).inPool with
    | some p =>
      rw [sum_indicator g.np _ p, if_pos (hbound p he)]
      · simp
      intro q hq
      rw [hpool q hq, he]
      by_cases e : q = p
      · simp [e]
      · simp [e, Ne.symm e]
    | none =>
      simp only [Option.isSome_none, Bool.false_eq_true, if_false]
      apply sum_zero
      intro q hq
      rw [hpool q hq, he]; simp
  rw [htot, c1, c2, c5, c6]
  have hlt : sl < g.next ↔ own sl ≠ .fresh := by
    by_cases e : own sl = .fresh
    · rw [if_pos e] at hfr; simp [e]; split at hfr <;> omega
    · rw [if_neg e] at hfr; simp [e]; split at hfr <;> omega
  cases ho : own sl <;> simp [ho, hlt, Owner.inPool]

/-! ### C15 -/

/-- C15: the sizes given to the pools never add up to more than the memory has, and what is reported as remaining is the rest. -/
theorem sizes_within {x : St} (h : Reach x) :
    ((List.range x.1.np).map fun p => (x.1.pools p).max).sum ≤ x.1.total * 4194304 ∧
    x.1.remaining = x.1.total * 4194304 - ((List.range x.1.np).map fun p => (x.1.pools p).max).sum := by
  have b := reach_B h
  exact ⟨b.sum, remaining_eq b.sum b.word⟩

/-- C15: the slabs in the classes of a pool, the ones on the way to or from a class, the ones it keeps and the ones it advised away
never are more than fit in the largest size the pool ever had.  Two things break this, and both are visible in the
history: a slab released from the list of free slabs, and an advised slab that was counted while allSlabsAllocated was
computed. -/
theorem pool_limit {x : St} (h : Reach x) (p : Nat) (h1 : x.2.off p = 0) (h2 : x.2.raced p = false) :
    (held x.1 x.2 p + (x.1.pools p).free.length + (x.1.pools p).adv) * 4194304 ≤ x.2.peak p := by
  have := ((reach_B h).pool p).lim h2
  rw [h1] at this
  unfold held
  unfold clsSlabs at this
  omega

/-- C15: … the slabs in the classes alone stay within the limit whatever is advised away or reclaimed at the same time, unless
more is reclaimed than was advised. -/
theorem class_limit {x : St} (h : Reach x) (p : Nat) (h1 : x.2.low p = false) :
    held x.1 x.2 p * 4194304 ≤ x.2.peak p + x.2.off p * 4194304 := by
  have hb := (reach_B h).pool p
  have h3 := (hb.lo h1).2.2
  have h4 := hb.cur
  unfold held
  unfold clsSlabs at h4
  omega

/-- C15: a slab is obtained only if, at that moment, the slabs that the pool counts as its own and the advised ones it read
leave room for it in its present size. -/
theorem grant_within {x y : St} (h : Reach x) {p : Nat} {l : List Nat} {d : Int} (hl : (x.1.pools p).lk = .held l (.read d))
    (he : exec x (.check p) = some y) (hy : (y.1.pools p).cur ≠ (x.1.pools p).cur) :
    ((held x.1 x.2 p + l.length + 1 : Nat) : Int) * 4194304 + d * 4194304 ≤ (x.1.pools p).max + x.2.off p * 4194304 ∧
    (y.1.pools p).cur = (x.1.pools p).cur + 1 := by
  have hb := (reach_B h).pool p
  simp only [exec, Pool.advRead, hl] at he
  split at he
  · simp only [Option.some.injEq] at he; subst he
    simp [G.setPool] at hy
  · rename_i hov
    simp only [Option.some.injEq] at he; subst he
    simp only [Pool.over, decide_eq_true_eq, not_or, not_lt] at hov
    have h4 := hb.cur
    simp only [hl, Lk.hand, Lk.need] at h4
    unfold held
    unfold clsSlabs at h4
    refine ⟨?_, by simp [G.setPool]⟩
    push_cast
    omega

/-- C15: the counter of a pool, when no thread is at work in it. -/
theorem counter_exact {x : St} (h : Reach x) (p : Nat) (h1 : x.1.toks = []) (h2 : (x.1.pools p).lk = .idle)
    (h3 : x.2.off p = 0) (h4 : x.1.lost = []) : (x.1.pools p).cur = held x.1 x.2 p := by
  have hb := ((reach_B h).pool p).cur
  rw [h1, h2, h3, h4] at hb
  simp only [Lk.hand, Lk.need, List.countP_nil, List.length_nil] at hb
  unfold held
  unfold clsSlabs at hb
  omega

/-- C15: the numbers of advised slabs of the pools add up to the slabs that are advised away, when no thread is at work. -/
theorem advised_exact {x : St} (h : Reach x) (h1 : x.1.toks = []) :
    ((List.range x.1.np).map fun p => (x.1.pools p).adv).sum = x.1.saAdv.length := by
  have := (reach_B h).adv
  rw [h1] at this
  simpa using this

/-- C15: a pool below its limit gets no slab only if all of the memory is carved and no slab is free in the slab allocator. -/
theorem refused_exhausted {x y : St} (h : Reach x) {p : Nat} {flag : Bool} {l : List Nat}
    (hl : (x.1.pools p).lk = .held l .need) (he : exec x (.take p flag) = some y) :
    (∃ sl, (y.1.pools p).lk = .held (l ++ [sl]) .ready) ∨
    ((x.1.pools p).free = [] ∧ x.1.saFree = [] ∧ x.1.next = x.1.total) := by
  have hb := reach_B h
  simp only [exec, Pool.needs, hl, Option.map_eq_some_iff] at he
  obtain ⟨g', he, rfl⟩ := he
  unfold takeSlab at he
  dsimp only at he
  split at he
  · rename_i sl hsl
    simp only [Option.some.injEq] at he; subst he
    exact Or.inl ⟨sl, by simp [G.setPool]⟩
  · rename_i hsl
    have hf := List.getLast?_eq_none_iff.1 hsl
    split at he
    · split at he
      · simp at he
      · rename_i hc
        have := hb.can (by simpa using hc)
        exact Or.inr ⟨hf, this.1, this.2⟩
    · split at he
      · rename_i g1 sl hm
        simp only [Option.some.injEq] at he; subst he
        exact Or.inl ⟨sl, by simp [G.setPool]⟩
      · rename_i g1 hm
        unfold makeNewSlab at hm
        split at hm
        · simp at hm
        · rename_i hs
          split at hm
          · rename_i hn
            exact Or.inr ⟨hf, List.getLast?_eq_none_iff.1 hs, hn⟩
          · simp at hm

end Verif.MemPool
