import Verif.MemPool.OwnAll
/-
The counters of the pools: what they count, and the limits.
-/
namespace Verif.MemPool
open Verif AllocClass

def isRel (q : Nat) : Tok → Bool
  | .rel p _ _ => p == q
  | _ => false
def isAdvd (q : Nat) : Tok → Bool
  | .advd p => p == q
  | _ => false
def isDec (q : Nat) : Tok → Bool
  | .dec p => p == q
  | _ => false

def someAdvd : Tok → Bool
  | .advd _ => true
  | _ => false
def someRecl : Tok → Bool
  | .recl _ _ => true
  | _ => false

/-- slabs in the classes of the pool -/
def clsSlabs (n : Nat) (cl : Nat → Client) : Nat := ((List.range n).map fun c => (cl c).slabs.length).sum

/-- if a slab will be taken from the slab allocator -/
def fetch (x : Pool) : Nat := if x.free.isEmpty then x.lk.need else 0

/-- what holds for each pool; the arguments: pool, its clients, the threads at work, lost slabs, what is known -/
structure BP (q : Nat) (x : Pool) (cl : Nat → Client) (toks : List Tok) (lost : List (Nat × Nat)) (off peak : Nat)
    (raced low : Bool) : Prop where
  cur : x.cur + off = clsSlabs x.sizes.length cl + x.lk.hand.length + x.lk.need + toks.countP (isRel q) +
    toks.countP (isAdvd q) + toks.countP (isDec q) + lost.countP (fun l => l.1 == q)
  pk : x.max ≤ peak
  lo : low = false → 0 ≤ x.adv ∧ (∀ l a, x.lk = .held l (.read a) → 0 ≤ a) ∧ x.cur * 4194304 ≤ peak
  lim : raced = false → (clsSlabs x.sizes.length cl + x.lk.hand.length + fetch x + toks.countP (isRel q) + x.free.length + x.adv +
    toks.countP (isAdvd q)) * 4194304 ≤ peak + off * 4194304

structure B (g : G) (h : Hist) : Prop where
  pool : ∀ q, BP q (g.pools q) (h.cl q) g.toks g.lost (h.off q) (h.peak q) (h.raced q) (h.low q)
  adv : ((List.range g.np).map fun p => (g.pools p).adv).sum + g.toks.countP someAdvd = g.saAdv.length + g.toks.countP someRecl
  can : g.saCan = false → g.saFree = [] ∧ g.next = g.total
  next : g.next ≤ g.total
  sum : g.sum ≤ g.total * KS
  word : g.total * KS < 2 ^ 64

theorem countP_swap {l : List Tok} {t0 t1 : Tok} (h : t0 ∈ l) (f : Tok → Bool) :
    (t1 :: l.erase t0).countP f + (if f t0 then 1 else 0) = l.countP f + (if f t1 then 1 else 0) := by
  rw [(List.perm_cons_erase h).countP_eq, List.countP_cons, List.countP_cons]; omega

theorem countP_erase' {l : List Tok} {t0 : Tok} (h : t0 ∈ l) (f : Tok → Bool) :
    (l.erase t0).countP f + (if f t0 then 1 else 0) = l.countP f := by
  rw [(List.perm_cons_erase h).countP_eq, List.countP_cons]

/-- sums over pools or classes when one of them changes -/
theorem sum_upd {n p : Nat} (hp : p < n) (f f' : Nat → Int) (h : ∀ q, q ≠ p → f' q = f q) :
    ((List.range n).map f').sum = ((List.range n).map f).sum - f p + f' p := by
  induction n with
  | zero => omega
  | succ n ih =>
    rw [List.range_succ, List.map_append, List.map_append, List.sum_append, List.sum_append]
    simp only [List.map_cons, List.map_nil, List.sum_cons, List.sum_nil]
    by_cases hq : p = n
    · subst hq
      have : (List.range p).map f' = (List.range p).map f := by
        apply List.map_congr_left
        intro q hq
        exact h q (by have := List.mem_range.1 hq; omega)
      rw [this]; omega
    · rw [ih (by omega), h n (fun e => hq e.symm)]; omega

theorem sum_updN {n p : Nat} (hp : p < n) (f f' : Nat → Nat) (h : ∀ q, q ≠ p → f' q = f q) :
    ((List.range n).map f').sum + f p = ((List.range n).map f).sum + f' p := by
  induction n with
  | zero => omega
  | succ n ih =>
    rw [List.range_succ, List.map_append, List.map_append, List.sum_append, List.sum_append]
    simp only [List.map_cons, List.map_nil, List.sum_cons, List.sum_nil]
    by_cases hq : p = n
    · subst hq
      have : (List.range p).map f' = (List.range p).map f := by
        apply List.map_congr_left
        intro q hq
        exact h q (by have := List.mem_range.1 hq; omega)
      rw [this]; omega
    · have := ih (by omega)
      rw [h n (fun e => hq e.symm)]; omega

theorem clsSlabs_upd {n c : Nat} (hc : c < n) (cl : Nat → Client) (k : Client) :
    clsSlabs n (upd cl c k) + (cl c).slabs.length = clsSlabs n cl + k.slabs.length := by
  have := sum_updN hc (fun c => (cl c).slabs.length) (fun c' => (upd cl c k c').slabs.length)
    (fun q hq => by rw [upd_ne _ _ hq])
  simpa [clsSlabs] using this

/-- The pools other than `p` do not notice. -/
theorem BP_other {q x cl toks toks' lost lost' off peak raced low} (b : BP q x cl toks lost off peak raced low)
    (ht : ∀ f : Tok → Bool, (∀ t, t.pool ≠ q → f t = false) → toks'.countP f = toks.countP f)
    (hl : lost'.countP (fun l => l.1 == q) = lost.countP (fun l => l.1 == q)) :
    BP q x cl toks' lost' off peak raced low := by
  have e1 := ht (isRel q) (by intro t; cases t <;> simp [isRel, Tok.pool])
  have e2 := ht (isAdvd q) (by intro t; cases t <;> simp [isAdvd, Tok.pool])
  have e3 := ht (isDec q) (by intro t; cases t <;> simp [isDec, Tok.pool])
  refine ⟨?_, b.pk, b.lo, ?_⟩
  · rw [e1, e2, e3, hl]; exact b.cur
  · rw [e1, e2]; exact b.lim

theorem swap_other {l : List Tok} {t0 t1 : Tok} {p q : Nat} (h : t0 ∈ l) (h0 : t0.pool = p) (h1 : t1.pool = p) (hq : q ≠ p)
    (f : Tok → Bool) (hf : ∀ t, t.pool ≠ q → f t = false) : (t1 :: l.erase t0).countP f = l.countP f := by
  have := countP_swap (t1 := t1) h f
  rw [hf t0 (by omega), hf t1 (by omega)] at this
  simpa using this

theorem erase_other {l : List Tok} {t0 : Tok} {p q : Nat} (h : t0 ∈ l) (h0 : t0.pool = p) (hq : q ≠ p)
    (f : Tok → Bool) (hf : ∀ t, t.pool ≠ q → f t = false) : (l.erase t0).countP f = l.countP f := by
  have := countP_erase' h f
  rw [hf t0 (by omega)] at this
  simpa using this

theorem cons_other {l : List Tok} {t1 : Tok} {p q : Nat} (h1 : t1.pool = p) (hq : q ≠ p)
    (f : Tok → Bool) (hf : ∀ t, t.pool ≠ q → f t = false) : (t1 :: l).countP f = l.countP f := by
  rw [List.countP_cons, hf t1 (by omega)]; simp

/-- one pool and its history change, and the threads at work -/
theorem pool_B {g : G} {h : Hist} {g' : G} {h' : Hist} {p : Nat} (b : B g h)
    (hq : ∀ q, q ≠ p → g'.pools q = g.pools q ∧ h'.cl q = h.cl q ∧ h'.off q = h.off q ∧ h'.peak q = h.peak q ∧
      h'.raced q = h.raced q ∧ h'.low q = h.low q)
    (ht : ∀ q, q ≠ p → ∀ f : Tok → Bool, (∀ t, t.pool ≠ q → f t = false) → g'.toks.countP f = g.toks.countP f)
    (hl : ∀ q, q ≠ p → g'.lost.countP (fun l => l.1 == q) = g.lost.countP (fun l => l.1 == q))
    (hp : BP p (g'.pools p) (h'.cl p) g'.toks g'.lost (h'.off p) (h'.peak p) (h'.raced p) (h'.low p)) :
    ∀ q, BP q (g'.pools q) (h'.cl q) g'.toks g'.lost (h'.off q) (h'.peak q) (h'.raced q) (h'.low q) := by
  intro q
  by_cases e : q = p
  · subst e; exact hp
  · obtain ⟨e1, e2, e3, e4, e5, e6⟩ := hq q e
    rw [e1, e2, e3, e4, e5, e6]
    exact BP_other (b.pool q) (ht q e) (hl q e)

theorem sum_pools {g : G} {p : Nat} {x : Pool} (h : x.max = (g.pools p).max) :
    ((List.range g.np).map fun q => (upd g.pools p x q).max).sum = g.sum := by
  unfold G.sum
  congr 1
  apply List.map_congr_left
  intro q _
  by_cases e : q = p
  · subst e; simp [h]
  · rw [upd_ne _ _ e]

theorem adv_pools {g : G} {p : Nat} {x : Pool} (h : x.adv = (g.pools p).adv) :
    ((List.range g.np).map fun q => (upd g.pools p x q).adv) = (List.range g.np).map fun q => (g.pools q).adv := by
  apply List.map_congr_left
  intro q _
  by_cases e : q = p
  · subst e; simp [h]
  · rw [upd_ne _ _ e]

theorem adv_pools' {g : G} {p : Nat} {x : Pool} (hp : p < g.np) :
    ((List.range g.np).map fun q => (upd g.pools p x q).adv).sum = ((List.range g.np).map fun q => (g.pools q).adv).sum - (g.pools p).adv + x.adv := by
  have := sum_upd hp (fun q => (g.pools q).adv) (fun q => (upd g.pools p x q).adv) (fun q hq => by rw [upd_ne _ _ hq])
  simpa using this

theorem remaining_eq {g : G} (h1 : g.sum ≤ g.total * KS) (h2 : g.total * KS < 2 ^ 64) : g.remaining = g.total * KS - g.sum := by
  unfold G.remaining
  omega

end Verif.MemPool
