import Verif.AllocClass.Props
/-
The statistics, concrete histories that meet the hypotheses of the theorems, and a history in which memory becomes
unreachable for allocate() after an aborted release.
-/
namespace Verif.AllocClass
open Verif

/-! ### statistics -/

/-- all positions of the slabs -/
def grid (size : Nat) (l : List Nat) : List Addr := l.flatMap fun sl => (List.range (KS / size)).map fun i => (sl, i * size)

/-- what is not yet carved -/
def rest (size off : Nat) : Option Nat → List Addr
  | none => []
  | some sl => ((List.range (KS / size)).filter fun i => off ≤ i * size).map fun i => (sl, i * size)

theorem map_nodup {size : Nat} (h0 : 0 < size) (sl : Nat) {l : List Nat} (h : l.Nodup) : (l.map fun i => (sl, i * size)).Nodup := by
  refine List.Nodup.map ?_ h
  intro i j hij
  simp at hij
  omega

theorem grid_count {size : Nat} (h0 : 0 < size) (l : List Nat) (h : l.Nodup) (a : Addr) :
    (grid size l).count a = if chunk size a ∧ a.1 ∈ l then 1 else 0 := by
  have hnd : (grid size l).Nodup := by
    unfold grid
    rw [List.nodup_flatMap]
    refine ⟨fun x _ => map_nodup h0 x List.nodup_range, h.imp ?_⟩
    intro x y hxy
    simp only [Function.onFun, List.disjoint_left, List.mem_map]
    rintro b ⟨i, _, rfl⟩ ⟨j, _, hj⟩
    simp at hj; exact hxy hj.1.symm
  rw [hnd.count]
  congr 1
  simp only [grid, List.mem_flatMap, List.mem_map, List.mem_range, eq_iff_iff]
  constructor
  · rintro ⟨x, hx, i, hi, rfl⟩
    exact ⟨(chunk_mul h0).2 hi, hx⟩
  · rintro ⟨hc, ha⟩
    exact ⟨a.1, ha, a.2 / size, hc.2, (chunk_eq hc).symm⟩

theorem rest_count {size off : Nat} (h0 : 0 < size) (cur : Option Nat) (a : Addr) :
    (rest size off cur).count a = unc size off cur a := by
  cases cur with
  | none => simp [rest, unc]
  | some sl =>
    simp only [rest]
    rw [(map_nodup h0 sl (List.nodup_range.filter _)).count]
    unfold unc
    congr 1
    simp only [List.mem_map, List.mem_filter, List.mem_range, decide_eq_true_eq, Option.some.injEq, eq_iff_iff]
    constructor
    · rintro ⟨i, ⟨hi, ho⟩, rfl⟩
      exact ⟨rfl, (chunk_mul h0).2 hi, ho⟩
    · rintro ⟨rfl, hc, ho⟩
      have := chunk_eq hc
      refine ⟨a.2 / size, ⟨hc.2, ?_⟩, this.symm⟩
      have := congrArg Prod.snd this
      simp at this; omega

theorem range_filter_length (n k : Nat) : ((List.range n).filter fun i => decide (k ≤ i)).length = n - k := by
  induction n with
  | zero => simp
  | succ n ih =>
    rw [List.range_succ, List.filter_append, List.length_append, ih]
    by_cases h : k ≤ n <;> simp [h] <;> omega

theorem rest_length {size off : Nat} (h0 : 0 < size) (ho : off % size = 0) (cur : Option Nat) :
    (rest size off cur).length = if cur.isSome && decide (off + size ≤ KS) then (KS - off) / size else 0 := by
  cases cur with
  | none => simp [rest]
  | some sl =>
    obtain ⟨k, rfl⟩ : ∃ k, off = k * size := ⟨off / size, by have := Nat.div_add_mod off size; rw [ho] at this; rw [Nat.mul_comm]; omega⟩
    have : ((List.range (KS / size)).filter fun i => decide (k * size ≤ i * size)) =
        (List.range (KS / size)).filter fun i => decide (k ≤ i) := by
      apply List.filter_congr
      intro i _
      simp [Nat.mul_le_mul_right_iff h0]
    simp only [rest, List.length_map, this, range_filter_length]
    have e : (KS - k * size) / size = KS / size - k := by
      rw [Nat.mul_comm]; exact Nat.sub_mul_div _ _ _
    by_cases hk : k * size + size ≤ KS
    · simp [hk, e]
    · simp only [hk, decide_false, Bool.and_false, Bool.false_eq_true, if_false]
      have : KS / size < k + 1 := (Nat.div_lt_iff_lt_mul h0).2 (by
        have : (k + 1) * size = k * size + size := by ring
        omega)
      omega

theorem grid_length (size : Nat) (l : List Nat) : (grid size l).length = l.length * (KS / size) := by
  induction l with
  | nil => simp [grid]
  | cons x l ih =>
    unfold grid at ih ⊢
    rw [List.flatMap_cons, List.length_append, ih]; simp; ring

/-- C14: when no startSlabRelease is at work, the number of active allocations that the statistics report is the number of live allocations outside the slabs under
release, and the slab counts are those of the class. -/
theorem stats_active {cls pool size s c} (h : Reach cls pool size (s, c)) (hp : c.pruning = none) :
    s.ac.stats.2.2.2 = (c.live.filter (fun a => a.1 ∉ c.opens)).length ∧
    s.ac.stats.1 + s.ac.stats.2.1 + c.opens.length = c.slabs.length := by
  have hi := reach_inv h
  have hpn : s.ac.prune = none := by
    have := hi.pruning; simp only [hp] at this
    cases hx : s.ac.prune <;> simp [hx] at this ⊢
  have nd2 : s.ac.allocated.Nodup := (List.nodup_append.1 hi.nodup).2.1
  have hperm : (c.live.filter (fun a => a.1 ∉ c.opens) ++ s.ac.freed ++ rest size s.ac.off s.ac.cur).Perm (grid size s.ac.allocated) := by
    rw [List.perm_iff_count]
    intro a
    rw [List.count_append, List.count_append, grid_count hi.size0 _ nd2, rest_count hi.size0]
    have e := hi.cnt a
    simp only [hpn, pc] at e
    have hmp := hi.maps a.1
    simp only [hp] at hmp
    by_cases ho : a.1 ∈ c.opens
    · have h1 := hi.openFree a ho
      have h2 := (hi.excl a.1 (hmp.2 (Or.inl ho))).2
      have h3 : unc size s.ac.off s.ac.cur a = 0 := by
        unfold unc; rw [if_neg]; rintro ⟨g, _⟩; exact h2 (hi.cur _ g)
      have h4 : (c.live.filter (fun a => a.1 ∉ c.opens)).count a = 0 := by
        rw [List.count_eq_zero]; simp [ho]
      simp only at h1 h2
      rw [h4, h1.1, h3]; simp [h2]
    · have h1 : s.ac.map a.1 = none := by
        cases hm : s.ac.map a.1 with
        | none => rfl
        | some x => rw [hm] at hmp; simp [ho] at hmp
      have h4 : (c.live.filter (fun a => a.1 ∉ c.opens)).count a = c.live.count a := by
        rw [List.count_filter]; simp [ho]
      rw [h4]
      simp [bit, h1, own] at e
      exact e
  have hlen := hperm.length_eq
  rw [List.length_append, List.length_append, grid_length, rest_length hi.size0 hi.off] at hlen
  have hs := hi.hsize
  simp only at hs
  constructor
  · simp only at hlen
    simp only [AC.stats, AC.per, AC.canCarve, hs]
    omega
  · simp only [AC.stats]
    have hnd : (s.ac.allocated ++ s.ac.freeSlabs ++ c.opens).Nodup := by
      have h0 := hi.nodup
      rw [List.nodup_append] at h0 ⊢
      refine ⟨?_, hi.opensNd, ?_⟩
      · rw [List.nodup_append]
        exact ⟨h0.2.1, h0.1, fun x hx y hy e => h0.2.2 y hy x hx e.symm⟩
      · intro x hx y hy
        rintro rfl
        have := hi.excl x ((hi.maps x).2 (Or.inl hy))
        simp at hx; tauto
    have : (s.ac.allocated ++ s.ac.freeSlabs ++ c.opens).Perm c.slabs := by
      rw [List.perm_ext_iff_of_nodup hnd hi.slabsNd]
      intro x
      have h1 := hi.slabs x
      have h2 := hi.maps x
      simp only [hp] at h1 h2
      simp only [List.mem_append]
      rw [h1, h2]; simp; tauto
    have := this.length_eq
    simp at this; omega

/-! ### concrete histories -/

inductive Op where
  | addSlab (sl : Nat)
  | alloc
  | free (a : Addr)
  | start (hint : Option Addr) (r : Nat)
  | go (ab : Bool)
  | abort (sl : Nat)
  | complete (sl : Nat)

/-- runs one operation, if it is legal -/
def runOp (x : CS × Client) : Op → Option (CS × Client)
  | .addSlab sl =>
    if sl ∉ x.2.slabs ∧ sl < x.1.next ∧ (x.1.hdr sl).pool = x.1.ac.pool ∧ (x.1.hdr sl).marked = false then
      some (addSlab x.1 sl, { x.2 with slabs := sl :: x.2.slabs }) else none
  | .alloc => x.1.ac.allocate.map fun r => ({ x.1 with ac := r.1 }, { x.2 with live := r.2.toList ++ x.2.live })
  | .free a => if a ∈ x.2.live then (match free x.1 a with
      | .ok s => some (s, { x.2 with live := x.2.live.erase a })
      | .error _ => none) else none
  | .start hint r => match relStart x.1 hint r with
    | .ok (s, o) => some (s, x.2.afterStart o (relSlab x.1 hint r))
    | .error _ => none
  | .go ab => match relStep x.1 ab with
    | .ok (s, o) => some (s, x.2.afterStep ab o)
    | .error _ => none
  | .abort sl => if sl ∈ x.2.opens then (match abortRelease x.1 sl with
      | .ok s => some (s, { x.2 with opens := x.2.opens.erase sl })
      | .error _ => none) else none
  | .complete sl => if sl ∈ x.2.opens then (match completeRelease x.1 sl with
      | .ok s => some (s, { x.2 with opens := x.2.opens.erase sl, slabs := x.2.slabs.erase sl })
      | .error _ => none) else none

theorem runOp_step {x y : CS × Client} {op : Op} (h : runOp x op = some y) : Call x y := by
  obtain ⟨s, c⟩ := x
  cases op with
  | addSlab sl =>
    simp only [runOp] at h
    split at h
    · rename_i hc; cases h; exact Call.addSlab s c sl hc.1 hc.2.1 hc.2.2.1 hc.2.2.2
    · cases h
  | alloc =>
    simp only [runOp] at h
    cases ha : s.ac.allocate with
    | none => simp [ha] at h
    | some r => simp [ha] at h; subst h; exact Call.alloc s c r.1 r.2 ha
  | free a =>
    simp only [runOp] at h
    split at h
    · rename_i hc
      split at h
      · rename_i s' hs; cases h; exact Call.free s c a s' hc hs
      · cases h
    · cases h
  | start hint r =>
    simp only [runOp] at h
    split at h
    · rename_i s' o hs; cases h; exact Call.relStart s c hint r s' o hs
    · cases h
  | go ab =>
    simp only [runOp] at h
    split at h
    · rename_i s' o hs; cases h; exact Call.relStep s c ab s' o hs
    · cases h
  | abort sl =>
    simp only [runOp] at h
    split at h
    · rename_i hc
      split at h
      · rename_i s' hs; cases h; exact Call.abort s c sl s' hc hs
      · cases h
    · cases h
  | complete sl =>
    simp only [runOp] at h
    split at h
    · rename_i hc
      split at h
      · rename_i s' hs; cases h; exact Call.complete s c sl s' hc hs
      · cases h
    · cases h

/-- a class 3 of pool 1 with three allocations in a slab; ten slabs exist -/
def start0 : CS × Client := (⟨AC.new 3 1 1398101, fun _ => Hdr.init 1, 10⟩, ⟨[], [], [], none, false⟩)

def runs (ops : List Op) : Option (CS × Client) := ops.foldlM runOp start0

theorem foldlM_reach : ∀ (ops : List Op) (x y : CS × Client), Reach 3 1 1398101 x → ops.foldlM runOp x = some y → Reach 3 1 1398101 y
  | [], x, y, h, he => by simp at he; exact he ▸ h
  | op :: ops, x, y, h, he => by
    rw [List.foldlM_cons] at he
    cases hx : runOp x op with
    | none => simp [hx] at he
    | some z =>
      simp [hx] at he
      exact foldlM_reach ops z y (Reach.step _ _ h (Step.call _ _ (runOp_step hx))) he

theorem runs_reach {ops y} (h : runs ops = some y) : Reach 3 1 1398101 y :=
  foldlM_reach ops _ _ (Reach.init _ _ (by decide) (by decide) (by decide) (by intro sl; simp [Hdr.init])) h

/-- two slabs, four allocations, one of them freed; the release of slab 0 is open with a live allocation in it. -/
def opsOpen : List Op :=
  [.addSlab 0, .addSlab 4, .alloc, .alloc, .alloc, .alloc, .free (4, 1398101), .start (some (4, 0)) 0,
   .go false, .go false, .go false, .go false, .go false]

example : (runs opsOpen).map (fun x => (x.2.live, x.2.opens, x.2.pruning)) =
    some ([(0, 0), (4, 2796202), (4, 0)], [4], none) := by decide +kernel

/-- … after which the live allocations are freed and the release is completed … -/
example : (runs (opsOpen ++ [.free (4, 0), .free (4, 2796202), .complete 4])).map (fun x => (x.2.live, x.2.slabs, x.2.opens)) =
    some ([(0, 0)], [0], []) := by decide +kernel

/-- … or the release is aborted and the free allocation used again, until nothing is left. -/
example : (runs (opsOpen ++ [.abort 4, .alloc, .alloc, .alloc, .alloc])).map (fun x => (x.2.live.length, x.2.opens, x.1.ac.can, x.2.aborted)) =
    some (6, [], false, false) := by decide +kernel

/-- the hypotheses of `context_covers` are met. -/
example : ((runs (opsOpen.take 12)).map fun x => match relStep x.1 false with
    | .ok (_, .context sl act) => some (sl, act)
    | _ => none) = some (some (4, [(4, 0), (4, 2796202)])) := by decide +kernel

/-- an early release without live allocations, and one of an unused slab -/
example : (runs [.addSlab 0, .alloc, .free (0, 0), .start none 5, .go false, .go false, .go false, .go false, .go false]).map
    (fun x => (x.2.slabs, x.2.pruning)) = some ([], none) := by decide +kernel
example : (runs [.addSlab 0, .alloc, .addSlab 1, .start none 5]).map (fun x => (x.2.slabs, x.2.pruning)) = some ([0], none) := by
  decide +kernel

/-- A release that shouldAbortFn stops while the free list is in its hands: an allocation fails meanwhile. -/
def opsLost : List Op :=
  [.addSlab 0, .alloc, .alloc, .alloc, .addSlab 1, .alloc, .alloc, .alloc, .free (1, 0),
   .start (some (0, 0)) 0, .go false, .alloc, .go true, .go true, .go true]

/-- C14, a defect: after such an abort allocate() refuses every request without looking, although no release is under way
and an allocation is free (AllocationClass.cpp:471-479 puts the allocations back without setting canAllocate_; lines
535-552 set it only for allocations of the slab under release). -/
theorem aborted_release_loses_memory : ∃ s c, Reach 3 1 1398101 (s, c) ∧ c.pruning = none ∧ c.opens = [] ∧
    s.ac.can = false ∧ 1 ∈ c.slabs ∧ (1, 0) ∉ c.live := by
  cases h : runs opsLost with
  | none =>
    have : (runs opsLost).isSome = true := by decide +kernel
    rw [h] at this; cases this
  | some x =>
    have e1 : (runs opsLost).map (fun x => (x.2.pruning, x.2.opens, x.1.ac.can)) = some (none, [], false) := by decide +kernel
    have e2 : (runs opsLost).map (fun x => (x.2.slabs, x.2.live)) =
        some ([1, 0], [(1, 2796202), (1, 1398101), (0, 2796202), (0, 1398101), (0, 0)]) := by decide +kernel
    rw [h] at e1 e2
    simp only [Option.map_some, Option.some.injEq, Prod.mk.injEq] at e1 e2
    obtain ⟨h1, h2, h3⟩ := e1
    obtain ⟨h4, h5⟩ := e2
    refine ⟨x.1, x.2, runs_reach h, h1, h2, h3, ?_, ?_⟩
    · rw [h4]; decide
    · rw [h5]; decide

end Verif.AllocClass
