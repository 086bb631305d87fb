import Verif.MemPool.Props
/-
Concrete histories: they meet the hypotheses of the theorems, and show what breaks the limit of a pool.
-/
namespace Verif.MemPool
open Verif AllocClass

/-- an allocator with `n` slabs after the given steps -/
def runs (n : Nat) (ops : List Op) : Option St := ops.foldlM exec (G.init n, Hist.init)

theorem foldlM_reach : ∀ (ops : List Op) (x y : St), Reach x → ops.foldlM exec x = some y → Reach y
  | [], x, y, hr, h => by simp at h; subst h; exact hr
  | o :: ops, x, y, hr, h => by
    simp only [List.foldlM_cons, Option.bind_eq_bind, Option.bind_eq_some_iff] at h
    obtain ⟨z, hz, h⟩ := h
    exact foldlM_reach ops z y (Reach.step _ _ _ hr hz) h

theorem runs_reach {n ops y} (hn : n * KS < 2 ^ 64) (h : runs n ops = some y) : Reach y :=
  foldlM_reach ops _ _ (Reach.init n hn) h

/-- a thread gets a slab for pool `p` -/
def getSlab (p : Nat) : List Op := [.lock p, .readAdv p, .check p, .take p false]

/-- two pools, an allocation in each -/
def opsTwo : List Op :=
  [.create 8388608 [1398101, 4194304], .create 4194304 [2097152]] ++
  getSlab 0 ++ [.addAlloc 0 0, .unlock 0, .cls 0 0 .alloc .resize] ++ getSlab 1 ++ [.addAlloc 1 0, .unlock 1] ++
  getSlab 0 ++ [.addAlloc 0 1, .unlock 0]

theorem two_lives : (runs 4 opsTwo).map (fun x => ((x.2.cl 0 0).live, (x.2.cl 0 1).live, (x.2.cl 1 0).live)) =
    some ([(0, 1398101), (0, 0)], [(2, 0)], [(1, 0)]) := by decide +kernel

example : ∃ x, Reach x ∧ Exists x 0 0 ∧ Exists x 1 0 ∧ (0, 1398101) ∈ (x.2.cl 0 0).live ∧ (1, 0) ∈ (x.2.cl 1 0).live := by
  have h2 : (runs 4 opsTwo).map (fun x => decide (0 < x.1.np ∧ 0 < (x.1.pools 0).sizes.length ∧ 1 < x.1.np ∧ 0 < (x.1.pools 1).sizes.length)) = some true := by
    decide +kernel
  have h3 := two_lives
  obtain ⟨x, hx⟩ : ∃ x, runs 4 opsTwo = some x := by
    cases h : runs 4 opsTwo with
    | none => rw [h] at h3; simp at h3
    | some x => exact ⟨x, rfl⟩
  rw [hx] at h2 h3
  simp at h2 h3
  exact ⟨x, runs_reach (by decide) hx, ⟨h2.1, h2.2.1⟩, ⟨h2.2.2.1, h2.2.2.2⟩, by rw [h3.1]; simp, by rw [h3.2.2]; simp⟩

/-- a pool of one slab; its slab goes to the list of free slabs, from there to the slab allocator, and both times the counter
goes down -/
def opsOff : List Op :=
  [.create 4194304 [4194304]] ++ getSlab 0 ++ [.add 0 0, .unlock 0,
   .cls 0 0 (.relStart none 0) (.rebalance none), .release 0 0 (.rebalance none) true, .decr 0,
   .takeOff 0, .release 0 0 .resize true, .decr 0] ++
  getSlab 0 ++ [.addAlloc 0 0, .unlock 0] ++ getSlab 0 ++ [.addAlloc 0 0, .unlock 0]

/-- C15, what fails: releasing a slab from the list of free slabs (MemoryPool.cpp:477-488, then 425) lowers the counter for a slab
that it did not count, so the pool then gets a slab more than its size allows; no advising, no races, the size of the pool was never
changed. -/
theorem free_list_release_breaks_limit : ∃ x, Reach x ∧ x.2.raced 0 = false ∧ x.2.low 0 = false ∧ x.1.toks = [] ∧
    (x.1.pools 0).max = 4194304 ∧ x.2.peak 0 = 4194304 ∧ (x.2.cl 0 0).live.length = 2 ∧ held x.1 x.2 0 = 2 := by
  have h1 : (runs 4 opsOff).map (fun x => (decide (x.2.raced 0 = false ∧ x.2.low 0 = false ∧ x.1.toks = []),
      decide ((x.1.pools 0).max = 4194304 ∧ x.2.peak 0 = 4194304), decide ((x.2.cl 0 0).live.length = 2 ∧ held x.1 x.2 0 = 2))) =
      some (true, true, true) := by decide +kernel
  obtain ⟨x, hx⟩ : ∃ x, runs 4 opsOff = some x := by
    cases h : runs 4 opsOff with
    | none => rw [h] at h1; simp at h1
    | some x => exact ⟨x, rfl⟩
  rw [hx] at h1
  simp only [Option.map_some, Option.some.injEq, Prod.mk.injEq, decide_eq_true_eq] at h1
  exact ⟨x, runs_reach (by decide) hx, h1.1.1, h1.1.2.1, h1.1.2.2, h1.2.1.1, h1.2.1.2, h1.2.2.1, h1.2.2.2⟩

/-- a pool of one slab; while one thread computes allSlabsAllocated another one advises the slab of the pool away -/
def opsRace : List Op :=
  [.create 4194304 [4194304]] ++ getSlab 0 ++ [.add 0 0, .unlock 0,
   .cls 0 0 (.relStart none 0) .advise, .lock 0, .readAdv 0,
   .release 0 0 .advise true, .advInc 0, .decr 0,
   .check 0, .take 0 false, .addAlloc 0 0, .unlock 0]

/-- C15, what fails: allSlabsAllocated (MemoryPool.h:129-132) reads the advised size first and the size of the slabs later; a slab
that is advised away in between is counted in neither, and the pool then has a slab in use and one that counts as advised
although its size allows one in total. -/
theorem advise_race_breaks_limit : ∃ x, Reach x ∧ x.2.off 0 = 0 ∧ x.2.low 0 = false ∧ x.1.toks = [] ∧
    x.2.peak 0 = 4194304 ∧ held x.1 x.2 0 = 1 ∧ (x.1.pools 0).adv = 1 := by
  have h1 : (runs 4 opsRace).map (fun x => (decide (x.2.off 0 = 0 ∧ x.2.low 0 = false ∧ x.1.toks = []),
      decide (x.2.peak 0 = 4194304), decide (held x.1 x.2 0 = 1 ∧ (x.1.pools 0).adv = 1))) =
      some (true, true, true) := by decide +kernel
  obtain ⟨x, hx⟩ : ∃ x, runs 4 opsRace = some x := by
    cases h : runs 4 opsRace with
    | none => rw [h] at h1; simp at h1
    | some x => exact ⟨x, rfl⟩
  rw [hx] at h1
  simp only [Option.map_some, Option.some.injEq, Prod.mk.injEq, decide_eq_true_eq] at h1
  exact ⟨x, runs_reach (by decide) hx, h1.1.1, h1.1.2.1, h1.1.2.2, h1.2.1, h1.2.2.1, h1.2.2.2⟩

/-- two pools; one advises a slab away, the other one reclaims it and its count becomes negative -/
def opsLow : List Op :=
  [.create 4194304 [4194304], .create 4194304 [4194304]] ++ getSlab 0 ++ [.add 0 0, .unlock 0,
   .cls 0 0 (.relStart none 0) .advise, .release 0 0 .advise true, .advInc 0, .decr 0,
   .reclaim 1, .reclaimed 1 0] ++
   getSlab 1 ++ [.addAlloc 1 0, .unlock 1] ++ getSlab 1 ++ [.addAlloc 1 0, .unlock 1]

/-- C15, what fails: reclaimSlabsAndGrow (MemoryPool.cpp:461-475) takes any advised slab, also one that another pool advised away;
the count of advised slabs then goes below zero and the pool may exceed its size. -/
theorem reclaim_foreign_breaks_limit : ∃ x, Reach x ∧ x.2.off 1 = 0 ∧ x.2.raced 1 = false ∧ x.1.toks = [] ∧
    x.2.peak 1 = 4194304 ∧ held x.1 x.2 1 = 2 ∧ (x.1.pools 1).adv = -1 := by
  have h1 : (runs 4 opsLow).map (fun x => (decide (x.2.off 1 = 0 ∧ x.2.raced 1 = false ∧ x.1.toks = []),
      decide (x.2.peak 1 = 4194304), decide (held x.1 x.2 1 = 2 ∧ (x.1.pools 1).adv = -1))) =
      some (true, true, true) := by decide +kernel
  obtain ⟨x, hx⟩ : ∃ x, runs 4 opsLow = some x := by
    cases h : runs 4 opsLow with
    | none => rw [h] at h1; simp at h1
    | some x => exact ⟨x, rfl⟩
  rw [hx] at h1
  simp only [Option.map_some, Option.some.injEq, Prod.mk.injEq, decide_eq_true_eq] at h1
  exact ⟨x, runs_reach (by decide) hx, h1.1.1, h1.1.2.1, h1.1.2.2, h1.2.1, h1.2.2.1, h1.2.2.2⟩

/-- the allocation of pool 1 is freed and its slab released, to be advised away -/
def opsRel : List Op := opsTwo ++ [.cls 1 0 (.free (1, 0)) .advise, .cls 1 0 (.relStart none 0) .advise] ++
  List.replicate 5 (.cls 1 0 (.relStep false) .advise)

/-- the hypotheses of `pool_limit`, `class_limit`: two slabs in classes of pool 0 -/
example : (runs 4 opsRel).map (fun x => (x.1.toks, decide (x.2.off 0 = 0 ∧ x.2.raced 0 = false ∧ x.2.low 0 = false), held x.1 x.2 0)) =
    some ([.rel 1 1 .advise], true, 2) := by
  decide +kernel

/-- `counter_exact`, `advised_exact`: then the slab is advised away and the threads are done -/
example : (runs 4 (opsRel ++ [.release 1 1 .advise true, .advInc 1, .decr 1])).map
    (fun x => (x.1.toks, (x.1.pools 1).adv, x.1.saAdv)) = some ([], 1, [1]) := by
  decide +kernel

/-- `grant_within` and `refused_exhausted`: a pool below its limit, with memory and without -/
example : (runs 1 ([.create 4194304 [4194304]] ++ [.lock 0, .readAdv 0])).map (fun x => ((x.1.pools 0).lk, (exec x (.check 0)).map fun y => (y.1.pools 0).cur)) =
    some (.held [] (.read 0), some 1) := by decide +kernel

example : (runs 0 [.create 0 [4194304]]).map (fun x => (x.1.np, x.1.next, x.1.total)) = some (1, 0, 0) := by decide +kernel

/-- `generate_spec`: a factor of 2 -/
example : generateAllocSizes (fun n => 2 * n) true 4194304 1048576 false = .ok [1048576, 2097152, 4194304] := by decide +kernel

theorem doubling_grows : Grows (fun n => 2 * n) := ⟨fun n h => by omega, fun n h => by omega⟩

example : classFor [64, 128, 4194304] 65 = some 1 ∧ classFor [64, 128, 4194304] 0 = none ∧ classFor [64, 128] 129 = none := by
  decide +kernel

example : generateOptimal 2000000 4194304 = some [2097152, 4194304] := by decide +kernel
example : generateEven 2000000 4194304 2 = some [4194304] := by decide +kernel

end Verif.MemPool
