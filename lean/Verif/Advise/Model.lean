/-
Model of MemoryPoolManager::calcNumSlabsToAdviseReclaim (allocator/memory/MemoryPoolManager.cpp) and of the decisions of MemoryMonitor
(allocator/MemoryMonitor.cpp) (C65). Pools are in the order of std::set<PoolId>; maps from pools are lists in that order, with 0 for a pool
that is not in poolAdviseReclaimMap. Numbers of slabs do not overflow (products of two of them are below 2^64). `none` is a failed XDCHECK.
-/
namespace Verif.Advise

/-- What a pool reports: MemoryPoolManager.cpp:290, 292. -/
structure Pool where
  used : Nat
  advised : Nat

/-- MemoryPoolManager.cpp:263-266. -/
def floors (n T : Nat) (l : List Pool) : List Nat := l.map fun p => p.used * n / T

/-- MemoryPoolManager.cpp:267-275: the targets and their sum. -/
def roundUp (n T sum : Nat) : List (Pool × Nat) → List Nat × Nat
  | [] => ([], sum)
  | (p, t) :: l =>
    if sum < n then
      if t * T / n < p.used then ((t + 1) :: (roundUp n T (sum + 1) l).1, (roundUp n T (sum + 1) l).2)
      else (t :: (roundUp n T sum l).1, (roundUp n T sum l).2)
    else (t :: l.map (·.2), sum)

/-- MemoryPoolManager.cpp:256-279 getTargetSlabsToAdvise. -/
def targets (n T : Nat) (l : List Pool) : Option (List Nat) :=
  let r := roundUp n T (floors n T l).sum (l.zip (floors n T l))
  if r.2 = n then some r.1 else none

/-- MemoryPoolManager.cpp:306-319. -/
def adviseLoop : Nat → List (Pool × Nat) → List Nat
  | _, [] => []
  | diff, (p, t) :: l =>
    if diff = 0 then 0 :: adviseLoop 0 l
    else if t ≤ p.advised then 0 :: adviseLoop diff l
    else min (t - p.advised) diff :: adviseLoop (diff - min (t - p.advised) diff) l

/-- MemoryPoolManager.cpp:322-335. -/
def reclaimLoop : Nat → List (Pool × Nat) → List Nat
  | _, [] => []
  | diff, (p, t) :: l =>
    if diff = 0 then 0 :: reclaimLoop 0 l
    else if p.advised ≤ t then 0 :: reclaimLoop diff l
    else min (p.advised - t) diff :: reclaimLoop (diff - min (p.advised - t) diff) l

/-- MemoryPoolManager.cpp:281-338 calcNumSlabsToAdviseReclaim: whether to advise, and how many slabs per pool. -/
def plan (n : Nat) (l : List Pool) : Option (Bool × List Nat) :=
  let A := (l.map (·.advised)).sum
  let T := (l.map (·.used)).sum
  if T = 0 ∨ n = 0 ∧ A = 0 then some (false, l.map fun _ => 0)
  else (targets n T l).map fun ts =>
    if A < n then (true, adviseLoop (n - A) (l.zip ts)) else (false, reclaimLoop (A - n) (l.zip ts))

/-- MemoryMonitor.h:82-127: limits in slabs; `step` is the number of slabs per iteration (MemoryMonitor.cpp:265-266). -/
structure Cfg where
  maxPercent : Nat
  step : Nat

/-- MemoryMonitor.cpp:247-287 adviseAwaySlabs with 82-95: the new numSlabsToAdvise_. -/
def Cfg.adviseAway (c : Cfg) (target advised usable inUse : Nat) : Nat :=
  if inUse = 0 ∨ usable = 0 then target
  else target + min c.step (if c.maxPercent * (advised + usable) / 100 ≤ advised then 0 else c.maxPercent * (advised + usable) / 100 - advised)

/-- MemoryMonitor.cpp:301-318 reclaimSlabs with 82-95: the new numSlabsToAdvise_, `none` for the exception. `want` is what the rate limiter
leaves of a step, in slabs. -/
def reclaim (target advised inUse want : Nat) : Option Nat :=
  if min want advised = 0 ∨ inUse = 0 then some target
  else if target < min want advised then none else some (target - min want advised)

end Verif.Advise
