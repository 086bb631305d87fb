import Verif.Base.Chain
import Mathlib.Data.List.Sort
import Mathlib.Algebra.Order.Ring.Rat
/-
Model of the rebalancing strategies: RebalanceStrategy.cpp/.h, RebalanceInfo.h, LruTailAgeStrategy.cpp,
HitsPerSlabStrategy.cpp, MarginalHitsStrategy.cpp, MarginalHitsState.h, FreeMemStrategy.cpp, RandomStrategy.h,
ManualStrategy.h, PoolResizeStrategy.h, and of PoolRebalancer::pickVictimByFreeAlloc and
MarginalHitsOptimizeStrategy::pickVictimAndReceiverRegularPoolsImpl.

What is simplified:
* one pool (all state is kept per pool id); class ids are numbers, kInvalidClassId is `none`;
* comparisons of doubles are arbitrary functions of the integers they are made of (`lessV`, `lessR`, `enough`, `ratioLow`), so
  nothing is assumed about rounding or about the weight function of the user; smoothed ranks are rationals;
* random numbers, and the value that dereferencing the end iterator of an empty std::set gives (`junk`), are inputs;
* a call that throws or divides by zero is `none`.
-/
namespace Verif.Rebalance
open Verif

abbrev ClassId := Nat

/-- Slab::kSize (Slab.h:86-87), 4 MB -/
def kSlab : Nat := 4194304

/-- The statistics of a pool that the strategies read (PoolStats, CacheStats.h; ACStats, MemoryAllocatorStats.h:51-57). -/
structure Stats where
  ids : List ClassId
  freeSlabs : ClassId → Nat
  usedSlabs : ClassId → Nat
  freeAllocs : ClassId → Nat
  allocSize : ClassId → Nat
  allocsPerSlab : ClassId → Nat
  evictions : ClassId → Nat
  hits : ClassId → Nat
  tailHits : ClassId → Nat
  allocFailures : ClassId → Nat
  evictionAge : ClassId → Nat

/-- totalSlabs (MemoryAllocatorStats.h:51-53) -/
def Stats.slabs (s : Stats) (c : ClassId) : Nat := s.freeSlabs c + s.usedSlabs c

/-- getTotalFreeMemory (MemoryAllocatorStats.h:55-57) -/
def Stats.freeMem (s : Stats) (c : ClassId) : Nat := kSlab * s.freeSlabs c + s.freeAllocs c * s.allocSize c

/-- What a call sees besides its own state. -/
structure Round extends Stats where
  /-- pool.allSlabsAllocated() -/
  allAllocated : Bool
  /-- pool.getUnAllocatedSlabMemory() -/
  unallocated : Nat
  /-- getProjectedAge, getOldestElementAge (LruTailAgeStrategy.cpp:29-63) -/
  projAge : ClassId → Nat
  oldAge : ClassId → Nat
  /-- weighted comparisons of (class, score) -/
  lessV : ClassId × Nat → ClassId × Nat → Bool
  lessR : ClassId × Nat → ClassId × Nat → Bool
  /-- HitsPerSlabStrategy.cpp:243-248, on (receiver, score) and (victim, score) -/
  enough : ClassId × Nat → ClassId × Nat → Bool
  /-- improvement < ratio * age (LruTailAgeStrategy.cpp:173) -/
  ratioLow : Nat → Nat → Bool
  rand1 : Nat
  rand2 : Nat
  /-- *end() of an empty set -/
  junk : ClassId

/-- detail::Info (RebalanceInfo.h:28-48); the field id is the index -/
structure Info where
  nSlabs : Nat
  evictions : Nat
  allocFailures : Nat
  holdOff : Nat
  hits : Nat
  tailHits : Nat

/-- State kept for the pool: poolState_ (RebalanceStrategy.h:263) and classStates_ (MarginalHitsStrategy.h:91). -/
structure Pool where
  info : ClassId → Info
  ents : List ClassId
  ranks : ClassId → Rat

/-- RebalanceContext (RebalanceStrategy.h:25-34) -/
structure Ctx where
  victim : Option ClassId
  receiver : Option ClassId
deriving DecidableEq, Repr

/-- kNoOpContext (RebalanceStrategy.cpp:29-30) -/
def noOp : Ctx := ⟨none, none⟩

/-- std::max_element; `none` is the end iterator -/
def maxElement {α : Type} (lt : α → α → Bool) : List α → Option α
  | [] => none
  | x :: xs => some (xs.foldl (fun m y => if lt m y then y else m) x)

/-- std::min_element -/
def minElement {α : Type} (lt : α → α → Bool) : List α → Option α
  | [] => none
  | x :: xs => some (xs.foldl (fun m y => if lt y m then y else m) x)

/-- getDeltaEvictions (RebalanceInfo.h:80-85) -/
def deltaEvictions (p : Pool) (s : Stats) (c : ClassId) : Int := (s.evictions c : Int) - (p.info c).evictions

/-- deltaHits (RebalanceInfo.h:91-102) -/
def deltaHits (p : Pool) (s : Stats) (c : ClassId) : Nat :=
  if s.hits c ≤ (p.info c).hits then 0 else s.hits c - (p.info c).hits

/-- deltaAllocFailures (RebalanceInfo.h:109-116) -/
def deltaAllocFailures (p : Pool) (s : Stats) (c : ClassId) : Nat :=
  if s.allocFailures c ≤ (p.info c).allocFailures then 0 else s.allocFailures c - (p.info c).allocFailures

/-- deltaHitsPerSlab (RebalanceInfo.h:123-125); division by zero is `none` -/
def deltaHitsPerSlab (p : Pool) (s : Stats) (c : ClassId) : Option Nat :=
  if s.slabs c = 0 then none else some (deltaHits p s c / s.slabs c)

/-- projectedDeltaHitsPerSlab (RebalanceInfo.h:133-136); nSlab - 1 wraps for 0 -/
def projectedDeltaHitsPerSlab (p : Pool) (s : Stats) (c : ClassId) : Nat :=
  if s.slabs c = 1 then 2 ^ 64 - 1
  else if s.slabs c = 0 then deltaHits p s c / (2 ^ 64 - 1)
  else deltaHits p s c / (s.slabs c - 1)

/-- getMarginalHits (RebalanceInfo.h:142-145) -/
def marginalHits (p : Pool) (s : Stats) (c : ClassId) : Nat := (s.tailHits c + 2 ^ 64 - (p.info c).tailHits) % 2 ^ 64

/-- filterByNumEvictableSlabs (RebalanceStrategy.cpp:137-147) -/
def filterSlabs (s : Stats) (l : List ClassId) (minSlabs : Nat) : List ClassId := l.filter fun c => !decide (s.slabs c ≤ minSlabs)

/-- filterByAllocFailure (RebalanceStrategy.cpp:149-159) -/
def filterAllocFailure (p : Pool) (s : Stats) (l : List ClassId) : List ClassId := l.filter fun c => !decide (deltaAllocFailures p s c = 0)

/-- filterByNoEvictions (RebalanceStrategy.cpp:161-172) -/
def filterNoEvictions (p : Pool) (s : Stats) (l : List ClassId) : List ClassId :=
  l.filter fun c => !(decide (0 < s.freeSlabs c) || decide (deltaEvictions p s c = 0))

/-- filterVictimsByHoldOff (RebalanceStrategy.cpp:224-242), which changes the records -/
def filterHoldOff (p : Pool) (s : Stats) : List ClassId → Pool × List ClassId
  | [] => (p, [])
  | c :: l =>
    if (p.info c).holdOff = 0 then
      let r := filterHoldOff p s l
      (r.1, c :: r.2)
    else if deltaEvictions p s c = 0 then
      filterHoldOff { p with info := upd p.info c { p.info c with holdOff := (p.info c).holdOff - 1 } } s l
    else
      let r := filterHoldOff { p with info := upd p.info c { p.info c with holdOff := 0 } } s l
      (r.1, c :: r.2)

/-- pickVictimByFreeMem (RebalanceStrategy.cpp:103-134): the check at 114 is of `victims`, not of the filtered set. acStats.at(*it)
throws for an unknown class. -/
def pickVictimByFreeMem (p : Pool) (r : Round) (victims : List ClassId) (threshold : Nat) : Option (Option ClassId) :=
  let nonEvicting := victims.filter fun c => !decide (0 < deltaEvictions p r.toStats c)
  if victims = [] then some none
  else
    let it := (maxElement (fun a b => decide (r.freeMem a < r.freeMem b)) nonEvicting).getD r.junk
    if threshold = 0 then some none
    else if it ∉ r.ids then none
    else if r.freeMem it ≤ threshold then some none
    else some (some it)

/-- HitsPerSlabStrategy::Config (HitsPerSlabStrategy.h:39-97) -/
structure HitsCfg where
  minSlabs : Nat
  numSlabsFreeMem : Nat
  minLruTailAge : Nat
  maxLruTailAge : Nat
  /-- classIdTargetEvictionAge; empty also stands for a null pointer -/
  target : List (ClassId × Nat)
  byFreeMem : Bool
  updateAlways : Bool

/-- the strategies and their configurations -/
inductive Strategy where
  /-- the base class -/
  | nothing
  | lru (minSlabs numSlabsFreeMem minTailAgeDifference : Nat) (weighted : Bool)
  | hits (c : HitsCfg)
  | marginal (minSlabs maxFreeMemSlabs : Nat) (movingAverageParam : Rat)
  | freeMem (minSlabs numFreeSlabs maxUnAllocatedSlabs : Nat)
  | random (minSlabs : Nat)
  | manual (distribution : List Nat)
  | resize (minSlabs : Nat)

/-- PickVictimStrategy: TotalSlabsStrategy or AllocationSizeStrategy (RebalanceStrategy.h:44-68) -/
inductive Fallback where
  | totalSlabs
  | allocationSize (minSlabsForResizing numClassesToPickFrom : Nat)

/-- LruTailAgeStrategy::pickVictim (LruTailAgeStrategy.cpp:70-107) -/
def lruPickVictim (p : Pool) (r : Round) (minSlabs numFree : Nat) : Option (Pool × Option ClassId) :=
  let victims := filterSlabs r.toStats r.ids minSlabs
  let (p, victims) := filterHoldOff p r.toStats victims
  if victims = [] then some (p, none)
  else
    match pickVictimByFreeMem p r victims (numFree * kSlab) with
    | none => none
    | some (some v) => some (p, some v)
    | some none => some (p, maxElement (fun a b => r.lessV (a, r.projAge a) (b, r.projAge b)) victims)

/-- LruTailAgeStrategy::pickReceiver (LruTailAgeStrategy.cpp:109-131) -/
def lruPickReceiver (p : Pool) (r : Round) (victim : Option ClassId) : Option ClassId :=
  let receivers := filterNoEvictions p r.toStats (r.ids.filter fun c => some c ≠ victim)
  minElement (fun a b => r.lessR (a, r.oldAge a) (b, r.oldAge b)) receivers

/-- startHoldOff (RebalanceInfo.h:159, 62) -/
def startHoldOff (p : Pool) (c : ClassId) : Pool := { p with info := upd p.info c { p.info c with holdOff := 10 } }

/-- LruTailAgeStrategy::pickVictimAndReceiverImpl (LruTailAgeStrategy.cpp:133-183) -/
def lruImpl (p : Pool) (r : Round) (minSlabs numFree minDiff : Nat) (weighted : Bool) : Option (Pool × Ctx) :=
  if !r.allAllocated then some (p, noOp)
  else
    match lruPickVictim p r minSlabs numFree with
    | none => none
    | some (p, victim) =>
      match victim, lruPickReceiver p r victim with
      | some v, some rc =>
        if v = rc then some (p, noOp)
        else if !weighted && (decide (r.projAge v < r.oldAge rc) || decide (r.projAge v - r.oldAge rc < minDiff) ||
            r.ratioLow (r.projAge v - r.oldAge rc) (r.projAge v)) then some (p, noOp)
        else some (startHoldOff p rc, ⟨some v, some rc⟩)
      | _, _ => some (p, noOp)

/-- HitsPerSlabStrategy::pickVictim (HitsPerSlabStrategy.cpp:38-107); the filters are filterByMinTailAge and
filterVictimsByTargetEvictionAge (RebalanceStrategy.cpp:174-183, 259-271) -/
def hitsPickVictim (p : Pool) (r : Round) (c : HitsCfg) : Option (Pool × Option ClassId) :=
  let victims := filterSlabs r.toStats r.ids c.minSlabs
  let (p, victims) := filterHoldOff p r.toStats victims
  let victims := if c.minLruTailAge ≠ 0 then victims.filter (fun i => !decide (r.evictionAge i < c.minLruTailAge)) else victims
  let victims := victims.filter fun i => match c.target.lookup i with
    | some t => !decide (r.evictionAge i < t)
    | none => true
  if victims = [] then some (p, none)
  else
    match (if c.byFreeMem then pickVictimByFreeMem p r victims (c.numSlabsFreeMem * kSlab) else some none) with
    | none => none
    | some (some v) => some (p, some v)
    | some none =>
      let old := victims.filter fun i => !decide (r.evictionAge i < c.maxLruTailAge)
      let victims := if c.maxLruTailAge ≠ 0 ∧ old ≠ [] then old else victims
      some (p, minElement (fun a b => r.lessV (a, projectedDeltaHitsPerSlab p r.toStats a) (b, projectedDeltaHitsPerSlab p r.toStats b)) victims)

/-- the receivers HitsPerSlabStrategy considers (HitsPerSlabStrategy.cpp:120-185) -/
def hitsReceivers (p : Pool) (r : Round) (c : HitsCfg) (victim : Option ClassId) : List ClassId :=
  let receivers := filterNoEvictions p r.toStats (r.ids.filter fun c => some c ≠ victim)
  let receivers := filterSlabs r.toStats receivers 0
  let young := receivers.filter fun i => !decide (c.maxLruTailAge < r.evictionAge i)
  let receivers := if c.maxLruTailAge ≠ 0 ∧ young ≠ [] then young else receivers
  let below := receivers.filter fun i => match c.target.lookup i with
    | some t => decide (r.evictionAge i < t)
    | none => false
  let receivers :=
    if c.target ≠ [] then
      if below ≠ [] then below else receivers.filter fun i => (c.target.lookup i).isNone
    else receivers
  let low := receivers.filter fun i => !decide (c.minLruTailAge ≤ r.evictionAge i)
  if c.minLruTailAge ≠ 0 ∧ low ≠ [] then low else receivers

/-- HitsPerSlabStrategy::pickReceiver (HitsPerSlabStrategy.cpp:116-196); a division by zero in the comparison is `none` -/
def hitsPickReceiver (p : Pool) (r : Round) (c : HitsCfg) (victim : Option ClassId) : Option (Option ClassId) :=
  let receivers := hitsReceivers p r c victim
  if receivers.all (fun i => (deltaHitsPerSlab p r.toStats i).isSome) then
    some (maxElement (fun a b => r.lessR (a, (deltaHitsPerSlab p r.toStats a).getD 0) (b, (deltaHitsPerSlab p r.toStats b).getD 0)) receivers)
  else none

/-- updateHits for all classes (HitsPerSlabStrategy.cpp:266-268; RebalanceInfo.h:161-163) -/
def updateHits (p : Pool) (s : Stats) : Pool :=
  { p with info := fun c => if c ∈ s.ids then { p.info c with hits := s.hits c } else p.info c }

/-- HitsPerSlabStrategy::pickVictimAndReceiverImpl (HitsPerSlabStrategy.cpp:200-271) -/
def hitsImpl (p : Pool) (r : Round) (c : HitsCfg) : Option (Pool × Ctx) :=
  if !r.allAllocated then some (p, noOp)
  else
    match hitsPickVictim p r c with
    | none => none
    | some (p, victim) =>
      match victim, hitsPickReceiver p r c victim with
      | _, none => none
      | some v, some (some rc) =>
        if v = rc then some (p, noOp)
        else
          match deltaHitsPerSlab p r.toStats rc with
          | none => none
          | some hr =>
            if !r.enough (rc, hr) (v, projectedDeltaHitsPerSlab p r.toStats v) then
              some (if c.updateAlways then updateHits p r.toStats else p, noOp)
            else some (updateHits (startHoldOff p rc) r.toStats, ⟨some v, some rc⟩)
      | _, _ => some (p, noOp)

/-- updateRankings (MarginalHitsState.h:77-102): entities sorted by score (ties in the order of `ents`), moving average of the index -/
def updateRankings (ents : List Nat) (score : Nat → Nat) (param : Rat) (ranks : Nat → Rat) : Nat → Rat :=
  ((ents.insertionSort (fun a b => score a ≤ score b)).zipIdx).foldl
    (fun rk (e, i) => upd rk e (rk e * param + (i : Rat) * (1 - param))) ranks

/-- pickVictimAndReceiverFromRankingsImpl (MarginalHitsState.h:104-126); the order of the unordered_map is that of `ents` -/
def pickFromRankings (ents : List Nat) (ranks : Nat → Rat) (validV validR : Nat → Bool) : Option Nat × Option Nat :=
  let z := ents.foldl (fun (z : (Option Nat × Rat) × (Option Nat × Rat)) e =>
      (if validV e && decide (ranks e < z.1.2) then (some e, ranks e) else z.1,
       if validR e && decide (z.2.2 < ranks e) then (some e, ranks e) else z.2))
    ((none, (ents.length : Rat)), (none, -1))
  (z.1.1, z.2.1)

/-- the checks after it (MarginalHitsStrategy.cpp:90-94, MarginalHitsOptimizeStrategy.cpp:34-38) -/
def checkedPick (ents : List Nat) (ranks : Nat → Rat) (validV validR : Nat → Bool) : Option Nat × Option Nat :=
  match pickFromRankings ents ranks validV validR with
  | (some v, some rc) => if v = rc then (none, none) else (some v, some rc)
  | _ => (none, none)

/-- MarginalHitsStrategy::pickVictimAndReceiverImpl (MarginalHitsStrategy.cpp:29-62) -/
def marginalImpl (p : Pool) (r : Round) (minSlabs maxFree : Nat) (param : Rat) : Option (Pool × Ctx) :=
  if !r.allAllocated then some (p, noOp)
  else
    let p := if p.ents = [] then { p with ents := r.ids, ranks := fun c => if c ∈ r.ids then 0 else p.ranks c } else p
    let p := { p with ranks := updateRankings p.ents (marginalHits p r.toStats) param p.ranks }
    let vr := checkedPick p.ents p.ranks (fun c => decide (minSlabs < r.slabs c)) (fun c => decide (r.freeMem c < maxFree * kSlab))
    some (p, ⟨vr.1, vr.2⟩)

/-- FreeMemStrategy::pickVictimAndReceiverImpl (FreeMemStrategy.cpp:35-62) -/
def freeMemImpl (p : Pool) (r : Round) (minSlabs numFree maxUnalloc : Nat) : Option (Pool × Ctx) :=
  if maxUnalloc * kSlab < r.unallocated then some (p, noOp)
  else
    let victims := filterSlabs r.toStats r.ids minSlabs
    if victims = [] then some (p, noOp)
    else
      match pickVictimByFreeMem p r victims (numFree * kSlab) with
      | none => none
      | some none => some (p, noOp)
      | some (some v) => some (p, ⟨some v, none⟩)

/-- RandomStrategy::pickVictimAndReceiverImpl (RandomStrategy.h:46-56, 63-71) -/
def randomImpl (p : Pool) (r : Round) (minSlabs : Nat) : Option (Pool × Ctx) :=
  let victim := (filterSlabs r.toStats r.ids minSlabs)[r.rand1]?
  let receiver := (r.ids.filter fun c => some c ≠ victim)[r.rand2]?
  some (p, ⟨victim, receiver⟩)

/-- the loop of ManualStrategy::pickVictimAndReceiverImpl (ManualStrategy.h:65-79) -/
def manualLoop (ex : Nat → Nat) : Nat → List Nat → Ctx → Ctx
  | _, [], _ => noOp
  | i, d :: ds, ctx =>
    let ctx := if d < ex i then { ctx with victim := some i } else if ex i < d then { ctx with receiver := some i } else ctx
    if ctx.victim.isSome && ctx.receiver.isSome then ctx else manualLoop ex (i + 1) ds ctx

/-- ManualStrategy::pickVictimAndReceiverImpl (ManualStrategy.h:51-80; slabsDistribution: CacheStats.cpp:454-468) -/
def manualImpl (p : Pool) (r : Round) (dist : List Nat) : Option (Pool × Ctx) :=
  if dist.length ≠ r.ids.length then some (p, noOp) else some (p, manualLoop r.slabs 0 dist noOp)

/-- ManualStrategy::pickVictimImpl (ManualStrategy.h:82-101) -/
def manualVictim (ex : Nat → Nat) : Nat → List Nat → Option ClassId
  | _, [] => none
  | i, d :: ds => if d < ex i then some i else manualVictim ex (i + 1) ds

/-- pickVictimAndReceiverImpl of the strategies (base class: RebalanceStrategy.h:154-158) -/
def pickImpl (st : Strategy) (p : Pool) (r : Round) : Option (Pool × Ctx) :=
  match st with
  | .nothing => some (p, noOp)
  | .lru m f d w => lruImpl p r m f d w
  | .hits c => hitsImpl p r c
  | .marginal m f a => marginalImpl p r m f a
  | .freeMem m f u => freeMemImpl p r m f u
  | .random m => randomImpl p r m
  | .manual d => manualImpl p r d
  | .resize _ => some (p, noOp)

/-- pickVictimImpl of the strategies: base class (RebalanceStrategy.h:160-162), LruTailAgeStrategy.cpp:185-192,
HitsPerSlabStrategy.cpp:274-288, MarginalHitsStrategy.cpp:64-68, ManualStrategy.h:82-101, PoolResizeStrategy.h:40-65 -/
def victimImpl (st : Strategy) (p : Pool) (r : Round) : Option (Pool × Option ClassId) :=
  match st with
  | .nothing => some (p, none)
  | .lru m f _ _ => lruPickVictim p r m f
  | .hits c =>
    match hitsPickVictim p r c with
    | none => none
    | some (p, v) => some (updateHits p r.toStats, v)
  | .marginal m f a =>
    match marginalImpl p r m f a with
    | none => none
    | some (p, ctx) => some (p, ctx.victim)
  | .freeMem _ _ _ => some (p, none)
  | .random _ => some (p, none)
  | .manual d => some (p, if d.length ≠ r.ids.length then none else manualVictim r.slabs 0 d)
  | .resize m => some (p, maxElement (fun a b => decide (r.evictionAge a < r.evictionAge b)) (filterSlabs r.toStats r.ids m))

/-- TotalSlabsStrategy::pickAllocClassForResizing (RebalanceStrategy.cpp:39-57); dereferencing the end of an empty list is `none` -/
def totalSlabsPick (r : Round) : Option (Option ClassId) :=
  match maxElement (fun a b => decide (r.slabs a < r.slabs b)) r.ids with
  | none => none
  | some c => some (if r.slabs c = 0 then none else some c)

/-- pickAllocClassForResizing (RebalanceStrategy.cpp:39-90) -/
def fallback (fb : Fallback) (r : Round) : Option (Option ClassId) :=
  match fb with
  | .totalSlabs => totalSlabsPick r
  | .allocationSize m n =>
    let el := r.ids.filter fun c => decide (m ≤ r.slabs c)
    if el = [] then totalSlabsPick r
    else some ((el.insertionSort fun a b => r.allocSize b ≤ r.allocSize a)[r.rand1 % max 1 (min n el.length)]?)

/-- initPoolState (RebalanceStrategy.cpp:92-101) -/
def initPool (s : Stats) : Pool where
  info c := { nSlabs := s.slabs c, evictions := s.evictions c, allocFailures := 0, holdOff := 0, hits := s.hits c, tailHits := s.tailHits c }
  ents := []
  ranks := fun _ => 0

/-- recordCurrentState (RebalanceStrategy.cpp:32-37), updateRecord (RebalanceInfo.h:167-181) -/
def record (p : Pool) (s : Stats) : Pool :=
  { p with info := fun c => if c ∈ s.ids then
      { p.info c with nSlabs := s.slabs c, evictions := s.evictions c, tailHits := s.tailHits c, allocFailures := s.allocFailures c }
    else p.info c }

/-- pickReceiverWithAllocFailures (RebalanceStrategy.cpp:322-340) -/
def pickReceiverWithAllocFailures (p : Pool) (s : Stats) : Option ClassId :=
  maxElement (fun a b => decide (deltaAllocFailures p s a < deltaAllocFailures p s b)) (filterAllocFailure p s s.ids)

/-- the body of pickVictimAndReceiver (RebalanceStrategy.cpp:278-299) -/
def pickBody (fb : Fallback) (st : Strategy) (p : Pool) (r : Round) : Option (Pool × Ctx) :=
  match pickReceiverWithAllocFailures p r.toStats with
  | none => pickImpl st p r
  | some rc =>
    match victimImpl st p r with
    | none => none
    | some (p, v) =>
      match (match v with | some v => some (some v) | none => fallback fb r) with
      | none => none
      | some (some v) =>
        if v ≠ rc ∧ 1 < (p.info v).nSlabs then some (startHoldOff p rc, ⟨some v, some rc⟩) else pickImpl st p r
      | some none => pickImpl st p r

/-- pickVictimAndReceiver with executeAndRecordCurrentState (RebalanceStrategy.cpp:273-301, 342-362) -/
def pick (fb : Fallback) (st : Strategy) (s : Option Pool) (r : Round) : Option (Pool × Ctx) :=
  match s with
  | none => some (initPool r.toStats, noOp)
  | some p =>
    match pickBody fb st p r with
    | none => none
    | some (p, ctx) => some (record p r.toStats, ctx)

/-- pickVictimForResizing (RebalanceStrategy.cpp:303-320); the fallback reads the statistics again (`r2`) -/
def pickForResizing (fb : Fallback) (st : Strategy) (s : Option Pool) (r r2 : Round) : Option (Pool × Option ClassId) :=
  match (match s with
    | none => some (initPool r.toStats, none)
    | some p => match victimImpl st p r with
      | none => none
      | some (p, v) => some (record p r.toStats, v)) with
  | none => none
  | some (p, some v) => some (p, some v)
  | some (p, none) =>
    match fallback fb r2 with
    | none => none
    | some v => some (p, v)

/-- PoolRebalancer::pickVictimByFreeAlloc (PoolRebalancer.cpp:84-102) -/
def pickByFreeAlloc (s : Stats) (threshold : Nat) : Option ClassId :=
  (s.ids.foldl (fun (z : Option ClassId × Nat) c =>
    if threshold < s.freeAllocs c / s.allocsPerSlab c ∧ z.2 < s.freeAllocs c / s.allocsPerSlab c then (some c, s.freeAllocs c / s.allocsPerSlab c) else z)
    (none, 1)).1

/-- Pools for MarginalHitsOptimizeStrategy (MarginalHitsOptimizeStrategy.cpp:95-112): size, evictions, free memory and score of each pool -/
def optimizePools (ents : List Nat) (size evs free score : Nat → Nat) (minSize maxFree : Nat) (param : Rat) (ranks : Nat → Rat) :
    (Nat → Rat) × (Option Nat × Option Nat) :=
  let ranks := updateRankings ents score param ranks
  (ranks, checkedPick ents ranks (fun q => decide (0 < evs q) && decide (minSize * kSlab < size q)) (fun q => decide (free q < maxFree * kSlab)))

end Verif.Rebalance
