import Verif.Base.Chain
/-
Model of `cachelib/common/hothash/HotHashDetector.{h,cpp}` (C62). Vectors are functions on indices; an index is always the result of
masking. Counters of 32 bits wrap; sizes (size_t) and the loop variable of doMaintenance do not (numBuckets is far below 2^31). `none`
is undefined behaviour (division by 0) or a failed assertion. `hotnessMultiplier - 1` is not cut to 32 bits (multipliers up to 2^32). Single-threaded, as the class.
-/
namespace Verif.HotHash
open Verif

/-- HotHashDetector.h:143-145. -/
structure Cfg where
  n : Nat
  warm : Nat
  mult : Nat

/-- HotHashDetector.h:121-125, 147-151. -/
structure St where
  thr : Nat
  l1 : Nat → Nat
  hash : Nat → Nat
  count : Nat → Nat
  hits : Nat → Nat
  interval : Nat
  bumps : Nat

/-- HotHashDetector.h:91: masking with bucketsMask_. -/
def Cfg.mask (c : Cfg) (x : Nat) : Nat := x &&& (c.n - 1)

/-- HotHashDetector.h:127 l1HashFunction. -/
def Cfg.l1Hash (c : Cfg) (h : Nat) : Nat := c.mask h

/-- HotHashDetector.h:129-131 l2HashFunction. -/
def Cfg.l2Hash (c : Cfg) (h : Nat) : Nat := c.mask (h * 351551 % 2 ^ 64)

/-- HotHashDetector.h:133-136 calcMaintenanceInterval. -/
def Cfg.calc (c : Cfg) (thr : Nat) : Nat := (c.n + c.warm * c.mult / 2) * thr

/-- HotHashDetector.h:84-98. -/
def Cfg.new (c : Cfg) (thr : Nat) : St := ⟨thr, fun _ => 0, fun _ => 0, fun _ => 0, fun _ => 0, c.calc thr, 0⟩

/-- HotHashDetector.cpp:163-175: the loop over `j`, for the hash `h` at `idx`. -/
def Cfg.scanFix (c : Cfg) (s : St) (h idx : Nat) : List Nat → Option (St × Bool)
  | [] => none
  | j :: js =>
    let cand := c.mask (c.l2Hash h + j)
    if cand = idx then some (s, false)
    else if s.hash cand = 0 then
      some ({ s with hash := upd (upd s.hash cand h) idx 0, hits := upd (upd s.hits cand (s.hits idx)) idx 0 }, true)
    else Cfg.scanFix c s h idx js

/-- HotHashDetector.cpp:147-181 fixL2Holes; kScanLen is 5. -/
def Cfg.fix (c : Cfg) (s : St) (idx : Nat) : Option (St × Bool) :=
  let h := s.hash idx
  if h = 0 then some (s, false)
  else if s.count (c.l2Hash h) = 0 ∨ s.hits idx < s.thr / 2 then
    some ({ s with hash := upd s.hash idx 0, hits := upd s.hits idx 0 }, true)
  else if idx = c.l2Hash h then some (s, false)
  else c.scanFix s h idx [1, 2, 3, 4]

/-- What a number of iterations of a loop give. -/
inductive Loop
  | running | failed | done (s : St)

/-- HotHashDetector.cpp:125-130: `fuel` iterations of the loop. -/
def Cfg.loop (c : Cfg) (fuel i sum : Nat) (last : List Nat) (s : St) : Loop :=
  if i < c.n ∨ 0 < sum then
    match fuel with
    | 0 => .running
    | fuel + 1 =>
      match c.fix s (c.mask i) with
      | none => .failed
      | some (s, m) =>
        let moved := if m then 1 else 0
        Cfg.loop c fuel (i + 1) ((sum + moved + 2 ^ 64 - last.headD 0) % 2 ^ 64) ((last ++ [moved]).tail) s
  else .done s

/-- HotHashDetector.cpp:106-117: decay. -/
def Cfg.decay (c : Cfg) (s : St) : St :=
  { s with
    bumps := 0
    l1 := fun i => s.l1 i / 2
    count := fun i => min (c.mult - 1) (s.count i / 2)
    hits := fun i => s.hits i / 2 }

/-- HotHashDetector.cpp:132-144: the new threshold. -/
def Cfg.adjust (c : Cfg) (s : St) : St :=
  let nonZero := ((List.range c.n).filter fun i => s.count i != 0).length
  let thr := if nonZero = 0 then max 2 (s.thr / 2) else if c.warm < nonZero then min (2 ^ 20) (s.thr * 2) else s.thr
  { s with thr := thr, interval := c.calc thr }

/-- HotHashDetector.cpp:105-145 doMaintenance, if the loop ends after at most `fuel` iterations. -/
def Cfg.maint (c : Cfg) (fuel : Nat) (s : St) : Option St :=
  match c.loop fuel 0 0 [0, 0, 0, 0, 0] (c.decay s) with
  | .done s => some (c.adjust s)
  | _ => none

/-- HotHashDetector.cpp:46-58: the index of the cell that holds `h`, up to the first empty one. -/
def Cfg.findCell (c : Cfg) (s : St) (h : Nat) : List Nat → Option Nat
  | [] => none
  | i :: is =>
    let cell := c.mask (c.l2Hash h + i)
    if s.hash cell = 0 then none else if s.hash cell = h then some cell else Cfg.findCell c s h is

/-- HotHashDetector.cpp:68-79: the hash is recorded. -/
def Cfg.record (c : Cfg) (s : St) (h : Nat) : List Nat → St
  | [] => s
  | i :: is =>
    let cell := c.mask (c.l2Hash h + i)
    if s.hash cell = 0 then { s with hash := upd s.hash cell h } else if s.hash cell = h then s else Cfg.record c s h is

/-- HotHashDetector.cpp:32-81 bumpHash, after the maintenance. Simplified: undefined as soon as a division by 0 could follow; the code with
a multiplier of 0 divides only once a hash is found. -/
def Cfg.bumpCore (c : Cfg) (s : St) (h : Nat) : Option (St × Nat) :=
  let l1count := (s.l1 (c.l1Hash h) + 1) % 2 ^ 32
  let s := { s with l1 := upd s.l1 (c.l1Hash h) l1count }
  if l1count < s.thr / 2 then some (s, 0)
  else if c.mult = 0 ∨ s.thr = 0 then none
  else
    let l2count := s.count (c.l2Hash h)
    let found := if 0 < l2count then c.findCell s h [0, 1, 2, 3, 4] else none
    let result := if found.isSome then min 255 (max 1 (l2count / c.mult)) else 0
    let s := match found with
      | some cell => { s with hits := upd s.hits cell ((s.hits cell + 1) % 2 ^ 32) }
      | none => s
    if l1count % s.thr ≠ 0 then some (s, result)
    else
      let cnt := (s.count (c.l2Hash h) + 1) % 2 ^ 32
      let s := { s with count := upd s.count (c.l2Hash h) cnt }
      if cnt < c.mult then some (s, result) else some (c.record s h [0, 1, 2, 3, 4], result)

/-- HotHashDetector.cpp:28-82 bumpHash. -/
def Cfg.bump (c : Cfg) (fuel : Nat) (s : St) (h : Nat) : Option (St × Nat) :=
  let s := { s with bumps := s.bumps + 1 }
  if s.interval ≤ s.bumps then (c.maint fuel s).bind fun s => c.bumpCore s h else c.bumpCore s h

/-- HotHashDetector.cpp:84-103 isHotHash. -/
def Cfg.isHot (c : Cfg) (s : St) (h : Nat) : Bool :=
  if s.l1 (c.l1Hash h) < s.thr / 2 then false
  else if s.count (c.l2Hash h) = 0 then false
  else [0, 1, 2, 3, 4].any fun i => s.hash (c.mask (c.l2Hash h + i)) == h

/-- Calls. -/
inductive Op | bump (h : Nat) | maint

/-- A call. -/
def Cfg.step (c : Cfg) (fuel : Nat) (s : St) : Op → Option (St × Nat)
  | .bump h => c.bump fuel s h
  | .maint => (c.maint fuel s).map fun s => (s, 0)

/-- Calls in order, with their results. -/
def Cfg.run (c : Cfg) (fuel : Nat) (s : St) : List Op → Option (St × List Nat)
  | [] => some (s, [])
  | o :: os => (c.step fuel s o).bind fun x => (Cfg.run c fuel x.1 os).map fun y => (y.1, x.2 :: y.2)

end Verif.HotHash
