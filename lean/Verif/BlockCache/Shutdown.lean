import Verif.BlockCache.Restart
/-
Property C45: does `Driver::flush` bring the engine to the quiet state that `persist` needs?

Model of `Driver::flush` (Driver.cpp:239-251), `BlockCache::{drain, flush}` (BlockCache.cpp:1449-1455),
`RegionManager::{drain, flush}` (RegionManager.cpp:724-733) and `Allocator::flush` (Allocator.cpp:135-142) against the reclaim jobs
on the workers of the region manager.  Requests have ended (`NvmCache::shutDown`, NvmCache.h:1706-1720, disables the cache, and
`scheduler_->finish()` waits: C48), so the only other activity is that of reclaim jobs.
-/
namespace Verif.BlockCache.Shutdown
open Verif

/-- Where the thread that shuts down is: waiting for worker `i` (Driver.cpp:240-243); about to flush the allocation regions
(Allocator.cpp:135-142); waiting for worker `i` again (RegionManager.cpp:730-731); ready to persist. -/
inductive Pc
  | drain1 (i : Nat) | flushRa | drain2 (i : Nat) | persist
deriving DecidableEq

/-- `jobs i`: reclaims that worker `i` has not finished; `sched`: numReclaimScheduled_; `ra`: some region allocator has an
allocation region, whose contents are only in memory. -/
structure Sh where
  n : Nat
  pc : Pc
  jobs : Nat → Nat
  sched : Nat
  ra : Bool

/-- RegionManager.h:289-291 getNextWorker and RegionManager.cpp:360-362 startReclaim. -/
def startReclaim (s : Sh) : Sh :=
  { s with sched := s.sched + 1, jobs := upd s.jobs ((s.sched + 1) % s.n) (s.jobs ((s.sched + 1) % s.n) + 1) }

inductive Act
  /-- the thread that shuts down -/
  | main
  /-- a reclaim on worker `i` reinserts an entry (BlockCache.cpp:1217-1240) into the region of an allocator, for which it takes a
  clean region if it must (Allocator.cpp:97-116); then another reclaim is scheduled, or not (RegionManager.cpp:266-275) -/
  | reinsert (i : Nat) (more : Bool)
  /-- a reclaim on worker `i` ends (RegionManager.cpp:403-405) -/
  | finish (i : Nat)

/-- One step. -/
def exec (s : Sh) : Act → Option Sh
  | .main =>
    match s.pc with
    | .drain1 i =>
      if s.n ≤ i then some { s with pc := .flushRa }
      else if s.jobs i = 0 then some { s with pc := .drain1 (i + 1) } else none
    | .flushRa => some { s with pc := .drain2 0, ra := false }
    | .drain2 i =>
      if s.n ≤ i then some { s with pc := .persist }
      else if s.jobs i = 0 then some { s with pc := .drain2 (i + 1) } else none
    | .persist => none
  | .reinsert i more =>
    if i < s.n ∧ 0 < s.jobs i then
      some (if more then startReclaim { s with ra := true } else { s with ra := true })
    else none
  | .finish i => if i < s.n ∧ 0 < s.jobs i then some { s with jobs := upd s.jobs i (s.jobs i - 1) } else none

def runs (s : Sh) : List Act → Option Sh
  | [] => some s
  | a :: as => match exec s a with
    | none => none
    | some s' => runs s' as

/-- Nothing that only memory knows is left, and nothing runs. -/
def Safe (s : Sh) : Prop := s.ra = false ∧ ∀ i, i < s.n → s.jobs i = 0

theorem startReclaim_n (s : Sh) : (startReclaim s).n = s.n ∧ (startReclaim s).pc = s.pc ∧ (startReclaim s).ra = s.ra := ⟨rfl, rfl, rfl⟩

/-- With one worker, past the first wait nothing runs. -/
structure One (s : Sh) : Prop where
  n : s.n = 1
  idle : s.pc ≠ .drain1 0 → s.jobs 0 = 0
  ra : (∀ i, s.pc ≠ .drain1 i) → s.pc ≠ .flushRa → s.ra = false

theorem one_step {s s' : Sh} {a : Act} (h : One s) (he : exec s a = some s') : One s' := by
  obtain ⟨h1, h2, h3⟩ := h
  cases a with
  | main =>
    simp only [exec] at he
    cases hp : s.pc with
    | drain1 i =>
      simp only [hp] at he
      split at he
      · simp only [Option.some.injEq] at he; subst he
        exact ⟨h1, fun _ => h2 (by rw [hp]; intro e; simp only [Pc.drain1.injEq] at e; omega), fun _ h => absurd rfl h⟩
      · split at he
        · simp only [Option.some.injEq] at he; subst he
          have : i = 0 := by omega
          subst this
          exact ⟨h1, fun _ => by assumption, fun h => absurd rfl (h 1)⟩
        · simp at he
    | flushRa =>
      simp only [hp, Option.some.injEq] at he; subst he
      exact ⟨h1, fun _ => h2 (by rw [hp]; simp), fun _ _ => rfl⟩
    | drain2 i =>
      simp only [hp] at he
      have hra := h3 (by rw [hp]; simp) (by rw [hp]; simp)
      have hj := h2 (by rw [hp]; simp)
      split at he
      · simp only [Option.some.injEq] at he; subst he
        exact ⟨h1, fun _ => hj, fun _ _ => hra⟩
      · split at he
        · simp only [Option.some.injEq] at he; subst he
          exact ⟨h1, fun _ => hj, fun _ _ => hra⟩
        · simp at he
    | persist => simp [hp] at he
  | reinsert i more =>
    simp only [exec] at he
    split at he
    · rename_i hi
      simp only [Option.some.injEq] at he
      have hi0 : i = 0 := by omega
      subst hi0
      have hpc : s.pc = .drain1 0 := Classical.byContradiction fun hn => by have := h2 hn; omega
      subst he
      refine ⟨?_, ?_, ?_⟩
      · split <;> exact h1
      · split <;> intro h <;> exact absurd hpc h
      · split <;> intro h <;> exact absurd hpc (h 0)
    · simp at he
  | finish i =>
    simp only [exec] at he
    split at he
    · rename_i hi
      simp only [Option.some.injEq] at he; subst he
      have hi0 : i = 0 := by omega
      subst hi0
      refine ⟨h1, fun h => ?_, h3⟩
      have := h2 h
      omega
    · simp at he

/-- The state at the beginning of a shutdown: any jobs, any allocation regions. -/
def start (n : Nat) (jobs : Nat → Nat) (sched : Nat) (ra : Bool) : Sh := ⟨n, .drain1 0, jobs, sched, ra⟩

/-- C45: with one worker (the default, `cleanRegionThreads`), when the shutdown gets to `persist`, no reclaim runs and no
allocation region is unflushed, whatever the reclaims did. -/
theorem one_worker_safe {jobs : Nat → Nat} {sched : Nat} {ra : Bool} {as : List Act} {s : Sh}
    (hr : runs (start 1 jobs sched ra) as = some s) (hp : s.pc = .persist) : Safe s := by
  have key : ∀ (as : List Act) (s0 : Sh), One s0 → runs s0 as = some s → One s := by
    intro as
    induction as with
    | nil => intro s0 h hr; simp only [runs, Option.some.injEq] at hr; exact hr ▸ h
    | cons a as ih =>
      intro s0 h hr
      simp only [runs] at hr
      split at hr
      · simp at hr
      · rename_i s1 he; exact ih s1 (one_step h he) hr
  have h := key as _ ⟨rfl, fun h => absurd rfl h, fun h => absurd rfl (h 0)⟩ hr
  refine ⟨h.ra (by rw [hp]; simp) (by rw [hp]; simp), fun i hi => ?_⟩
  have := h.n
  have : i = 0 := by omega
  subst this
  exact h.idle (by rw [hp]; simp)

/-- Without reinsertions, what the waits have passed stays idle. -/
structure Many (s : Sh) : Prop where
  idle1 : ∀ i, s.pc = .drain1 i → ∀ j, j < i → j < s.n → s.jobs j = 0
  idle2 : (∀ i, s.pc ≠ .drain1 i) → ∀ j, j < s.n → s.jobs j = 0
  ra : (∀ i, s.pc ≠ .drain1 i) → s.pc ≠ .flushRa → s.ra = false

theorem many_step {s s' : Sh} {a : Act} (h : Many s) (hn : ∀ i m, a ≠ .reinsert i m) (he : exec s a = some s') : Many s' := by
  obtain ⟨h1, h2, h3⟩ := h
  cases a with
  | main =>
    simp only [exec] at he
    cases hp : s.pc with
    | drain1 i =>
      simp only [hp] at he
      split at he
      · simp only [Option.some.injEq] at he; subst he
        exact ⟨by nofun, fun _ j hj => h1 i hp j (by dsimp only at hj; omega) hj, fun _ h => absurd rfl h⟩
      · split at he
        · rename_i hlt hz
          simp only [Option.some.injEq] at he; subst he
          refine ⟨fun k hk j hj hjn => ?_, fun h => absurd rfl (h (i + 1)), fun h => absurd rfl (h (i + 1))⟩
          simp only [Pc.drain1.injEq] at hk
          dsimp only at hjn ⊢
          by_cases hji : j = i
          · subst hji; exact hz
          · exact h1 i hp j (by omega) hjn
        · simp at he
    | flushRa =>
      simp only [hp, Option.some.injEq] at he; subst he
      exact ⟨by nofun, fun _ => h2 (by rw [hp]; nofun), fun _ _ => rfl⟩
    | drain2 i =>
      simp only [hp] at he
      have hra := h3 (by rw [hp]; simp) (by rw [hp]; simp)
      have hj := h2 (by rw [hp]; simp)
      split at he
      · simp only [Option.some.injEq] at he; subst he
        exact ⟨by nofun, fun _ => hj, fun _ _ => hra⟩
      · split at he
        · simp only [Option.some.injEq] at he; subst he
          exact ⟨by nofun, fun _ => hj, fun _ _ => hra⟩
        · simp at he
    | persist => simp [hp] at he
  | reinsert i more => exact absurd rfl (hn i more)
  | finish i =>
    simp only [exec] at he
    split at he
    · simp only [Option.some.injEq] at he; subst he
      have hz : ∀ j, s.jobs j = 0 → upd s.jobs i (s.jobs i - 1) j = 0 := by
        intro j hj
        unfold upd
        split
        · rename_i e; subst e; omega
        · exact hj
      exact ⟨fun k hk j hj hjn => hz j (h1 k hk j hj hjn), fun h j hj => hz j (h2 h j hj), h3⟩
    · simp at he

/-- C45: if reclaims reinsert nothing, any number of workers will do. -/
theorem no_reinsertion_safe {n : Nat} {jobs : Nat → Nat} {sched : Nat} {ra : Bool} {as : List Act} {s : Sh}
    (hr : runs (start n jobs sched ra) as = some s) (hn : ∀ a ∈ as, ∀ i m, a ≠ .reinsert i m) (hp : s.pc = .persist) : Safe s := by
  have key : ∀ (as : List Act) (s0 : Sh), (∀ a ∈ as, ∀ i m, a ≠ .reinsert i m) → Many s0 → runs s0 as = some s → Many s := by
    intro as
    induction as with
    | nil => intro s0 _ h hr; simp only [runs, Option.some.injEq] at hr; exact hr ▸ h
    | cons a as ih =>
      intro s0 hn h hr
      simp only [runs] at hr
      split at hr
      · simp at hr
      · rename_i s1 he
        exact ih s1 (fun b hb => hn b (List.mem_cons_of_mem _ hb)) (many_step h (hn a List.mem_cons_self) he) hr
  have h := key as _ hn ⟨fun i hi j hj => by simp only [start, Pc.drain1.injEq] at hi; omega,
    fun h => absurd rfl (h 0), fun h => absurd rfl (h 0)⟩ hr
  exact ⟨h.ra (by rw [hp]; nofun) (by rw [hp]; nofun), h.idle2 (by rw [hp]; nofun)⟩

/-- Both are met by shutdowns that end. -/
example : (runs (start 1 (fun _ => 2) 2 true)
    [.reinsert 0 true, .finish 0, .finish 0, .reinsert 0 false, .finish 0, .main, .main, .main, .main, .main]).map
      (fun s => (decide (s.pc = .persist), s.ra, s.jobs 0)) = some (true, false, 0) ∧
    (runs (start 2 (fun _ => 1) 2 true) [.finish 0, .main, .finish 1, .main, .main, .main, .main, .main, .main]).map
      (fun s => (decide (s.pc = .persist), s.ra, s.jobs 1)) = some (true, false, 0) := by decide +kernel

/-- Finding: with two workers and reinsertion, the engine can be persisted with an allocation region that was not flushed.  A
reclaim on worker 1 takes a clean region for a reinsertion when worker 0 was already waited for, so that the next reclaim is
scheduled on worker 0; this one reinserts an entry after the allocation regions were flushed.  (Of the comment at
RegionManager.cpp:307-310, only the flush job, not the reclaim job, is kept away from drained workers.) -/
theorem two_workers_unsafe : ∃ as s, runs (start 2 (fun i => if i = 1 then 1 else 0) 1 true) as = some s ∧ s.pc = .persist ∧
    ¬ Safe s := by
  have h : (runs (start 2 (fun i => if i = 1 then 1 else 0) 1 true)
      [.main, .reinsert 1 true, .finish 1, .main, .main, .main, .reinsert 0 false, .finish 0, .main, .main, .main]).map
        (fun s => (decide (s.pc = .persist), s.ra)) = some (true, true) := by decide +kernel
  rw [Option.map_eq_some_iff] at h
  obtain ⟨s, h1, h2⟩ := h
  simp only [Prod.mk.injEq, decide_eq_true_eq] at h2
  exact ⟨_, s, h1, h2.1, fun hs => by rw [hs.1] at h2; simp at h2⟩

/-! ### What a restart from such a state does -/

open Verif.BlockCache.Faults

/-- 7 ↦ 1 is inserted and flushed to region 0, which is reclaimed; 7 ↦ 2 is inserted into region 0, which is not flushed. -/
def unflushedRun : List A := freeUp 0 ++ ins 7 1 0 blank ++ flush 0 ++ reclaim 0 ++ ins 7 2 0 blank

theorem unflushed_place : ∀ r, (BlockCache.runs cfg s0 unflushedRun).map (fun s => decide (s.place r = .ra ∨ s.place r = .tracked)) = some true := by
  intro r
  match r with
  | 0 => decide +kernel
  | r + 1 =>
    simp [unflushedRun, freeUp, ins, flush, reclaim, BlockCache.runs, BlockCache.exec, s0, init, upd, setPlace, setReg, setW, startW, writeW, afterClose,
      allocate, Reg.openAndAllocate, cfg, Reg.closeWrite, dec32, Reg.reset, Reg.entryDev, putSlot, blank, removeIfMatch]

/-- Finding: after a restart from a state with an unflushed allocation region a lookup can return a value that was overwritten
before the shutdown (here the old entry of the same key and size, still on the device at the same place). -/
theorem stale_after_restart : ∃ s s' : S, Reach cfg s ∧ s.fault = false ∧ s.ws = [] ∧ s.rds = [] ∧
    (∀ r, s.place r = .ra ∨ s.place r = .tracked) ∧ Restart s s' ∧ Value s.log 7 (some 2) ∧
    lookupAlone cfg s' 7 = some (.ok 1) := by
  have h1 : (BlockCache.runs cfg s0 unflushedRun).map (fun s => (s.fault, s.ws, s.rds)) = some (false, [], []) := by decide +kernel
  have h4 : (BlockCache.runs cfg s0 unflushedRun).map (fun s => s.log) = some [(7, some 1), (7, some 2)] := by decide +kernel
  have h2 := unflushed_place
  have h3 : (BlockCache.runs cfg s0 unflushedRun).map (fun s => (s.index 7, (s.reg 0).dev 1)) = some (some (0, 1), some ⟨7, 1⟩) := by decide +kernel
  cases hr : BlockCache.runs cfg s0 unflushedRun with
  | none => rw [hr] at h1; simp at h1
  | some s =>
    simp only [hr, Option.map_some, Option.some.injEq, decide_eq_true_eq, Prod.mk.injEq] at h1 h2 h3 h4
    obtain ⟨a1, a2, a3⟩ := h1
    let s' : S := ⟨s.index, 0, fun r => (s.reg r).restored, fun _ => .tracked, s.ws, s.rds, s.log, s.fault⟩
    have hre : Restart s s' := ⟨rfl, rfl, fun _ => rfl, fun _ => .inl rfl, rfl, rfl, rfl, rfl⟩
    refine ⟨s, s', reach_runs (.init _) hr, a1, a2, a3, h2, hre, ?_, ?_⟩
    · rw [h4]; exact Value.hit [(7, some 1)] 7 (some 2)
    · rw [lookupAlone_eq cfg s' 7 (fun r e _ => ⟨rfl, rfl⟩)]
      have hi : s'.index (cfg.hash 7) = some (0, 1) := h3.1
      have hd : (s'.reg 0).dev 1 = some ⟨7, 1⟩ := h3.2
      simp [onDevice, hi, hd]

end Verif.BlockCache.Shutdown
