import Verif.NvmIndex.FixedProps
/-!
Model of the persistence of FixedSizeIndex in shared memory and property C45 for it: over any number of restarts the index is still
the map of C25.

What is simplified: the shared memory holds the arrays of the index (FixedSizeIndex.cpp:371-380: their places follow from the
configuration) and the stored configuration; whether it can be attached at all is decided by the ShmManager (`att`).  As in
`Verif.NvmIndex.Fixed`, without combined entries (their blocks are in the memory of the process and do not survive).
-/
namespace Verif.NvmIndex.Fixed
open Verif

/-- FixedSizeIndexConfig (serialization/objects.thrift), as the integers stored. -/
structure Stored where
  version : Int
  chunks : Int
  pow : Int
  n : Int

/-- The two segments: FixedSizeIndex.cpp:219-221 and 250-255. -/
structure Shm where
  info : Stored
  mem : St

/-- a cast to a signed type of `b` bits -/
def toSigned (b n : Nat) : Int := if n % 2 ^ b < 2 ^ (b - 1) then (n % 2 ^ b : Nat) else (n % 2 ^ b : Nat) - 2 ^ b
/-- a cast to an unsigned type of `b` bits -/
def toUnsigned (b : Nat) (i : Int) : Nat := (i % 2 ^ b).toNat

/-- FixedSizeIndex.cpp:242-246 (kFixedSizeIndexVersion = 1, FixedSizeIndex.h:112). -/
def Cfg.stored (c : Cfg) : Stored := ⟨1, toSigned 32 c.chunks, toSigned 8 c.pow, toSigned 64 c.n⟩

/-- FixedSizeIndex.cpp:361-369 checkStoredConfig. -/
def Cfg.checkStored (c : Cfg) (v : Stored) : Bool :=
  toUnsigned 32 v.version == 1 && toUnsigned 32 v.chunks == c.chunks && toUnsigned 8 v.pow == c.pow && toUnsigned 64 v.n == c.n

/-- FixedSizeIndex.cpp:213-267 reset with shared memory: both segments are made anew, zeroed. -/
def Cfg.fresh (c : Cfg) : Shm := ⟨c.stored, St.new.reset c⟩

/-- FixedSizeIndex.cpp:303-339 recover; `none` is an exception, after which BlockCache::recover resets the index. -/
def Cfg.recover (c : Cfg) (att : Option Shm) : Option Shm :=
  match att with
  | none => none
  | some m => if c.checkStored m.info then some m else none

/-- BlockCache::recover (BlockCache.cpp:1572-1585): recover, and if that fails reset. -/
def Cfg.start (c : Cfg) (att : Option Shm) : Shm :=
  match c.recover att with
  | some m => m
  | none => c.fresh

/-- One process: starts with what can be attached and runs operations; the results, and the memory it leaves. -/
def Cfg.process (c : Cfg) (att : Option Shm) (os : List Op) : Shm × List Res :=
  (⟨(c.start att).info, (St.run c (c.start att).mem os).1⟩, (St.run c (c.start att).mem os).2)

/-- Processes with one configuration, each attaching what the one before left. -/
def Cfg.processes (c : Cfg) (att : Option Shm) : List (List Op) → Option Shm × List Res
  | [] => (att, [])
  | os :: l => ((c.processes (some (c.process att os).1) l).1, (c.process att os).2 ++ (c.processes (some (c.process att os).1) l).2)

theorem toUnsigned_toSigned {b n : Nat} (h : n < 2 ^ b) : toUnsigned b (toSigned b n) = n := by
  unfold toUnsigned toSigned
  have e : ((2 ^ b : Nat) : Int) = 2 ^ b := by simp
  rw [Nat.mod_eq_of_lt h]
  have h' : (n : Int) < 2 ^ b := by rw [← e]; exact_mod_cast h
  split
  · rw [Int.emod_eq_of_lt (by omega) h']; omega
  · rw [Int.sub_emod_right, Int.emod_eq_of_lt (by omega) h']; omega

/-- The parameters fit their types (FixedSizeIndex.h:653-655). -/
structure Cfg.Typed (c : Cfg) : Prop where
  chunks : c.chunks < 2 ^ 32
  pow : c.pow < 2 ^ 8
  n : c.n < 2 ^ 64

theorem checkStored_iff {c c' : Cfg} (h : c.Typed) : c'.checkStored c.stored = true ↔ c' = c := by
  unfold Cfg.checkStored Cfg.stored
  dsimp only
  rw [toUnsigned_toSigned h.chunks, toUnsigned_toSigned h.pow, toUnsigned_toSigned h.n]
  cases c; cases c'
  simp only [Bool.and_eq_true, beq_iff_eq, Cfg.mk.injEq]
  constructor
  · rintro ⟨⟨⟨_, h1⟩, h2⟩, h3⟩; exact ⟨h1.symm, h2.symm, h3.symm⟩
  · rintro ⟨h1, h2, h3⟩; exact ⟨⟨⟨rfl, h1.symm⟩, h2.symm⟩, h3.symm⟩

theorem run_append (c : Cfg) : ∀ (os os' : List Op) (s : St), St.run c s (os ++ os') =
    ((St.run c (St.run c s os).1 os').1, (St.run c s os).2 ++ (St.run c (St.run c s os).1 os').2)
  | [], _, _ => rfl
  | o :: os, os', s => by
    have := run_append c os os' (s.step c o).1
    simp only [List.cons_append, St.run, this]

theorem start_stored {c : Cfg} (h : c.Typed) {m : Shm} (hm : m.info = c.stored) : c.start (some m) = m := by
  unfold Cfg.start Cfg.recover
  dsimp only
  rw [hm, if_pos ((checkStored_iff h).2 rfl)]

theorem processes_eq {c : Cfg} (h : c.Typed) : ∀ (l : List (List Op)) (m : Shm), m.info = c.stored →
    (c.processes (some m) l).2 = (St.run c m.mem l.flatten).2
  | [], m, _ => rfl
  | os :: l, m, hm => by
    have hp : (c.process (some m) os) = (⟨m.info, (St.run c m.mem os).1⟩, (St.run c m.mem os).2) := by
      unfold Cfg.process; rw [start_stored h hm]
    rw [Cfg.processes, hp, List.flatten_cons, run_append]
    dsimp only
    rw [processes_eq h l ⟨m.info, (St.run c m.mem os).1⟩ hm]

/-- C45: over any number of clean restarts with one configuration, all operations return what they would return in one process: what
an initially empty bounded map returns (`Runs`, property C25). -/
theorem restarts_map {c : Cfg} (hc : c.Good) (ht : c.Typed) (l : List (List Op)) (ho : ∀ os ∈ l, ∀ o ∈ os, o.Legal) :
    ∃ m, Runs (keyOf c) (fun k => k.1 / c.n) rounded (fun _ => none) l.flatten m (c.processes none l).2 := by
  have hr := reset_refines (s := St.new) hc
  cases l with
  | nil => exact ⟨_, .nil _⟩
  | cons os l =>
    have hp : c.process none os = (⟨c.stored, (St.run c (St.new.reset c) os).1⟩, (St.run c (St.new.reset c) os).2) := rfl
    have he : (c.processes none (os :: l)).2 = (St.run c (St.new.reset c) (os :: l).flatten).2 := by
      rw [Cfg.processes, hp, List.flatten_cons, run_append]
      dsimp only
      rw [processes_eq ht l _ rfl]
    rw [he]
    obtain ⟨_, h2⟩ := run_refines hc (os :: l).flatten (by
      intro o hm
      obtain ⟨os', h1, h2⟩ := List.mem_flatten.1 hm
      exact ho os' h1 o h2) hr.1
    rw [hr.2] at h2
    exact ⟨_, h2⟩

/-- C45: a process with another configuration, and one that finds no shared memory, starts empty. -/
theorem start_empty {c c' : Cfg} (ht : c.Typed) (hc' : c'.Good) {m : Shm} (hm : m.info = c.stored) (hne : c' ≠ c) :
    (c'.start (some m)).mem.abs c' = (fun _ => none) ∧ (c'.start none).mem.abs c' = (fun _ => none) := by
  have h1 : c'.start (some m) = c'.fresh := by
    unfold Cfg.start Cfg.recover
    dsimp only
    rw [hm, if_neg (fun h => hne ((checkStored_iff ht).1 h))]
  rw [h1]
  exact ⟨(reset_refines hc').2, (reset_refines hc').2⟩

/-! Non-vacuity: a record inserted by one process is found by the next one, and not by one with another configuration. -/

def exRestart : Cfg := ⟨2, 7, 128⟩
def exOther : Cfg := ⟨1, 8, 128⟩

example : exRestart.Good ∧ exRestart.Typed ∧ exOther.Good ∧ exOther ≠ exRestart :=
  ⟨⟨by decide, by decide, by decide, by decide⟩, ⟨by decide, by decide, by decide⟩, ⟨by decide, by decide, by decide, by decide⟩,
    fun h => by cases h⟩

example : (exRestart.processes none [[.insert 5 7 100, .insert 6 8 100], [.peek 5, .remove 6], [.peek 5, .peek 6]]).2 =
    [.entry none, .entry none, .entry (some ⟨7, 104, 0⟩), .entry (some ⟨8, 104, 0⟩), .entry (some ⟨7, 104, 0⟩), .entry none] := by
  decide +kernel

end Verif.NvmIndex.Fixed
