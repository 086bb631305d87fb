import Verif.BlockCache.Props
/-
What happens with a fault (findings), and a run without one that meets the hypotheses of the theorems of `Props.lean`.

The runs are of an engine whose keys, values and hashes are numbers, whose entries have size 1 and whose regions hold one entry.
-/
namespace Verif.BlockCache.Faults
open Verif Verif.BlockCache

/-- One entry per region. -/
def cfg : Cfg Nat Nat Nat := { hash := id, sz := fun _ _ => 1, RS := 1 }

abbrev S := St Nat Nat Nat
abbrev A := Act Nat Nat

def blank : Content Nat Nat := fun _ => none
def s0 : S := init (fun _ => blank)

theorem reach_runs {s s' : S} {as : List A} (h : Reach cfg s) (hr : runs cfg s as = some s') : Reach cfg s' := by
  induction as generalizing s with
  | nil => simp only [runs, Option.some.injEq] at hr; exact hr ▸ h
  | cons a as ih =>
    simp only [runs] at hr
    split at hr
    · simp at hr
    · rename_i s1 h1; exact ih (.step a h h1) hr

theorem reach_map {as : List A} {β : Type} {f : S → β} {y : β} (hr : (runs cfg s0 as).map f = some y) :
    ∃ s, Reach cfg s ∧ f s = y := by
  rw [Option.map_eq_some_iff] at hr
  obtain ⟨s, h1, h2⟩ := hr
  exact ⟨s, reach_runs (.init _) h1, h2⟩

/-- Reclaims a region without entries. -/
def freeUp (r : Nat) : List A := [.rcPick r, .rcMark r, .rcReady r, .rcRead r, .rcSeq r, .rcBlock r, .rcDrained r, .rcReset r]

/-- Inserts into a clean region that gets a buffer with the contents `b`. -/
def ins (k v r : Nat) (b : Content Nat Nat) : List A :=
  [.raGet r b, .alloc k v r, .write ⟨k, v, r, 0, 1, .alloc, none⟩, .index ⟨k, v, r, 0, 1, .written, none⟩,
   .closeW ⟨k, v, r, 0, 1, .indexed, none⟩]

/-- Flushes a full region. -/
def flush (r : Nat) : List A := [.raFull r, .flCheck r, .flOk r, .flMark r, .flDetach r, .flTrack r]

/-- Reclaims a region with one entry. -/
def reclaim (r : Nat) : List A :=
  [.rcPick r, .rcMark r, .rcReady r, .rcRead r, .rcEvict r, .rcDone r, .rcSeq r, .rcBlock r, .rcDrained r, .rcReset r]

/-- Gives up a flush that failed without changing the device, up to the detaching of the buffer. -/
def giveUp (r : Nat) (d : Content Nat Nat) : List A :=
  [.raFull r, .flCheck r, .flErr r d, .flGiveUp r, .cuStart r, .cuStep r, .cuDone r, .cuMark r, .cuDetach r]

/-- A lookup up to the look at the index, at sequence number `q` and log length `t`; the index has `(r, 1)`. -/
def look (k q t : Nat) : List A := [.rdBegin k, .rdSeq ⟨k, t, .begin⟩, .rdLook ⟨k, t, .seq q⟩]

/-- The rest of the lookup. -/
def fetch (k q t r v : Nat) (p : Bool) : List A :=
  [.rdOpen ⟨k, t, .found q r 1 t⟩, .rdCheck ⟨k, t, .opened q r 1 p t⟩, .rdRead ⟨k, t, .valid r 1 p t⟩,
   .rdDrop ⟨k, t, .read r 1 p t (.ok v)⟩, .rdClose ⟨k, t, .close r p t (.ok v)⟩]

/-- 7 ↦ 1 is inserted and flushed to region 0, which is reclaimed; 7 ↦ 2 is inserted into region 0, and while its flush is given
up a lookup of 7, which began after both inserts, runs. -/
def giveUpRun : List A :=
  freeUp 0 ++ ins 7 1 0 blank ++ flush 0 ++ reclaim 0 ++ ins 7 2 0 blank ++ look 7 2 2 ++
    giveUp 0 (fun e => if e = 1 then some ⟨7, 1⟩ else none) ++ fetch 7 2 2 0 1 true

theorem giveUpRun_ok : (runs cfg s0 giveUpRun).map (fun s => (s.rds, s.log)) =
    some ([⟨7, 2, .done 2 2 (.ok 1)⟩], [(7, some 1), (7, some 2)]) := by decide +kernel

/-- Finding: without `fault = false`, `lookup_linearizable` is false.  When a flush is given up (RegionManager.cpp:342-348 and
149-195), a lookup that read the index before the clean-up and opens the region after its buffer is detached, but before the
sequence number is incremented, reads the device, where the failed write did not happen, and returns a value of its key that was
overwritten before it began. -/
theorem stale_after_giveUp : ∃ s, Reach cfg s ∧ ∃ x ∈ s.rds, x.key = 7 ∧ (∃ t1 t2, x.pc = .done t1 t2 (.ok 1)) ∧
    Value (s.log.take x.t0) 7 (some 2) ∧ s.log.length = x.t0 := by
  obtain ⟨s, h, e⟩ := reach_map giveUpRun_ok
  simp only [Prod.mk.injEq] at e
  refine ⟨s, h, ⟨7, 2, .done 2 2 (.ok 1)⟩, by rw [e.1]; simp, rfl, ⟨2, 2, rfl⟩, ?_, by rw [e.2]; rfl⟩
  rw [e.2]
  exact Value.hit [(7, some 1)] 7 (some 2)

/-- The same, up to the opening of the region; then the clean-up resets the region, and the reader closes it. -/
def resetRun : List A :=
  freeUp 0 ++ ins 7 1 0 blank ++ look 7 1 1 ++ giveUp 0 blank ++
    [.rdOpen ⟨7, 1, .found 1 0 1 1⟩, .rdCheck ⟨7, 1, .opened 1 0 1 true 1⟩, .cuSeq 0, .cuReset 0]

theorem resetRun_ok : (runs cfg s0 resetRun).map (fun s => (s.place 0, s.rds)) =
    some (.clean, [⟨7, 1, .valid 0 1 true 1⟩]) := by decide +kernel

/-- Finding: the clean-up after a given-up flush resets the region without waiting for readers (RegionManager.cpp:181-188): it
is free while a lookup has it open. -/
theorem reset_while_open : ∃ s, Reach cfg s ∧ s.place 0 = .clean ∧ ∃ x ∈ s.rds, Holds x 0 := by
  obtain ⟨s, h, e⟩ := reach_map resetRun_ok
  simp only [Prod.mk.injEq] at e
  exact ⟨s, h, e.1, ⟨7, 1, .valid 0 1 true 1⟩, by rw [e.2]; simp, .inr (.inl ⟨1, true, 1, rfl⟩)⟩

/-- ... and the reader's close takes the counter below zero. -/
theorem resetRun_wraps : (runs cfg s0 (resetRun ++ [.rdRead ⟨7, 1, .valid 0 1 true 1⟩,
      .rdDrop ⟨7, 1, .read 0 1 true 1 .checksum⟩, .rdClose ⟨7, 1, .close 0 true 1 .checksum⟩])).map
    (fun s => (s.reg 0).phys) = some (2 ^ 32 - 1) := by decide +kernel

/-- 7 ↦ 5, then 7 ↦ 1 in region 0 is flushed; the reclaim of region 0 skips the entry because of an exception; region 0 gets a
buffer whose previous user had 7 ↦ 5 at the same offset. -/
def danglingRun : List A :=
  freeUp 0 ++ freeUp 1 ++ ins 7 5 1 blank ++ ins 7 1 0 blank ++ flush 0 ++
    [.rcPick 0, .rcMark 0, .rcReady 0, .rcRead 0, .rcExc 0, .rcDone 0, .rcSeq 0, .rcBlock 0, .rcDrained 0, .rcReset 0] ++
    [.raGet 0 (fun e => if e = 1 then some ⟨7, 5⟩ else none)] ++ look 7 3 2 ++ fetch 7 3 2 0 5 false

theorem danglingRun_ok : (runs cfg s0 danglingRun).map (fun s => (s.rds, s.log)) =
    some ([⟨7, 2, .done 2 2 (.ok 5)⟩], [(7, some 5), (7, some 1)]) := by decide +kernel

/-- Finding: an exception in `checkExpired` or `shouldReinsert` (BlockCache.cpp:1181-1186), like a failed read of the region
(RegionManager.cpp:390-398) or a bad header (BlockCache.cpp:681-699), leaves index entries that point into a region which is then
used again; a lookup through such an entry can return an overwritten value from the recycled buffer. -/
theorem stale_after_exception : ∃ s, Reach cfg s ∧ ∃ x ∈ s.rds, x.key = 7 ∧ (∃ t1 t2, x.pc = .done t1 t2 (.ok 5)) ∧
    Value (s.log.take x.t0) 7 (some 1) ∧ s.log.length = x.t0 := by
  obtain ⟨s, h, e⟩ := reach_map danglingRun_ok
  simp only [Prod.mk.injEq] at e
  refine ⟨s, h, ⟨7, 2, .done 2 2 (.ok 5)⟩, by rw [e.1]; simp, rfl, ⟨2, 2, rfl⟩, ?_, by rw [e.2]; rfl⟩
  rw [e.2]
  exact Value.hit [(7, some 5)] 7 (some 1)

/-- The same with a region that could not be read. -/
theorem readErrRun_ok : (runs cfg s0 (freeUp 0 ++ ins 7 1 0 blank ++ flush 0 ++
      [.rcPick 0, .rcMark 0, .rcReady 0, .rcReadErr 0, .rcSeq 0, .rcBlock 0, .rcDrained 0, .rcReset 0])).map
    (fun s => (s.place 0, s.index 7)) = some (.clean, some (0, 1)) := by decide +kernel

/-! ### A run without faults -/

/-- 7 ↦ 1 is inserted into region 0 and flushed; region 0 is reclaimed and 7 ↦ 1 reinserted into region 1, while a lookup that
began before reads it from region 0, and a second one reads it from the buffer of region 1; then 7 is removed and a third one
finds nothing. -/
def goodRun : List A :=
  freeUp 0 ++ freeUp 1 ++ ins 7 1 0 blank ++ flush 0 ++ look 7 2 1 ++ [.rdOpen ⟨7, 1, .found 2 0 1 1⟩] ++
    [.rcPick 0, .rcMark 0, .rcReady 0, .rcRead 0, .raGet 1 blank, .rcReins 0 1, .write ⟨7, 1, 1, 0, 1, .alloc, some (0, 1)⟩,
     .replace ⟨7, 1, 1, 0, 1, .written, some (0, 1)⟩, .closeW ⟨7, 1, 1, 0, 1, .indexed, some (0, 1)⟩, .rcDone 0] ++
    [.rdCheck ⟨7, 1, .opened 2 0 1 true 1⟩, .rdRead ⟨7, 1, .valid 0 1 true 1⟩, .rdDrop ⟨7, 1, .read 0 1 true 1 (.ok 1)⟩] ++
    [.rcSeq 0, .rcBlock 0] ++ [.rdClose ⟨7, 1, .close 0 true 1 (.ok 1)⟩, .rcDrained 0, .rcReset 0] ++ look 7 3 1 ++ fetch 7 3 1 1 1 false ++
    [.remove 7] ++ look 7 3 2

theorem goodRun_ok : (runs cfg s0 goodRun).map (fun s => (s.rds, s.log, s.fault, s.place 0)) =
    some ([⟨7, 2, .done 2 2 .notFound⟩, ⟨7, 1, .done 1 1 (.ok 1)⟩, ⟨7, 1, .done 1 1 (.ok 1)⟩],
      [(7, some 1), (7, none)], false, .clean) := by decide +kernel

/-- The hypotheses of `lookup_linearizable` are met, after a reclaim with a reinsertion. -/
example : ∃ s, Reach cfg s ∧ cfg.RS ≤ 2 ^ 30 ∧ s.fault = false ∧ ∃ x ∈ s.rds, x.pc = .done 1 1 (.ok 1) := by
  obtain ⟨s, h, e⟩ := reach_map goodRun_ok
  simp only [Prod.mk.injEq] at e
  exact ⟨s, h, by decide, e.2.2.1, ⟨7, 1, .done 1 1 (.ok 1)⟩, by rw [e.1]; simp, rfl⟩

/-- While a region is being reclaimed and its readers are awaited, it cannot be reset. -/
example : (runs cfg s0 ((goodRun.take 46))).isSome = true ∧
    (runs cfg s0 (goodRun.take 46 ++ [.rcDrained 0])).isSome = false := by decide +kernel

/-- Two writers at the same time in one region that holds two entries: the hypotheses of `writers_disjoint`. -/
example : (runs { cfg with RS := 2 } s0 (freeUp 0 ++ [.raGet 0 blank, .alloc 7 1 0, .alloc 8 2 0])).map
    (fun s => (s.ws.map (fun w => (w.start, w.stop)), s.fault)) = some ([(1, 2), (0, 1)], false) := by decide +kernel

/-- A full region takes no more entries. -/
example : (runs { cfg with RS := 2 } s0 (freeUp 0 ++ [.raGet 0 blank, .alloc 7 1 0, .alloc 8 2 0, .alloc 9 3 0])).isSome = false := by
  decide +kernel

end Verif.BlockCache.Faults
