/-
C52, what goes wrong: for each behaviour that Props.lean excludes, an execution in which only that behaviour is allowed and an item
is destroyed twice or not at all.
-/
import Verif.Destructor.Props
namespace Verif.Destructor

def outcome (c : Cfg) (l : List Act) : Option (List Nat × Nat) := (({} : State).runs c l).map fun s => (s.dtor, s.next)

/-- Nothing is left, as a check. -/
def drained (c : Cfg) (l : List Act) : Option Bool :=
  (({} : State).runs c l).map fun s =>
    s.ram.isNone && s.gone.isEmpty && s.ev.isEmpty && s.nvm.isNone && s.queue.isEmpty && s.cbs.isEmpty && s.writers.isEmpty

def noReapOff : Cfg := { noReap := false }
def keepFlagOff : Cfg := { keepFlag := false }
def serialOff : Cfg := { serial := false }
def freshOff : Cfg := { fresh := false }
def atomicOff : Cfg := { atomicCb := false }
def noFailOff : Cfg := { noFail := false }

/-- The reaper removes an expired item that has a copy in NVM without telling NVM (CacheAllocator.h:5648-5664): destroyed in RAM,
and again when NVM drops its copy. -/
def reapRun : List Act := loadRun ++ [.release, .reap, .releaseGone 0, .evict]
theorem violated_reap : outcome noReapOff reapRun = some ([0, 0], 1) ∧ drained noReapOff reapRun = some true := by decide

/-- moveRegularItem copies NvmClean, not NvmEvicted (CacheAllocator.h:4011-4013): after NVM dropped its copy, the moved item seems to have
one; when it is evicted nobody calls its destructor. -/
def moveRun : List Act := loadRun ++ [.release, .evict, .move, .look, .mark false false, .put 0 true, .free 0]
theorem violated_move : outcome keepFlagOff moveRun = some ([], 1) ∧ drained keepFlagOff moveRun = some true := by decide

/-- If it is removed instead, the mark for NVM stays, and swallows the destructor of the next item of that key. -/
def moveRun2 : List Act :=
  loadRun ++ [.release, .evict, .move, .removeStart, .removeCrit 0, .wFinish 0 true, .releaseGone 0,
    .insert, .wTomb 0, .wFinish 0 true, .release, .look, .mark true true, .put 0 true, .free 0, .jobInsert true false, .evict]
theorem violated_move_remove : outcome keepFlagOff moveRun2 = some ([0], 2) ∧ drained keepFlagOff moveRun2 = some true := by decide

/-- A remove while another thread gets a writable handle: the other one has reset NvmClean (CacheAllocator.h:4553) and has yet to make
its tombstone (4555), so that remove does not remove from NVM (4522); a lookup loads the removed item again; it is destroyed twice. -/
def overlapRun : List Act :=
  loadRun ++ [.mutate, .removeStart, .removeCrit 0, .wFinish 0 false, .lookup, .jobLookup true, .fillEnd true 0,
    .wTomb 0, .wFinish 0 false, .jobRemove true, .releaseGone 0, .releaseGone 0, .look, .mark true false, .put 0 true, .free 0]
theorem violated_overlap : outcome serialOff overlapRun = some ([0, 0], 1) ∧ drained serialOff overlapRun = some true := by decide

/-- An item loaded from NVM is removed, and inserted again with the handle that is left: NvmClean is not reset, so that evicting it is
taken for having a copy in NVM. -/
def reinsertRun : List Act :=
  loadRun ++ [.removeStart, .removeCrit 0, .wFinish 0 false, .jobRemove true, .reinsert 0, .wTomb 0, .wFinish 0 true, .release, .release,
    .look, .mark false false, .put 0 true, .free 0]
theorem violated_reinsert : outcome freshOff reinsertRun = some ([], 1) ∧ drained freshOff reinsertRun = some true := by decide

/-- The engine drops an item, and calls back after a newer one of the same key went to NVM and came back (BlockCache.cpp:713-729,
BigHash.cpp:355-364): the call is taken for one about the newer item; the older is never destroyed, the newer twice. -/
def lateRun : List Act :=
  [.insert, .wTomb 0, .wFinish 0 true, .release, .look, .mark true true, .put 0 true, .free 0, .jobInsert true false, .drop,
    .insert, .wTomb 0, .wFinish 0 true, .release, .look, .mark true true, .put 0 true, .free 0, .jobInsert true false,
    .lookup, .jobLookup true, .fillEnd true 0, .callback 0, .look, .mark true false, .put 0 true, .free 0, .evict]
theorem violated_late_callback : outcome atomicOff lateRun = some ([1, 1], 2) ∧ drained atomicOff lateRun = some true := by decide

/-- Removing from NVM fails with a checksum error (BlockCache.cpp:627-630), the next item overwrites the copy without a call; the mark
of the removed one stays and swallows the destructor of the next. -/
def failRun : List Act :=
  loadRun ++ [.insert, .wTomb 0, .wFinish 0 false, .releaseGone 0, .releaseGone 0, .jobRemove false, .release, .look, .mark true true,
    .put 0 true, .free 0, .jobInsert true false, .evict]
theorem violated_failed_remove : outcome noFailOff failRun = some ([0], 2) ∧ drained noFailOff failRun = some true := by decide

end Verif.Destructor
