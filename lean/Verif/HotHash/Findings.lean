import Verif.HotHash.Examples
/-
C62: what the detector does not guarantee.
-/
namespace Verif.HotHash
open Verif

/-- HotHashDetector.h:44-45 says that a hash has to hit T*M times to be recorded. A hash that is bumped for the first time is hot at once
if another one, which differs by a multiple of the number of buckets, was bumped T*M - 1 times. -/
theorem violated_hot_after_one_bump :
    (demo.run (31 * 4) (demo.new 2) (List.replicate 3 (.bump 7) ++ [.bump 3])).map (fun x => (demo.isHot x.1 3, demo.isHot x.1 7)) =
      some (true, false) := by decide +kernel

/-- HotHashDetector.h:61 says that hashes are pushed back to cover holes. A hole at the very record of a hash is not covered (the scan of
fixL2Holes starts at distance 1): isHotHash reports the hash, bumpHash answers 0 for it. -/
theorem violated_hole_not_covered :
    (demo.run (31 * 4) (demo.new 2) (List.replicate 4 (.bump 7) ++ List.replicate 6 (.bump 3) ++ [.maint])).map
      (fun x => ((List.range 4).map x.1.hash, demo.isHot x.1 3, (demo.bump (31 * 4) x.1 3).map (·.2))) =
      some ([0, 0, 3, 0], true, some 0) := by decide +kernel

/-- The hash is then recorded a second time. -/
theorem violated_recorded_twice :
    (demo.run (31 * 4) (demo.new 2) (List.replicate 4 (.bump 7) ++ List.replicate 6 (.bump 3) ++ [.maint] ++ List.replicate 3 (.bump 3))).map
      (fun x => (List.range 4).map x.1.hash) = some [0, 3, 3, 0] := by decide +kernel

/-- 0 is reported although it was never bumped (the header warns of this). -/
theorem violated_zero :
    (demo.run (31 * 4) (demo.new 2) (List.replicate 4 (.bump 4))).map (fun x => demo.isHot x.1 0) = some true ∧
      0 ∉ Spec.bumped (List.replicate 4 (.bump 4)) := by decide +kernel

end Verif.HotHash
