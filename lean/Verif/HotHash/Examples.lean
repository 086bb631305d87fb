import Verif.HotHash.Hot
/-
C62: concrete cases that meet the hypotheses of the theorems.
-/
namespace Verif.HotHash
open Verif

/-! ### Concrete cases -/

def demo : Cfg := ⟨4, 8, 2⟩

/-- The hypotheses hold; the fifth bump of 7 answers 1, and the hash 3, which shares its counters but was never bumped, is not hot. -/
example : demo.n = 2 ^ 2 ∧ 0 < demo.mult ∧ demo.mult < demo.n + demo.warm * demo.mult / 2 ∧ 2 * demo.mult < 2 ^ 32 := by decide

example : (demo.run (31 * 4) (demo.new 2) (List.replicate 5 (.bump 7))).map
    (fun x => (x.2, demo.isHot x.1 7, demo.isHot x.1 3)) = some ([0, 0, 0, 0, 1], true, false) := by decide +kernel

/-- Maintenance, twice: the hash is kept while its count lasts, then removed. -/
example : (demo.run (31 * 4) (demo.new 2) (List.replicate 8 (.bump 7) ++ [.maint])).map (fun x => demo.isHot x.1 7) = some true ∧
    (demo.run (31 * 4) (demo.new 2) (List.replicate 8 (.bump 7) ++ [.maint, .maint])).map (fun x => demo.isHot x.1 7) = some false := by
  decide +kernel

/-- A hash moves into a hole: of 7, 3 and 11, which share a record, 3 is forgotten and 11 takes its cell. -/
def moved : List Op := List.replicate 4 (.bump 7) ++ [.bump 3, .bump 3, .bump 11, .bump 11, .bump 11, .bump 11, .bump 11, .bump 11]

example : (demo.run (31 * 4) (demo.new 2) moved).map (fun x => (List.range 4).map x.1.hash) = some [0, 7, 3, 11] ∧
    (demo.run (31 * 4) (demo.new 2) (moved ++ [.maint])).map (fun x => (List.range 4).map x.1.hash) = some [0, 0, 11, 0] := by decide +kernel

end Verif.HotHash
