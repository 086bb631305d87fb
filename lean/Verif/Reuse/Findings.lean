import Verif.Reuse.Props
/-
C64: concrete cases, and what the policy does not guarantee.
-/
namespace Verif.Reuse
open Verif Verif.Trackers.Tracker.Spec

/-- Buckets of 10: last access in the current bucket, the one before 2 buckets earlier: a reuse time of 20. -/
example : reuseTime 10 [1, 0, 1, 1] = some 20 ∧ Reuse.decide 10 20 true false [1, 0, 1, 1] = some true ∧
    Reuse.decide 10 19 true false [1, 0, 1, 1] = some false ∧ Reuse.decide 10 20 true true [1, 0, 1, 1] = some false ∧
    Reuse.decide 10 20 true false [0, 0, 0, 0] = some false := by decide +kernel

/-- A tracker of 4 filters with 2 hash functions, periods of 10 ticks. -/
def exCfg : Trackers.Tracker.Cfg :=
  { n := 4, ticks := 10, useCounts := false, cms := { h := fun r k => k + r, width := 16, depth := 2, M := 100 }, comb := fun a b => a + b, hash := id }

def exInit : Trackers.Tracker.St := Trackers.Tracker.St.new ⟨fun _ => 0, 0⟩ ⟨4, 8, Bloom.bitsToBytes (2 * 8), (List.range 2).map id, fun _ => 0⟩

/-- The hypotheses of twice_recent hold for a history. -/
example : Trackers.Tracker.Init exCfg exInit ∧ Good exCfg (.record 0 7) [.record 12 7, .record 25 9] ∧ exCfg.ticks * exCfg.n < 2 ^ 31 ∧
    7 ∈ inPeriod (accesses 10 0 [.record 0 7, .record 12 7, .record 25 9]) 2 1 ∧ 7 ∈ inPeriod (accesses 10 0 [.record 0 7, .record 12 7, .record 25 9]) 2 2 :=
  ⟨⟨⟨by decide, by decide, by decide⟩, _, rfl, id, 2, 8, _, rfl, rfl⟩, ⟨by decide, by decide, by decide, by simp [Timely, period, exCfg, Op.tick]⟩,
    by decide, by decide, by decide⟩

example : shouldReinsert exCfg 20 (run exCfg exInit [.record 0 7, .record 12 7, .record 25 9]) 26 7 true false = some true ∧
    shouldReinsert exCfg 19 (run exCfg exInit [.record 0 7, .record 12 7, .record 25 9]) 26 7 true false = some false := by decide +kernel

/-- A key accessed once, in the current period, can be rejected because the filter of an old period answers for another key: the accesses
of 15 in period 0 are taken for accesses of 7 (both have the same bits), and the reuse time becomes 30. Without them it is reinserted. -/
theorem violated_false_positive_rejects :
    shouldReinsert exCfg 20 (run exCfg exInit [.record 0 15, .record 10 1, .record 20 1, .record 30 7]) 31 7 true false = some false ∧
      shouldReinsert exCfg 20 (run exCfg exInit [.record 0 1, .record 10 1, .record 20 1, .record 30 7]) 31 7 true false = some true := by decide +kernel

/-- The reuse time is kept in an int: with buckets of 2^31 ticks an item accessed just now is rejected for every threshold of 32 bits. -/
theorem violated_int_reuse_time : reuseTime (2 ^ 31) [1, 0, 0] = some (2 ^ 64 - 2 ^ 31) ∧ Reuse.decide (2 ^ 31) (2 ^ 32 - 1) true false [1, 0, 0] = some false := by
  decide +kernel

end Verif.Reuse
