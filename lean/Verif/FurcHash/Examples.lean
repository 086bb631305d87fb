import Verif.FurcHash.Props
/-
C34: concrete cases, evaluated by the kernel.
-/
namespace Verif.FurcHash

/-- Giving up can really move a key to an old shard, if the bits of the stream are all one: from shard 3 of 4 to shard 0 of 5. -/
theorem gave_up_moves : ∃ h0 rehash, furcWith h0 rehash 4 = 3 ∧ furcWith h0 rehash 5 = 0 ∧ GaveUp h0 rehash 5 := by
  refine ⟨2 ^ 64 - 1, fun x => x, ?_, ?_, ?_⟩
  · decide +kernel
  · decide +kernel
  · unfold GaveUp; decide +kernel

/-! ### the hypotheses are met -/

/-- the key "abc": from 4 to 5 shards; and one that moves to the new shard -/
example : furcHash [97, 98, 99] 1000 < 1000 ∧ (furcRun (murmurHash64A [97, 98, 99]) murmurRehash64A 5).2 ≠ .gaveUp ∧
    furcHash [97, 98, 99] 5 = furcHash [97, 98, 99] 4 := by decide +kernel

example : ∃ n < 64, furcHash [97] (n + 1) = n ∧ furcHash [97] n ≠ 0 ∧ 4 < n := by decide +kernel

end Verif.FurcHash
