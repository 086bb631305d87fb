import Verif.NvmIndex.OverflowProps
/-
What does not hold of the index with overflow blocks (C59).
-/
namespace Verif.NvmIndex.Fixed
open Verif OvSpec

/-- The blocks are not part of what is persisted, but that buckets are blocks is. After a restart the entries of the blocks
are not found, and an insertion into such a bucket uses the iterator of a block that is not there. -/
theorem violated_restart : ∃ (c : Cfg) (P : Nat → Prop) (s : OSt) (m : Ledger) (x : Nat) (key : Nat → Option Nat) (o : Op), c.Good ∧
    Reach c P True s m ∧ Answers key m ∧ Legal m o ∧
    (∃ v, s.peek c x = some (some v) ∧ m x = some v.addr) ∧ s.restart.peek c x = some none ∧
    (s.step c key o).isSome ∧ s.restart.step c key o = none := by
  obtain ⟨s, h1, h2⟩ := OvEx.reach 5 5 (by decide)
  have k1 : ((OvEx.st 5).bind fun s => s.peek OvEx.cfg (OvEx.hs 0)) = some (some ⟨1, sizeExpToHint (sizeHintToExp 100), 0⟩) := by decide +kernel
  have k2 : ((OvEx.st 5).bind fun s => s.restart.peek OvEx.cfg (OvEx.hs 0)) = some none := by decide +kernel
  have k3 : ((OvEx.st 5).bind fun s => (s.step OvEx.cfg OvEx.key (.insert (OvEx.hs 5) 6 100)).map (·.2)).isSome := by decide +kernel
  have k4 : ((OvEx.st 5).bind fun s => (s.restart.step OvEx.cfg OvEx.key (.insert (OvEx.hs 5) 6 100)).map (·.2)) = none := by decide +kernel
  rw [h1] at k1 k2 k3 k4
  simp only [Option.bind_some] at k1 k2 k3 k4
  refine ⟨OvEx.cfg, _, s, _, OvEx.hs 0, OvEx.key, .insert (OvEx.hs 5) 6 100, OvEx.good, h2, OvEx.ans 5, ?_, ⟨_, k1, ?_⟩, k2, ?_, ?_⟩
  · refine ⟨by decide, by decide, ?_⟩
    intro x hx
    obtain ⟨i, hi, -, h4⟩ := OvEx.led_some hx
    omega
  · decide +kernel
  · simpa using k3
  · simpa using k4

set_option maxRecDepth 20000 in
/-- When the block is full the new entry is dropped, but it is counted (FixedSizeIndex.cpp:128-134, the result of
updateRecord is not used): after 144 insertions of different keys the index reports 144 entries, of which one is not found. -/
theorem violated_full : ∃ (c : Cfg) (P : Nat → Prop) (s : OSt) (m : Ledger) (x : Nat), c.Good ∧ Reach c P True s m ∧
    m x = some 144 ∧ s.peek c x = some none ∧ s.base.computeSize c = 144 := by
  obtain ⟨s, h1, h2⟩ := OvEx.reach 144 144 (by decide)
  have k1 : ((OvEx.st 144).bind fun s => s.peek OvEx.cfg (OvEx.hs 143)) = some none := by decide +kernel
  have k2 : ((OvEx.st 144).map fun s => s.base.computeSize OvEx.cfg) = some 144 := by decide +kernel
  rw [h1] at k1 k2
  simp only [Option.bind_some, Option.map_some, Option.some.injEq] at k1 k2
  refine ⟨OvEx.cfg, _, s, _, OvEx.hs 143, OvEx.good, h2, ?_, k1, k2⟩
  decide +kernel

end Verif.NvmIndex.Fixed
