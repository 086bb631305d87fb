import Verif.Ceb.Props
/-
What combined entry blocks do not give.
-/
namespace Verif.Ceb
open Verif

/-- A block read back from flash finds nothing, although its buffer holds the entry: CombinedEntryBlock.cpp:82-97 only looks at the map
in memory, which the constructor of CombinedEntryBlock.h:87-96 leaves empty. -/
theorem violated_flash_block_finds_entries :
    ∃ b0 b rs, Blk.new 4096 (fun _ => 0) = some b0 ∧ b0.run [.add 1 2 3, .get 2] = some (b, rs) ∧ rs = [.status .ok, .entry (some 3)] ∧
      (Blk.ofFlash b.size b.mem).get 2 = some none := by
  obtain ⟨b0, b, h1, h2⟩ := block_refines (size := 4096) (by decide) (by decide) (fun _ => 0) [.add 1 2 3, .get 2]
    (by intro o ho; simp only [List.mem_cons, List.not_mem_nil, or_false] at ho; rcases ho with rfl | rfl <;> simp [Spec.Fits])
  exact ⟨b0, b, _, h1, h2, rfl, rfl⟩

/-- A buffer shorter than the header is written past its end. -/
theorem violated_small_buffer (mem : Mem) {size : Nat} (h : size < 12) : Blk.new size mem = none := by
  unfold Blk.new Blk.initHeader Blk.st
  by_cases h8 : 0 + 8 ≤ size
  · simp only [h8, if_true, Option.bind_eq_bind, Option.bind_some]
    exact if_neg (by omega)
  · simp only [h8, if_false, Option.bind_eq_bind, Option.bind_none]

/-- Room is not reused: a block whose keys were all removed rejects a new key until it is cleared. -/
theorem violated_removed_keys_free_room :
    ∃ b0 b rs, Blk.new 41 (fun _ => 0) = some b0 ∧ b0.run [.add 1 2 3, .remove 2, .numValid, .add 1 5 3] = some (b, rs) ∧
      rs = [.status .ok, .status .ok, .num 0, .status .full] := by
  obtain ⟨b0, b, h1, h2⟩ := block_refines (size := 41) (by decide) (by decide) (fun _ => 0) [.add 1 2 3, .remove 2, .numValid, .add 1 5 3]
    (by intro o ho; simp only [List.mem_cons, List.not_mem_nil, or_false] at ho; rcases ho with rfl | rfl | rfl | rfl <;> simp [Spec.Fits])
  exact ⟨b0, b, _, h1, h2, by decide⟩

end Verif.Ceb
