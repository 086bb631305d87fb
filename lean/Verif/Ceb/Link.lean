import Verif.Ceb.Props
import Verif.NvmIndex.Overflow
/-
The combined entry block of the flash index model (C59), a map with a bounded number of keys, is what the bytes implement (C60).
-/
namespace Verif.Ceb
open Verif

/-- The block `a` of the index model, with its records encoded by `enc`, has the contents `s`. -/
structure Same (enc : NvmIndex.Fixed.PRec → Nat) (a : NvmIndex.Fixed.Blk) (s : Spec.St) : Prop where
  ever : s.ever = a.stored
  has : ∀ k, (s.has k).map (·.2) = (a.val k).map enc

theorem Same.set {enc : NvmIndex.Fixed.PRec → Nat} {a : NvmIndex.Fixed.Blk} {s : Spec.St} (h : Same enc a s) {k : Nat} {v : Option (Nat × Nat)}
    {w : Option NvmIndex.Fixed.PRec} (hv : v.map (·.2) = w.map enc) (x : Nat) : (s.set k v x).map (·.2) = (upd a.val k w x).map enc := by
  unfold Spec.St.set upd
  split
  · exact hv
  · exact h.has x

/-- **Adding**: the bytes are full exactly if the map is, and otherwise both hold the new record. -/
theorem block_add {enc : NvmIndex.Fixed.PRec → Nat} {a : NvmIndex.Fixed.Blk} {b : Blk} {s : Spec.St} (hR : Rep b s) (hS : Same enc a s)
    (hsz : b.size = 4096) {d k : Nat} {r : NvmIndex.Fixed.PRec} (hd : d < 2 ^ 64) (hk : k < 2 ^ 64) (hr : enc r < 2 ^ 40) :
    ∃ b' st s', b.step (.add d k (enc r)) = some (b', .status st) ∧ b'.size = 4096 ∧ Rep b' s' ∧
      match a.add k r with
      | none => st = .full ∧ s' = s
      | some a' => (st = .ok ∨ st = .updated) ∧ Same enc a' s' := by
  obtain ⟨b', h1, h2, h3⟩ := step_rep hR (o := .add d k (enc r)) ⟨hd, hk, hr⟩
  rw [hsz] at h1 h2 h3
  unfold NvmIndex.Fixed.Blk.add NvmIndex.Fixed.blkRoom
  rw [← hS.ever]
  simp only [Spec.St.step] at h1 h3
  by_cases hm : k ∈ s.ever
  · simp only [hm, if_true] at h1 h3 ⊢
    refine ⟨b', _, _, h1, h2, h3, ?_, ⟨rfl, hS.set rfl⟩⟩
    split <;> simp
  · simp only [hm, if_false] at h1 h3 ⊢
    by_cases hf : 12 + 29 * (s.ever.length + 1) ≤ 4096
    · have hf' : 12 + 24 * (s.ever.length + 1) + 5 ≤ 4096 - 5 * s.ever.length := by omega
      simp only [hf, hf', if_true, decide_true] at h1 h3 ⊢
      exact ⟨b', _, _, h1, h2, h3, .inl rfl, ⟨rfl, hS.set rfl⟩⟩
    · have hf' : ¬ 12 + 24 * (s.ever.length + 1) + 5 ≤ 4096 - 5 * s.ever.length := by omega
      simp only [hf, hf', if_false, decide_false, Bool.false_eq_true] at h1 h3 ⊢
      exact ⟨b', _, _, h1, h2, h3, rfl, rfl⟩

/-- **Removing**. -/
theorem block_remove {enc : NvmIndex.Fixed.PRec → Nat} {a : NvmIndex.Fixed.Blk} {b : Blk} {s : Spec.St} (hR : Rep b s) (hS : Same enc a s)
    (k : Nat) :
    ∃ b' s', b.step (.remove k) = some (b', .status (if (a.val k).isSome then .ok else .notFound)) ∧ b'.size = b.size ∧ Rep b' s' ∧
      Same enc (a.remove k) s' := by
  obtain ⟨b', h1, h2, h3⟩ := step_rep hR (o := .remove k) trivial
  have he : (a.val k).isSome = (s.has k).isSome := by
    have := congrArg Option.isSome (hS.has k)
    simpa using this.symm
  rw [he]
  exact ⟨b', _, h1, h2, h3, ⟨hS.ever, hS.set rfl⟩⟩

/-- **Finding**. -/
theorem block_get {enc : NvmIndex.Fixed.PRec → Nat} {a : NvmIndex.Fixed.Blk} {b : Blk} {s : Spec.St} (hR : Rep b s) (hS : Same enc a s) (k : Nat) :
    b.get k = some ((a.val k).map enc) ∧ b.peek k = some (a.val k).isSome := by
  obtain ⟨b1, h1, -, -⟩ := step_rep hR (o := .get k) trivial
  obtain ⟨b2, h2, -, -⟩ := step_rep hR (o := .peek k) trivial
  simp only [Blk.step, Spec.St.step, Option.map_eq_some_iff, Prod.mk.injEq, Res.entry.injEq, Res.bool.injEq] at h1 h2
  obtain ⟨x, h1, -, rfl⟩ := h1
  obtain ⟨y, h2, -, rfl⟩ := h2
  refine ⟨by rw [h1, hS.has k], ?_⟩
  rw [h2]
  have := congrArg Option.isSome (hS.has k)
  simpa using this

/-- A new block of the default size is the empty map. -/
theorem block_new (enc : NvmIndex.Fixed.PRec → Nat) (mem : Mem) :
    ∃ b s, Blk.new 4096 mem = some b ∧ b.size = 4096 ∧ Rep b s ∧ Same enc {} s := by
  obtain ⟨b, h1, h2, h3⟩ := init_rep (b := { size := 4096, mem := mem, cur := 4096 }) (by simp only; omega) (by simp only; omega) rfl rfl rfl rfl rfl
  exact ⟨b, _, h1, h2, h3, ⟨rfl, fun _ => rfl⟩⟩

end Verif.Ceb
