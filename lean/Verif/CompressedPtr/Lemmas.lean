import Verif.CompressedPtr.Model
namespace Verif.CPtr

theorem kN : kNumAllocIdxBits = 16 := rfl
theorem kB4 (m : Bool) : numSlabIdxBits4 m = if m then 15 else 16 := by cases m <;> rfl
theorem kB5 (m : Bool) : numSlabIdxBits5 m = if m then 22 else 23 := by cases m <;> rfl

theorem allocIdxMask_toNat : allocIdxMask.toNat = 2 ^ 16 - 1 := by decide
theorem notTierMask4_toNat : (~~~ tierMask4).toNat = 2 ^ 31 - 1 := by decide

theorem tid_cases {tid : BitVec 32} (h : tid.toNat < 2) : tid = 0 ∨ tid = 1 := by
  have : tid.toNat = 0 ∨ tid.toNat = 1 := by omega
  rcases this with h | h
  · left; apply BitVec.eq_of_toNat_eq; simpa using h
  · right; apply BitVec.eq_of_toNat_eq; simpa using h

theorem compress4_toNat {s a tid : BitVec 32} {multi : Bool} (ha : a.toNat < 2 ^ 16)
    (hs : s.toNat < 2 ^ numSlabIdxBits4 multi) (ht : tid.toNat < 2) :
    (compress4 s a multi tid).toNat = (if multi then tid.toNat * 2 ^ 31 else 0) + s.toNat * 2 ^ 16 + a.toNat := by
  cases multi
  · simp only [kB4] at hs
    unfold compress4; rw [if_pos (by decide : (!false) = true), kN]
    simp only [BitVec.toNat_add, BitVec.toNat_shiftLeft, Nat.shiftLeft_eq]
    simp at hs ⊢
    omega
  · simp only [kB4] at hs
    unfold compress4; rw [if_neg (by decide), kN, tierOffset4]
    simp only [BitVec.toNat_add, BitVec.toNat_shiftLeft, Nat.shiftLeft_eq]
    simp at hs ⊢
    omega

theorem getAllocIdx4_toNat (p : BitVec 32) : (getAllocIdx4 p).toNat = p.toNat % 2 ^ 16 := by
  rw [getAllocIdx4, BitVec.toNat_and, allocIdxMask_toNat, Nat.and_two_pow_sub_one_eq_mod]

theorem getSlabIdx4_toNat (p : BitVec 32) (multi : Bool) :
    (getSlabIdx4 p multi).toNat = (if multi then p.toNat % 2 ^ 31 else p.toNat) / 2 ^ 16 := by
  cases multi
  · simp [getSlabIdx4, kN, Nat.shiftRight_eq_div_pow]
  · simp only [getSlabIdx4, kN, if_true, BitVec.toNat_ushiftRight,
      BitVec.toNat_and, notTierMask4_toNat, Nat.and_two_pow_sub_one_eq_mod, Nat.shiftRight_eq_div_pow]

theorem getTierId4_toNat (p : BitVec 32) : (getTierId4 p true).toNat = p.toNat / 2 ^ 31 := by
  simp [getTierId4, tierOffset4, Nat.shiftRight_eq_div_pow]

/-! ### 5 bytes -/

/-- region byte of a slab index -/
theorem region5_toNat {s tid : BitVec 32} {multi : Bool} (hs : s.toNat < 2 ^ numSlabIdxBits5 multi) (ht : tid.toNat < 2) :
    (getRegionIdx5 s multi tid).toNat = (if multi then tid.toNat * 64 else 0) + s.toNat / 2 ^ 16 := by
  cases multi
  · simp only [kB5] at hs
    simp only [getRegionIdx5, kN]
    simp [Nat.shiftRight_eq_div_pow] at hs ⊢
    omega
  · simp only [kB5] at hs
    simp at hs
    have hmask : (~~~ (tierMask5.setWidth 32)) = (0xffffffbf#32) := by decide
    simp only [getRegionIdx5, kN, if_true, hmask]
    have hr : (s >>> (32 - 16)).toNat = s.toNat / 2 ^ 16 := by simp [Nat.shiftRight_eq_div_pow]
    have hlt : s.toNat / 2 ^ 16 < 64 := by omega
    have key : ((s >>> (32 - 16)) &&& 0xffffffbf#32) = s >>> (32 - 16) := by
      apply BitVec.eq_of_toNat_eq
      rw [BitVec.toNat_and, hr]
      generalize s.toNat / 2 ^ 16 = r at hlt
      have : ∀ r : Fin 64, r.val &&& (0xffffffbf#32).toNat = r.val := by decide
      exact this ⟨r, hlt⟩
    rw [key]
    simp only [BitVec.toNat_add, BitVec.toNat_setWidth, hr, BitVec.toNat_shiftLeft, Nat.shiftLeft_eq, tierOffset5]
    simp
    omega

theorem compress5_low {s a tid : BitVec 32} {multi : Bool} (ha : a.toNat < 2 ^ 16) :
    ((compress5 s a multi tid).setWidth 32).toNat = (s.toNat % 2 ^ 16) * 2 ^ 16 + a.toNat := by
  cases multi
  · unfold compress5; rw [if_pos (by decide : (!false) = true), kN]
    simp only [BitVec.toNat_setWidth, BitVec.toNat_add, BitVec.toNat_shiftLeft, Nat.shiftLeft_eq]
    simp
    omega
  · unfold compress5; rw [if_neg (by decide), kN, tierOffset5]
    simp only [BitVec.toNat_setWidth, BitVec.toNat_add, BitVec.toNat_shiftLeft, Nat.shiftLeft_eq]
    simp
    omega

theorem getAllocIdx5_toNat (p : Ptr5) : (getAllocIdx5 p).toNat = p.ptr.toNat % 2 ^ 16 := getAllocIdx4_toNat p.ptr

theorem getSlabIdx5_toNat (p : Ptr5) (multi : Bool) (hr : p.region.toNat < 128) :
    (getSlabIdx5 p multi).toNat = (if multi then p.region.toNat % 64 else p.region.toNat) * 2 ^ 16 + p.ptr.toNat / 2 ^ 16 := by
  have hp := p.ptr.isLt
  have hsh : (p.ptr >>> 16).toNat = p.ptr.toNat / 2 ^ 16 := by simp [Nat.shiftRight_eq_div_pow]
  cases multi
  · simp only [getSlabIdx5, kN]
    simp only [Bool.false_eq_true, if_false, BitVec.toNat_add, BitVec.toNat_shiftLeft, Nat.shiftLeft_eq, BitVec.toNat_setWidth, hsh]
    omega
  · have hmask : (~~~ (tierMask5.setWidth 32)) = (0xffffffbf#32) := by decide
    have key : (p.region.setWidth 32 &&& 0xffffffbf#32).toNat = p.region.toNat % 64 := by
      rw [BitVec.toNat_and, BitVec.toNat_setWidth, Nat.mod_eq_of_lt (by omega)]
      generalize p.region.toNat = r at hr
      have : ∀ r : Fin 128, r.val &&& (0xffffffbf#32).toNat = r.val % 64 := by decide +kernel
      exact this ⟨r, hr⟩
    simp only [getSlabIdx5, kN, if_true, hmask]
    simp only [BitVec.toNat_add, BitVec.toNat_shiftLeft, Nat.shiftLeft_eq, key, hsh]
    omega

theorem getTierId5_toNat (p : Ptr5) : (getTierId5 p true).toNat = p.region.toNat / 64 := by
  have := p.region.isLt
  simp [getTierId5, tierOffset5, Nat.shiftRight_eq_div_pow]
  omega

end Verif.CPtr
