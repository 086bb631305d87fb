import Verif.Refcount.Model
/-! Bit-level helper lemmas for `Verif.Refcount.Model`. -/
namespace Verif.Refcount

/-- numeric value of the low 18 bits -/
def acc (w : Word) : Nat := w.toNat % 2 ^ 18

theorem accessMask_eq : kAccessRefMask = 0x3ffff#32 := by decide
theorem refMask_eq : kRefMask = 0x1fffff#32 := by decide

theorem and_accessMask_toNat (w : Word) : (w &&& kAccessRefMask).toNat = acc w := by
  rw [accessMask_eq, BitVec.toNat_and]
  exact Nat.and_two_pow_sub_one_eq_mod w.toNat 18

theorem and_refMask_toNat (w : Word) : (w &&& kRefMask).toNat = w.toNat % 2 ^ 21 := by
  rw [refMask_eq, BitVec.toNat_and]
  exact Nat.and_two_pow_sub_one_eq_mod w.toNat 21

theorem acc_lt (w : Word) : acc w < 2 ^ 18 := Nat.mod_lt _ (by decide)

theorem bitMask_getLsbD (i j : Nat) (hi : i < 32) : (bitMask i).getLsbD j = decide (j = i) := by
  unfold bitMask
  rw [BitVec.getLsbD_shiftLeft]
  by_cases h : j = i
  · subst h; simp [hi]
  · by_cases hlt : j < i
    · simp [hlt, h]
    · have : j - i ≠ 0 := by omega
      simp [h]
      intros
      have h2 : (1#32).getLsbD (j - i) = false := by
        rw [BitVec.getLsbD_one]; simp [this]
      simpa using h2

theorem isBit_eq (i : Nat) (hi : i < 32) (w : Word) : isBit i w = w.getLsbD i := by
  unfold isBit
  by_cases h : w.getLsbD i = true
  · rw [h, bne_iff_ne]
    intro hz
    have := congrArg (fun v => v.getLsbD i) hz
    simp [BitVec.getLsbD_and, bitMask_getLsbD i i hi, h] at this
  · have hf : w.getLsbD i = false := by simpa using h
    rw [hf]
    have : w &&& bitMask i = 0 := by
      apply BitVec.eq_of_getLsbD_eq
      intro j hj
      rw [BitVec.getLsbD_and, bitMask_getLsbD i j hi]
      by_cases hij : j = i
      · subst hij; simp [hf]
      · simp [hij]
    simp [this]

theorem setBit_getLsbD (i j : Nat) (hi : i < 32) (w : Word) :
    (setBit i w).getLsbD j = (w.getLsbD j || decide (j = i)) := by
  unfold setBit; rw [BitVec.getLsbD_or, bitMask_getLsbD i j hi]

theorem clearBit_getLsbD (i j : Nat) (hi : i < 32) (w : Word) :
    (clearBit i w).getLsbD j = (w.getLsbD j && !decide (j = i)) := by
  unfold clearBit; rw [BitVec.getLsbD_and, BitVec.getLsbD_not, bitMask_getLsbD i j hi]
  by_cases hj : j < 32
  · simp [hj]
  · simp [BitVec.getLsbD_of_ge w j (by omega)]

theorem allOnes_sub (x : Word) : BitVec.allOnes 32 - x = ~~~ x := by
  rw [BitVec.allOnes_sub_eq_not]

theorem unSetFlag_eq (f : Flag) (w : Word) : unSetFlag f w = clearBit f.pos w := by
  unfold unSetFlag clearBit; rw [allOnes_sub]

/-- `acc` depends on low bits only -/
theorem acc_congr {w v : Word} (h : ∀ j, j < 18 → w.getLsbD j = v.getLsbD j) : acc w = acc v := by
  unfold acc
  apply Nat.eq_of_testBit_eq
  intro i
  rw [Nat.testBit_mod_two_pow, Nat.testBit_mod_two_pow]
  by_cases hi : i < 18
  · have := h i hi
    simp only [BitVec.getLsbD] at this
    simp [hi, this]
  · simp [hi]

theorem acc_setBit (i : Nat) (h1 : 18 ≤ i) (hi : i < 32) (w : Word) : acc (setBit i w) = acc w := by
  apply acc_congr; intro j hj
  rw [setBit_getLsbD i j hi]
  have : ¬ j = i := by omega
  simp [this]

theorem acc_clearBit (i : Nat) (h1 : 18 ≤ i) (hi : i < 32) (w : Word) : acc (clearBit i w) = acc w := by
  apply acc_congr; intro j hj
  rw [clearBit_getLsbD i j hi]
  have : ¬ j = i := by omega
  simp [this]

private theorem div_pow_of_div {a b : Nat} (h : a / 2 ^ 18 = b / 2 ^ 18) {i : Nat} (hi : 18 ≤ i) :
    a / 2 ^ i = b / 2 ^ i := by
  obtain ⟨k, rfl⟩ := Nat.exists_eq_add_of_le hi
  rw [Nat.pow_add, ← Nat.div_div_eq_div_mul, ← Nat.div_div_eq_div_mul, h]

theorem high_of_div {w v : Word} (h : w.toNat / 2 ^ 18 = v.toNat / 2 ^ 18) {i : Nat} (hi : 18 ≤ i) :
    w.getLsbD i = v.getLsbD i := by
  simp only [BitVec.getLsbD]
  rw [Nat.testBit_eq_decide_div_mod_eq, Nat.testBit_eq_decide_div_mod_eq, div_pow_of_div h hi]

theorem add_one_toNat {w : Word} (h : acc w < 2 ^ 18 - 1) : (w + 1).toNat = w.toNat + 1 := by
  unfold acc at h
  have := w.isLt
  rw [BitVec.toNat_add]
  show (w.toNat + 1) % 2 ^ 32 = _
  omega

theorem sub_one_toNat {w : Word} (h : 0 < acc w) : (w - 1).toNat = w.toNat - 1 := by
  unfold acc at h
  have := w.isLt
  rw [BitVec.toNat_sub]
  show (2 ^ 32 - 1 + w.toNat) % 2 ^ 32 = _
  omega

theorem acc_add_one {w : Word} (h : acc w < 2 ^ 18 - 1) : acc (w + 1) = acc w + 1 := by
  have h1 := add_one_toNat h
  unfold acc at *
  omega

theorem high_add_one {w : Word} (h : acc w < 2 ^ 18 - 1) {i : Nat} (hi : 18 ≤ i) :
    (w + 1).getLsbD i = w.getLsbD i := by
  apply high_of_div _ hi
  have h1 := add_one_toNat h
  unfold acc at *
  omega

theorem acc_sub_one {w : Word} (h : 0 < acc w) : acc (w - 1) = acc w - 1 := by
  have h1 := sub_one_toNat h
  unfold acc at *
  omega

theorem high_sub_one {w : Word} (h : 0 < acc w) {i : Nat} (hi : 18 ≤ i) :
    (w - 1).getLsbD i = w.getLsbD i := by
  apply high_of_div _ hi
  have h1 := sub_one_toNat h
  unfold acc at *
  omega

theorem and_access_eq_zero (w : Word) : (w &&& kAccessRefMask == 0) = decide (acc w = 0) := by
  rw [Bool.eq_iff_iff]; simp only [beq_iff_eq, decide_eq_true_eq]
  rw [← and_accessMask_toNat]
  constructor
  · intro h; rw [h]; rfl
  · intro h; exact BitVec.eq_of_toNat_eq (by rw [h]; rfl)

theorem and_access_eq_mask (w : Word) :
    (w &&& kAccessRefMask == kAccessRefMask) = decide (acc w = 2 ^ 18 - 1) := by
  rw [Bool.eq_iff_iff]; simp only [beq_iff_eq, decide_eq_true_eq]
  rw [← and_accessMask_toNat]
  constructor
  · intro h; rw [h]; decide
  · intro h; exact BitVec.eq_of_toNat_eq (by rw [h]; decide)

/-- the returned reference word is zero iff no access ref and none of the three admin bits -/
theorem refMask_zero_iff (w : Word) :
    (w &&& kRefMask = 0) ↔ acc w = 0 ∧ w.getLsbD 18 = false ∧ w.getLsbD 19 = false ∧ w.getLsbD 20 = false := by
  have h0 : (w &&& kRefMask = 0) ↔ w.toNat % 2 ^ 21 = 0 := by
    rw [← and_refMask_toNat]
    constructor
    · intro h; rw [h]; rfl
    · intro h; exact BitVec.eq_of_toNat_eq (by rw [h]; rfl)
  rw [h0]
  simp only [BitVec.getLsbD, Nat.testBit_eq_decide_div_mod_eq, decide_eq_false_iff_not, acc]
  omega

/-- bit `i` of the word (a wrapper that keeps simp from rewriting `getLsbD`) -/
def bit (i : Nat) (w : Word) : Bool := w.getLsbD i

theorem isBit_bit (i : Nat) (hi : i < 32) (w : Word) : isBit i w = bit i w := isBit_eq i hi w
theorem bit_setBit (i j : Nat) (hi : i < 32) (w : Word) :
    bit j (setBit i w) = (bit j w || decide (j = i)) := setBit_getLsbD i j hi w
theorem bit_clearBit (i j : Nat) (hi : i < 32) (w : Word) :
    bit j (clearBit i w) = (bit j w && !decide (j = i)) := clearBit_getLsbD i j hi w
theorem bit_add_one {w : Word} (h : acc w < 2 ^ 18 - 1) {i : Nat} (hi : 18 ≤ i) : bit i (w + 1) = bit i w :=
  high_add_one h hi
theorem bit_sub_one {w : Word} (h : 0 < acc w) {i : Nat} (hi : 18 ≤ i) : bit i (w - 1) = bit i w :=
  high_sub_one h hi
theorem and_excl_bit (w : Word) : (w &&& bitMask kExclusive != 0) = bit 20 w := isBit_bit 20 (by decide) w
theorem and_linked_bit (w : Word) : (w &&& bitMask kLinked != 0) = bit 18 w := isBit_bit 18 (by decide) w

theorem incRef_eq (w : Word) : incRef w =
    if acc w = 2 ^ 18 - 1 then .error .refcountOverflow
    else if bit 20 w = true then .ok (w, if acc w = 0 then .failedEviction else .failedMoving)
    else .ok (w + 1, .ok) := by
  simp only [incRef, and_excl_bit, and_access_eq_mask, and_access_eq_zero, decide_eq_true_eq]

theorem decRef_eq (w : Word) : decRef w =
    if acc w = 0 then .error .refcountUnderflow else .ok (w - 1, (w - 1) &&& kRefMask) := by
  simp only [decRef, and_access_eq_zero, decide_eq_true_eq]

theorem markForEviction_eq (w : Word) : markForEviction w =
    if bit 18 w = false then (w, .unlinked) else if bit 20 w = true then (w, .exclusive)
    else if acc w ≠ 0 then (w, .refHeld) else (setBit 20 w, .success) := by
  have hne : (w &&& kAccessRefMask != 0) = !decide (acc w = 0) := by rw [bne, and_access_eq_zero]
  simp only [markForEviction, and_excl_bit, and_linked_bit, hne, Bool.not_eq_true',
    decide_eq_false_iff_not]
  rfl

theorem markMoving_eq (w : Word) : markMoving w =
    if 0 < acc w ∨ bit 18 w = false ∨ bit 20 w = true then (w, false) else (setBit 20 (w + 1), true) := by
  simp only [markMoving, and_excl_bit, and_linked_bit, and_accessMask_toNat, Bool.or_eq_true, decide_eq_true_eq,
    Bool.not_eq_true', or_assoc]
  rfl

theorem getAccessRef_toNat (w : Word) : (getAccessRef w).toNat = if bit 20 w = true then acc w - 1 else acc w := by
  unfold getAccessRef
  simp only [and_excl_bit, and_accessMask_toNat, Bool.and_eq_true, decide_eq_true_eq]
  by_cases h : bit 20 w = true
  · by_cases h1 : 1 ≤ acc w
    · rw [if_pos ⟨h, h1⟩, if_pos h, BitVec.toNat_sub, and_accessMask_toNat]
      have := acc_lt w
      show (2 ^ 32 - 1 + acc w) % 2 ^ 32 = _
      omega
    · rw [if_neg (fun hh => h1 hh.2), if_pos h, and_accessMask_toNat]; omega
  · rw [if_neg (fun hh => h hh.1), if_neg h, and_accessMask_toNat]

theorem refMask_zero_iff' (w : Word) :
    (w &&& kRefMask = 0) ↔ acc w = 0 ∧ bit 18 w = false ∧ bit 19 w = false ∧ bit 20 w = false :=
  refMask_zero_iff w

end Verif.Refcount
