import Verif.NavyDevice.Props
/-
NVMe commands for devices with data placement (navy/common/FdpNvme.{h,cpp}), and the sizes that are chosen for them.
-/
namespace Verif.NavyDevice

/-- NvmeData and the placement identifiers (FdpNvme.h:93-124, 199-202). -/
structure Fdp where
  lbaShift : Nat
  maxTfr : Nat
  startLba : Nat
  pids : List Nat
  nextIdx : Nat := 1

/-- The words of a command that say what it is about (FdpNvme.h:40-55). -/
structure Cmd where
  cdw10 : Nat
  cdw11 : Nat
  cdw12 : Nat
  cdw13 : Nat
  len : Nat
deriving DecidableEq, Repr

/-- prepFdpUringCmdSqe (FdpNvme.cpp:136-175); `none` is the exception (144-146).  Arithmetic of size_t, uint64_t and uint32_t. -/
def Fdp.prep (v : Fdp) (size start dtype dspec : Nat) : Option Cmd :=
  if v.maxTfr != 0 && size > v.maxTfr then none
  else
    let sLba := ((start >>> v.lbaShift) + v.startLba) % 2 ^ 64
    let nLb := u32 ((size >>> v.lbaShift) + (2 ^ 64 - 1))
    some { cdw10 := sLba &&& 0xffffffff, cdw11 := sLba >>> 32, cdw12 := ((dtype &&& 0xFF) <<< 20) ||| nLb,
           cdw13 := u32 (dspec <<< 16), len := u32 size }

/-- prepReadUringCmdSqe (FdpNvme.cpp:177-183). -/
def Fdp.prepRead (v : Fdp) (size start : Nat) : Option Cmd := v.prep size start 0 0

/-- prepWriteUringCmdSqe (FdpNvme.cpp:185-200), getFdpPID (FdpNvme.h:180). -/
def Fdp.prepWrite (v : Fdp) (size start : Nat) (handle : Int) : Option Cmd :=
  if handle == -1 then v.prep size start 2 (v.pids.getD 0 0)
  else if 0 ≤ handle && handle ≤ (v.pids.length : Int) - 1 then v.prep size start 2 (v.pids.getD handle.toNat 0)
  else none

/-- allocateFdpHandle (FdpNvme.cpp:49-61). -/
def Fdp.alloc (v : Fdp) : Int × Fdp :=
  if v.nextIdx ≤ v.pids.length - 1 then (v.nextIdx, { v with nextIdx := v.nextIdx + 1 }) else (0, v)

/-! What a device makes of a command: the NVMe command set specification (Read, Write, directives). -/

def Cmd.slba (m : Cmd) : Nat := m.cdw10 + m.cdw11 * 4294967296
def Cmd.blocks (m : Cmd) : Nat := m.cdw12 % 65536 + 1
def Cmd.dtype (m : Cmd) : Nat := m.cdw12 / 1048576 % 16
def Cmd.dspec (m : Cmd) : Nat := m.cdw13 / 65536 % 65536

theorem or_low {d n : Nat} (hn : n < 1048576) : (d <<< 20) ||| n = d * 1048576 + n := by
  rw [Nat.shiftLeft_eq]
  have : d * 2 ^ 20 = 2 ^ 20 * d := Nat.mul_comm _ _
  rw [this, ← Nat.two_pow_add_eq_or_of_lt hn]

/-- **C51.** A command is about exactly the bytes of the operation, in the partition, with the placement asked for, if they are
whole blocks and no more than the 65536 of them that fit in a command. -/
theorem prep_exact {v : Fdp} {size start dtype dspec : Nat} {m : Cmd} (h : v.prep size start dtype dspec = some m)
    (h1 : size % 2 ^ v.lbaShift = 0) (h2 : start % 2 ^ v.lbaShift = 0) (h3 : 0 < size) (h4 : size ≤ 65536 * 2 ^ v.lbaShift)
    (h5 : start / 2 ^ v.lbaShift + v.startLba < 2 ^ 64) (h6 : dtype < 16) (h7 : dspec < 65536) :
    m.slba * 2 ^ v.lbaShift = start + v.startLba * 2 ^ v.lbaShift ∧ m.blocks * 2 ^ v.lbaShift = size ∧
    m.dtype = dtype ∧ m.dspec = dspec := by
  unfold Fdp.prep at h
  split at h
  · cases h
  · dsimp only at h
    injection h with h
    obtain ⟨q, hq⟩ := Nat.dvd_of_mod_eq_zero h1
    obtain ⟨t, ht⟩ := Nat.dvd_of_mod_eq_zero h2
    have hp := Nat.two_pow_pos v.lbaShift
    have eq1 : size / 2 ^ v.lbaShift = q := by rw [hq]; exact Nat.mul_div_cancel_left _ hp
    have et1 : start / 2 ^ v.lbaShift = t := by rw [ht]; exact Nat.mul_div_cancel_left _ hp
    have hq0 : 0 < q := by
      rcases Nat.eq_zero_or_pos q with h0 | h0
      · rw [h0] at hq; omega
      · exact h0
    have hq1 : q ≤ 65536 := by
      rw [hq, Nat.mul_comm] at h4
      exact Nat.le_of_mul_le_mul_right h4 hp
    rw [et1] at h5
    rw [show size >>> v.lbaShift = q by rw [Nat.shiftRight_eq_div_pow]; exact eq1,
      show start >>> v.lbaShift = t by rw [Nat.shiftRight_eq_div_pow]; exact et1, Nat.mod_eq_of_lt h5] at h
    have en : u32 (q + (2 ^ 64 - 1)) = q - 1 := by
      unfold u32
      have e64 : (2 : Nat) ^ 64 - 1 = 18446744073709551615 := by decide
      rw [e64]; omega
    have ed : dtype &&& 0xFF = dtype := by
      rw [show 0xFF = 2 ^ 8 - 1 by rfl, Nat.and_two_pow_sub_one_eq_mod]
      exact Nat.mod_eq_of_lt (by omega)
    rw [en, ed, or_low (by omega), show 0xffffffff = 2 ^ 32 - 1 by rfl, Nat.and_two_pow_sub_one_eq_mod,
      Nat.shiftRight_eq_div_pow, Nat.shiftLeft_eq] at h
    have e32 : (2 : Nat) ^ 32 = 4294967296 := by decide
    have e16 : (2 : Nat) ^ 16 = 65536 := by decide
    rw [e32, e16] at h
    subst h
    unfold Cmd.slba Cmd.blocks Cmd.dtype Cmd.dspec
    dsimp only
    refine ⟨?_, ?_, ?_, ?_⟩
    · have : (t + v.startLba) % 4294967296 + (t + v.startLba) / 4294967296 * 4294967296 = t + v.startLba := by omega
      rw [this, Nat.add_mul, ht, Nat.mul_comm]
    · have : (dtype * 1048576 + (q - 1)) % 65536 + 1 = q := by omega
      rw [this, hq, Nat.mul_comm]
    · omega
    · unfold u32; omega

/-- A handle that allocateFdpHandle returned can be used. -/
def Fdp.Usable (v : Fdp) (h : Int) : Prop := 0 ≤ h ∧ h < (v.pids.length : Int)

/-- **C51.** Handles are usable, and the first ones are all different and not the default. -/
theorem alloc_usable {v : Fdp} (h : v.pids ≠ []) : v.Usable v.alloc.1 ∧ v.alloc.2.pids = v.pids ∧
    (v.nextIdx < v.pids.length → v.alloc.1 = v.nextIdx ∧ v.alloc.2.nextIdx = v.nextIdx + 1) := by
  have hl := List.length_pos_iff.2 h
  unfold Fdp.alloc Fdp.Usable
  split
  · refine ⟨⟨by dsimp only; omega, by dsimp only; omega⟩, rfl, fun _ => ⟨rfl, rfl⟩⟩
  · refine ⟨⟨by dsimp only; omega, by dsimp only; omega⟩, rfl, fun _ => by omega⟩

/-- A write with a usable handle is prepared, if it is not too large. -/
theorem usable_accepted {v : Fdp} {h : Int} (hu : v.Usable h) {size start : Nat} (hs : v.maxTfr = 0 ∨ size ≤ v.maxTfr) :
    v.prepWrite size start h ≠ none := by
  have hp : ∀ d, v.prep size start 2 d ≠ none := by
    intro d
    unfold Fdp.prep
    rw [if_neg]
    · intro e; cases e
    · simp only [Bool.and_eq_true, bne_iff_ne, ne_eq, decide_eq_true_eq]
      omega
  obtain ⟨h1, h2⟩ := hu
  unfold Fdp.prepWrite
  split
  · exact hp _
  · rw [if_pos (by simp only [Bool.and_eq_true, decide_eq_true_eq]; omega)]
    exact hp _

/-- **C51.** With a limit on writes, no part of a call exceeds what the device can transfer at once. -/
theorem fdp_parts_fit {c : Cfg} {maxW m : Nat} (hw : maxW ≠ 0) (hm : m ≠ 0)
    (hc : (c.maxIO, c.maxWrite) = createSizes maxW (some (some m))) (x : Call) : x.chunk c ≤ m := by
  unfold createSizes at hc
  dsimp only at hc
  injection hc with h1 h2
  have hmin : ∀ {a b : Nat}, min a b ≤ a := fun {a b} => Nat.min_le_left a b
  have hx : x.chunk c ≤ (if (if x.wr then c.maxWrite else c.maxIO) = 0 then x.size else (if x.wr then c.maxWrite else c.maxIO)) := hmin
  have e1 : c.maxIO ≤ m ∧ c.maxIO ≠ 0 := by
    rw [h1]
    split
    · omega
    · rename_i hn
      simp only [Bool.and_eq_true, bne_iff_ne, ne_eq, Bool.or_eq_true, beq_iff_eq, decide_eq_true_eq] at hn
      omega
  have e2 : c.maxWrite ≤ m ∧ c.maxWrite ≠ 0 := by
    rw [h1] at e1
    rw [h2, if_pos (by simpa using e1.2)]
    omega
  cases hwr : x.wr <;> simp only [hwr, if_true, Bool.false_eq_true, if_false] at hx
  · rw [if_neg e1.2] at hx; omega
  · rw [if_neg e2.2] at hx; omega

/-- Reads fit in any case. -/
theorem fdp_reads_fit {c : Cfg} {maxW m : Nat} (hm : m ≠ 0) (hc : (c.maxIO, c.maxWrite) = createSizes maxW (some (some m)))
    (x : Call) (hr : x.wr = false) : x.chunk c ≤ m := by
  unfold createSizes at hc
  dsimp only at hc
  injection hc with h1 h2
  have hx : x.chunk c ≤ (if (if x.wr then c.maxWrite else c.maxIO) = 0 then x.size else (if x.wr then c.maxWrite else c.maxIO)) :=
    Nat.min_le_left _ _
  have e1 : c.maxIO ≤ m ∧ c.maxIO ≠ 0 := by
    rw [h1]
    split
    · omega
    · rename_i hn
      simp only [Bool.and_eq_true, bne_iff_ne, ne_eq, Bool.or_eq_true, beq_iff_eq, decide_eq_true_eq] at hn
      omega
  simp only [hr, Bool.false_eq_true, if_false] at hx
  rw [if_neg e1.2] at hx; omega

/-- Without a limit on writes, which is the default (NavyConfig.h:1097), `min(maxDeviceWriteSize, maxIOSize)` (Device.cpp:1289) is 0,
which means unlimited: a write that is larger than what the device can transfer is not split, and preparing the command throws. -/
theorem fdp_default_not_split {c : Cfg} {m : Nat} (hm : m ≠ 0) (hc : (c.maxIO, c.maxWrite) = createSizes 0 (some (some m)))
    (v : Fdp) (hv : v.maxTfr = m) (x : Call) (hw : x.wr = true) (hp : x.pos = 0) (hs : m < x.size) (start : Nat) (handle : Int) :
    x.chunk c = x.size ∧ v.prepWrite (x.chunk c) start handle = none := by
  unfold createSizes at hc
  dsimp only at hc
  injection hc with h1 h2
  have e : x.chunk c = x.size := by
    unfold Call.chunk
    have : c.maxWrite = 0 := by
      rw [h2]; simp
    simp only [hw, if_true, this, hp, Nat.sub_zero, Nat.min_self]
  refine ⟨e, ?_⟩
  rw [e]
  have hn : ∀ d, v.prep x.size start 2 d = none := by
    intro d
    unfold Fdp.prep
    rw [if_pos]
    simp only [Bool.and_eq_true, bne_iff_ne, ne_eq, decide_eq_true_eq]
    omega
  unfold Fdp.prepWrite
  split
  · exact hn _
  · split
    · exact hn _
    · rfl

/-- If the device does not say what it can transfer, a larger operation overflows the field of the number of blocks. -/
theorem prep_overflow : ∃ m, ({ lbaShift := 12, maxTfr := 0, startLba := 0, pids := [0] } : Fdp).prepRead 268439552 0 = some m ∧
    m.blocks = 1 := by
  refine ⟨_, rfl, ?_⟩
  decide +kernel

/-- A write of 8 blocks at block 5 of a partition that starts at block 2048. -/
example : ∃ m, ({ lbaShift := 12, maxTfr := 131072, startLba := 2048, pids := [7, 9, 11] } : Fdp).prepWrite 32768 20480 2 = some m ∧
    m.slba = 2053 ∧ m.blocks = 8 ∧ m.dtype = 2 ∧ m.dspec = 11 := by
  refine ⟨_, rfl, ?_⟩
  decide +kernel

end Verif.NavyDevice
