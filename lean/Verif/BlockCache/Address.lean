import Mathlib.Data.Nat.Bitwise
import Mathlib.Tactic.Ring
/-
Addresses and sizes of the large-object flash engine (C47): `cachelib/navy/block_cache/{BlockCache,RegionManager,Types}.h`,
`BlockCache.cpp`, `cachelib/navy/common/Utils.h`.

Unsigned integers are natural numbers taken modulo their width where the code converts or wraps.
-/
namespace Verif.BlockCache.Address

/-- Utils.h:50-53 powTwoAlign, on size_t. -/
def powTwoAlign (size boundary : BitVec 64) : BitVec 64 := (size + (boundary - 1)) &&& ~~~(boundary - 1)

/-- BlockCache.cpp:276-280 serializedSize: `uint32_t` sums; `desc` is sizeof(EntryDesc). -/
def serializedSize (desc align keySize valueSize : Nat) : Nat :=
  (powTwoAlign (BitVec.ofNat 64 ((desc + keySize + valueSize) % 2 ^ 32)) (BitVec.ofNat 64 align)).toNat % 2 ^ 32

/-- RegionManager.h:170-172 toAbsolute. -/
def toAbsolute (RS rid off : Nat) : Nat := (off + rid * RS) % 2 ^ 64

/-- RegionManager.h:175-179 toRelative; Types.h:34,110: both are 32-bit. -/
def toRelative (RS a : Nat) : Nat × Nat := (a / RS % 2 ^ 32, a % RS % 2 ^ 32)

/-- BlockCache.h:486-489 encodeRelAddress: the quotient is returned as `uint32_t`. -/
def encode (RS align rid off : Nat) : Nat := toAbsolute RS rid off / align % 2 ^ 32

/-- BlockCache.h:491-499 decodeAbsAddress, decodeRelAddress; Types.h:87-90 sub and 121 add, which wrap. -/
def decode (RS align code : Nat) : Nat × Nat :=
  let a := (code * align + (2 ^ 64 - 1)) % 2 ^ 64
  let r := toRelative RS a
  (r.1, (r.2 + 1) % 2 ^ 32)

/-- BlockCache.h:477-480 encodeSizeHint. -/
def encodeSizeHint (size : Nat) : Nat := (powTwoAlign (BitVec.ofNat 64 size) 512).toNat / 512 % 2 ^ 16

/-- BlockCache.h:482-484 decodeSizeHint. -/
def decodeSizeHint (hint : Nat) : Nat := hint * 512 % 2 ^ 32

/-- folly::nextPowTwo on uint32_t, for a value that is not a power of two. -/
def nextPowTwo (n : Nat) : Nat := 2 ^ (Nat.log2 n + 1) % 2 ^ 32

/-- BlockCache.cpp:128-147 calcAllocAlignSize. -/
def allocAlign (devSize : Nat) : Nat :=
  let a := devSize / 2 ^ 32 % 2 ^ 32
  if a = 0 ∨ a ≤ 512 then 512 else if 2 ^ Nat.log2 a = a then a else nextPowTwo a

/-- BlockCache.cpp:71-92 Config::validate and 112-126 validate, as far as they are about sizes. -/
def valid (devSize RS cacheSize : Nat) : Prop :=
  RS ≤ 2 ^ 30 ∧ 0 < cacheSize ∧ cacheSize % RS = 0 ∧ (∃ k, allocAlign devSize = 2 ^ k) ∧ RS % allocAlign devSize = 0 ∧
  cacheSize ≤ allocAlign devSize * 2 ^ 32

/-! ### Alignment -/

theorem mask_toNat (x : BitVec 64) {k : Nat} (hk : k < 64) :
    (x &&& ~~~(BitVec.ofNat 64 (2 ^ k) - 1)).toNat = x.toNat / 2 ^ k * 2 ^ k := by
  have e : BitVec.ofNat 64 (2 ^ k) - 1 = BitVec.ofNat 64 (2 ^ k - 1) := by
    apply BitVec.eq_of_toNat_eq
    have h1 : 2 ^ k < 2 ^ 64 := Nat.pow_lt_pow_right (by omega) hk
    have h2 : 0 < 2 ^ k := Nat.two_pow_pos k
    have h3 : BitVec.toNat (1 : BitVec 64) = 1 := rfl
    simp only [BitVec.toNat_sub, BitVec.toNat_ofNat]
    omega
  have e2 : x &&& ~~~(BitVec.ofNat 64 (2 ^ k) - 1) = (x >>> k) <<< k := by
    rw [e]
    apply BitVec.eq_of_getLsbD_eq
    intro i hi
    simp only [BitVec.getLsbD_and, BitVec.getLsbD_not, BitVec.getLsbD_ofNat, Nat.testBit_two_pow_sub_one, BitVec.getLsbD_shiftLeft,
      BitVec.getLsbD_ushiftRight, hi, decide_true, Bool.true_and]
    by_cases h : i < k
    · simp [h]
    · simp [h, show k + (i - k) = i by omega]
  rw [e2, BitVec.toNat_shiftLeft, BitVec.toNat_ushiftRight, Nat.shiftLeft_eq, Nat.shiftRight_eq_div_pow]
  apply Nat.mod_eq_of_lt
  have := Nat.div_mul_le_self x.toNat (2 ^ k)
  have := x.isLt
  omega

/-- C47: aligning to a power of two gives the least multiple that is not smaller. -/
theorem powTwoAlign_least {size k : Nat} (hk : k < 63) (hs : size < 2 ^ 63) :
    let r := (powTwoAlign (BitVec.ofNat 64 size) (BitVec.ofNat 64 (2 ^ k))).toNat
    2 ^ k ∣ r ∧ size ≤ r ∧ r < size + 2 ^ k ∧ ∀ m, 2 ^ k ∣ m → size ≤ m → r ≤ m := by
  intro r
  have hp : 2 ^ k ≤ 2 ^ 62 := Nat.pow_le_pow_right (by omega) (by omega)
  have h0 : 0 < 2 ^ k := Nat.two_pow_pos k
  have hr : r = (size + (2 ^ k - 1)) / 2 ^ k * 2 ^ k := by
    show (powTwoAlign _ _).toNat = _
    unfold powTwoAlign
    rw [mask_toNat _ (by omega)]
    congr 2
    have h3 : BitVec.toNat (1 : BitVec 64) = 1 := rfl
    simp only [BitVec.toNat_add, BitVec.toNat_sub, BitVec.toNat_ofNat]
    omega
  have hd := Nat.div_add_mod (size + (2 ^ k - 1)) (2 ^ k)
  have hm := Nat.mod_lt (size + (2 ^ k - 1)) h0
  rw [Nat.mul_comm] at hd
  rw [← hr] at hd
  have hdv : 2 ^ k ∣ r := ⟨_, by rw [hr, Nat.mul_comm]⟩
  refine ⟨hdv, by omega, by omega, ?_⟩
  intro m hm1 hm2
  by_contra hlt
  have h3 : 2 ^ k ∣ r - m := Nat.dvd_sub hdv hm1
  have h4 := Nat.le_of_dvd (by omega) h3
  omega

/-- C47: the slot of an entry is aligned and holds the descriptor, the key and the value, if these sizes do not overflow 32
bits. -/
theorem serializedSize_fits {desc keySize valueSize k : Nat} (hk : k ≤ 31) (h : desc + keySize + valueSize + 2 ^ k ≤ 2 ^ 32) :
    let r := serializedSize desc (2 ^ k) keySize valueSize
    2 ^ k ∣ r ∧ desc + keySize + valueSize ≤ r ∧ r < desc + keySize + valueSize + 2 ^ k := by
  intro r
  have h0 : 0 < 2 ^ k := Nat.two_pow_pos k
  have hl := powTwoAlign_least (size := desc + keySize + valueSize) (k := k) (by omega) (by omega)
  simp only at hl
  obtain ⟨a, b, c, _⟩ := hl
  have hr : r = (powTwoAlign (BitVec.ofNat 64 (desc + keySize + valueSize)) (BitVec.ofNat 64 (2 ^ k))).toNat := by
    show serializedSize _ _ _ _ = _
    unfold serializedSize
    rw [Nat.mod_eq_of_lt (a := desc + keySize + valueSize) (by omega)]
    exact Nat.mod_eq_of_lt (by omega)
  rw [hr]
  exact ⟨a, b, c⟩

/-- Finding: without the bound the slot is smaller than the entry (a value of nearly 4 GiB; the checks of BlockCache.cpp:1271-1272
are debug-only). -/
theorem serializedSize_wraps : serializedSize 24 512 16 (2 ^ 32 - 40) = 0 := by decide

/-- C47: the size hint in the index is never less than the size of the slot, and less than 512 bytes more, for every size that
is accepted (BlockCache.h:283-285, BlockCache.cpp:1280). -/
theorem sizeHint_covers {size : Nat} (h : size ≤ 512 * 65535) :
    size ≤ decodeSizeHint (encodeSizeHint size) ∧ decodeSizeHint (encodeSizeHint size) < size + 512 := by
  have hl := powTwoAlign_least (size := size) (k := 9) (by omega) (by omega)
  simp only at hl
  obtain ⟨⟨q, a⟩, b, c, d⟩ := hl
  have hq : (powTwoAlign (BitVec.ofNat 64 size) 512).toNat = 512 * q := by
    rw [← show (2 : Nat) ^ 9 = 512 by rfl]; exact a
  have := d (512 * 65535) ⟨65535, rfl⟩ h
  rw [a] at b c this
  unfold decodeSizeHint encodeSizeHint
  rw [hq]
  omega

/-! ### Addresses -/

/-- C47: the address of a slot's end that is put into the index is decoded to the same region and offset, when the address is
below `align * 2^32`. -/
theorem decode_encode {devSize RS cacheSize : Nat} (hv : valid devSize RS cacheSize) {rid off : Nat} (ho : 0 < off)
    (hoR : off ≤ RS) (ha : allocAlign devSize ∣ off) (hr : (rid + 1) * RS ≤ cacheSize)
    (hlt : off + rid * RS < allocAlign devSize * 2 ^ 32) :
    decode RS (allocAlign devSize) (encode RS (allocAlign devSize) rid off) = (rid, off) := by
  obtain ⟨h1, h2, h3, ⟨k, h4⟩, h5, h6⟩ := hv
  have hal : allocAlign devSize ≤ RS := Nat.le_trans (Nat.le_of_dvd ho ha) hoR
  generalize allocAlign devSize = A at *
  have hA : 0 < A := by rw [h4]; exact Nat.two_pow_pos k
  have hdv : A ∣ off + rid * RS := Nat.dvd_add ha (Dvd.dvd.mul_left (Nat.dvd_of_mod_eq_zero h5) rid)
  obtain ⟨q, hq⟩ := hdv
  have hb : A * 2 ^ 32 ≤ 2 ^ 30 * 2 ^ 32 := Nat.mul_le_mul_right _ (by omega)
  have hq32 : q < 2 ^ 32 := by
    rw [hq] at hlt
    exact Nat.lt_of_mul_lt_mul_left hlt
  have e1 : encode RS A rid off = q := by
    unfold encode toAbsolute
    rw [Nat.mod_eq_of_lt (a := off + rid * RS) (by omega), hq, Nat.mul_div_cancel_left _ hA, Nat.mod_eq_of_lt hq32]
  have hrid : rid < 2 ^ 32 := by
    have : rid * RS < A * 2 ^ 32 := by omega
    have h7 : rid * A ≤ rid * RS := Nat.mul_le_mul_left _ hal
    have h8 : A * rid < A * 2 ^ 32 := by rw [Nat.mul_comm A rid]; omega
    exact Nat.lt_of_mul_lt_mul_left h8
  rw [e1]
  unfold decode toRelative
  simp only
  have e2 : (q * A + (2 ^ 64 - 1)) % 2 ^ 64 = (off - 1) + rid * RS := by
    rw [Nat.mul_comm q A, ← hq]; omega
  rw [e2]
  have e3 : ((off - 1) + rid * RS) / RS = rid := by
    rw [Nat.add_mul_div_right _ _ (by omega), Nat.div_eq_of_lt (by omega), Nat.zero_add]
  have e4 : ((off - 1) + rid * RS) % RS = off - 1 := by
    rw [Nat.add_mul_mod_self_right, Nat.mod_eq_of_lt (by omega)]
  rw [e3, e4, Nat.mod_eq_of_lt hrid, Nat.mod_eq_of_lt (a := off - 1) (by omega), Nat.mod_eq_of_lt (by omega),
    Nat.sub_add_cancel ho]

/-- C47: if the cache is smaller than `align * 2^32`, every slot end of every region is decoded right. -/
theorem decode_encode_all {devSize RS cacheSize : Nat} (hv : valid devSize RS cacheSize)
    (hc : cacheSize < allocAlign devSize * 2 ^ 32) {rid off : Nat} (ho : 0 < off) (hoR : off ≤ RS)
    (ha : allocAlign devSize ∣ off) (hr : (rid + 1) * RS ≤ cacheSize) :
    decode RS (allocAlign devSize) (encode RS (allocAlign devSize) rid off) = (rid, off) := by
  refine decode_encode hv ho hoR ha hr ?_
  have : (rid + 1) * RS = rid * RS + RS := by ring
  omega

/-- C47: two different slot ends never get the same address in the index. -/
theorem encode_inj {devSize RS cacheSize : Nat} (hv : valid devSize RS cacheSize)
    (hc : cacheSize < allocAlign devSize * 2 ^ 32) {rid off rid' off' : Nat} (ho : 0 < off) (hoR : off ≤ RS)
    (ha : allocAlign devSize ∣ off) (hr : (rid + 1) * RS ≤ cacheSize) (ho' : 0 < off') (hoR' : off' ≤ RS)
    (ha' : allocAlign devSize ∣ off') (hr' : (rid' + 1) * RS ≤ cacheSize)
    (h : encode RS (allocAlign devSize) rid off = encode RS (allocAlign devSize) rid' off') : rid = rid' ∧ off = off' := by
  have h1 := decode_encode_all hv hc ho hoR ha hr
  have h2 := decode_encode_all hv hc ho' hoR' ha' hr'
  rw [h, h2] at h1
  simp only [Prod.mk.injEq] at h1
  exact ⟨h1.1.symm, h1.2.symm⟩

/-- The hypotheses of `decode_encode_all`: a 4 TiB device with a 3 TiB cache of 16 MiB regions; the last slot of a region. -/
example : valid (2 ^ 42) (2 ^ 24) (3 * 2 ^ 40) ∧ 3 * 2 ^ 40 < allocAlign (2 ^ 42) * 2 ^ 32 ∧ allocAlign (2 ^ 42) = 1024 ∧
    decode (2 ^ 24) 1024 (encode (2 ^ 24) 1024 5 (2 ^ 24)) = (5, 2 ^ 24) :=
  ⟨⟨by decide, by decide, by decide, ⟨10, by decide⟩, by decide, by decide⟩, by decide, by decide, by decide⟩

/-- Finding: `validate` (BlockCache.cpp:122) admits a cache of exactly `align * 2^32` bytes.  Then the address of the end of the last
region is not representable: it wraps to 0, which decodes to a region that does not exist.  (A 2 TiB device, all of it used.) -/
theorem last_address_wraps : valid (2 ^ 41) (2 ^ 24) (2 ^ 41) ∧ allocAlign (2 ^ 41) = 512 ∧
    (2 ^ 17 - 1 + 1) * 2 ^ 24 ≤ 2 ^ 41 ∧ encode (2 ^ 24) 512 (2 ^ 17 - 1) (2 ^ 24) = 0 ∧
    decode (2 ^ 24) 512 0 = (2 ^ 32 - 1, 2 ^ 24) :=
  ⟨⟨by decide, by decide, by decide, ⟨9, by decide⟩, by decide, by decide⟩, by decide, by decide, by decide, by decide⟩

/-- Remark: on a device of just over 512 * 2^32 bytes the alignment is taken from the truncated quotient: with 2 TiB and a few
bytes the alignment is still 512, and `validate` then refuses a cache that uses the whole device. -/
theorem align_truncated : allocAlign (2 ^ 41 + 2 ^ 24) = 512 ∧ ¬ valid (2 ^ 41 + 2 ^ 24) (2 ^ 24) (2 ^ 41 + 2 ^ 24) := by
  refine ⟨by decide, ?_⟩
  rintro ⟨_, _, _, _, _, h⟩
  revert h
  decide

end Verif.BlockCache.Address
