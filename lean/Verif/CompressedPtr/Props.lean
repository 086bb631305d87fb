import Verif.CompressedPtr.Lemmas
/-!
Property C13: compressed pointers are faithful.

Specification: an allocator is built over `size` bytes (at most the maximum the configuration accepts,
CacheAllocatorConfig.h:1342-1350), slabs are carved from it and given allocation sizes; `AllocAt a i k p` says that `p` is the
address of allocation number `k` of slab number `i`.
-/
namespace Verif.CPtr

/-- Allocators that can exist: constructed over at most `max` bytes, then any number of slabs carved
(SlabAllocator.cpp:412-419) and any header updates. -/
inductive Reach (max : Nat) : Alloc → Prop where
  | create {ms sz a} : sz ≤ max → Alloc.create ms sz = some a → Reach max a
  | carve {a} : Reach max a → a.nextSlab ≠ a.memoryStart + a.memorySize →
      Reach max { a with nextSlab := a.nextSlab + slabSize }
  | header {a} (f : Nat → Nat) : Reach max a → Reach max { a with allocSize := f }

/-- `p` is the start of allocation `k` in slab `i`: the slab is carved, its allocation size is legal (at least
64 bytes) and the allocation fits the slab. -/
structure AllocAt (a : Alloc) (i k p : Nat) : Prop where
  carved : a.slabMemoryStart + i * slabSize < a.nextSlab
  minSize : 2 ^ kMinAllocPower ≤ a.allocSize i
  fits : (k + 1) * a.allocSize i ≤ slabSize
  addr : p = a.slabMemoryStart + i * slabSize + k * a.allocSize i

/-- Facts about every allocator that can exist. -/
structure WF (bits : Nat) (a : Alloc) : Prop where
  aligned : a.slabMemoryStart % slabSize = 0
  pos : 0 < a.slabMemoryStart
  nextAligned : a.nextSlab % slabSize = 0
  endEq : ∃ n h, 0 < h ∧ n ≤ 2 ^ bits ∧ a.memorySize = n * slabSize ∧ a.slabMemoryStart = a.memoryStart + h * slabSize
  ge : a.slabMemoryStart ≤ a.nextSlab
  le : a.nextSlab ≤ a.memoryStart + a.memorySize

theorem reach_wf {bits : Nat} {a : Alloc} (h : Reach (2 ^ (bits + kNumSlabBits)) a) : WF bits a := by
  induction h with
  | @create ms sz a hsz hc =>
    simp only [Alloc.create] at hc
    split at hc
    · cases hc
    · rename_i s hs
      split at hc
      · cases hc
      · rename_i hgt
        injection hc with hc; subst hc
        simp only [computeSlabMemoryStart] at hs
        split at hs
        · cases hs
        · rename_i hn
          split at hs
          · cases hs
          · rename_i hms
            injection hs with hs; subst hs
            have hS : slabSize = 4194304 := rfl
            have hpow : 2 ^ (bits + kNumSlabBits) = 2 ^ bits * slabSize := by rw [Nat.pow_add]; rfl
            have h1 : 0 < numSlabsForHeaders (sz - sz % slabSize) := by
              simp only [numSlabsForHeaders, numSlabs, sizeofSlabHeader, hS] at hn ⊢
              omega
            have h2 : sz - sz % slabSize = (sz / slabSize) * slabSize := by
              have := Nat.div_add_mod sz slabSize; rw [Nat.mul_comm] at this; omega
            have h3 : sz / slabSize ≤ 2 ^ bits := by
              apply Nat.div_le_of_le_mul; rw [Nat.mul_comm]; omega
            have hn' : numSlabsForHeaders (sz - sz % slabSize) < sz / slabSize := by
              have : numSlabs (sz - sz % slabSize) = sz / slabSize := by
                rw [numSlabs, h2, Nat.mul_div_cancel _ (by decide)]
              omega
            refine ⟨?_, ?_, ?_, ⟨_, _, h1, h3, h2, rfl⟩, Nat.le_refl _, ?_⟩
            · simp only [hS] at *; simp only [Nat.add_mul_mod_self_right]; omega
            · simp only; omega
            · simp only [hS] at *; simp only [Nat.add_mul_mod_self_right]; omega
            · simp only; apply Nat.add_le_add_left
              have := Nat.mul_le_mul_right slabSize (Nat.le_of_lt hn')
              omega
  | @carve a _ hne ih =>
    obtain ⟨n, hh, h1, h2, h3, h4⟩ := ih.endEq
    have hS : slabSize = 4194304 := rfl
    have hg := ih.ge; have hl := ih.le; have ha := ih.nextAligned; have hb := ih.aligned
    refine ⟨ih.aligned, ih.pos, ?_, ⟨n, hh, h1, h2, h3, h4⟩, ?_, ?_⟩
    · simp only [hS] at *; omega
    · simp only; omega
    · simp only [hS] at *
      have : (a.memoryStart + n * 4194304) % 4194304 = 0 := by
        rw [h4] at hb; simp only [Nat.add_mul_mod_self_right] at hb ⊢; exact hb
      rw [h3] at hl hne ⊢
      omega
  | header f _ ih => exact ⟨ih.aligned, ih.pos, ih.nextAligned, ih.endEq, ih.ge, ih.le⟩

/-- Carved slab indices stay strictly below `2^bits - 1`: the debug check CompressedPtr.h:141/287 can never fire. -/
theorem slab_index_bound {bits : Nat} {a : Alloc} (w : WF bits a) {i : Nat}
    (h : a.slabMemoryStart + i * slabSize < a.nextSlab) : i < 2 ^ bits - 1 := by
  obtain ⟨n, hh, h1, h2, h3, h4⟩ := w.endEq
  have hl := w.le
  have hS : slabSize = 4194304 := rfl
  rw [h3] at hl
  rw [h4] at h
  simp only [hS] at *
  have : (i + hh) * 4194304 < n * 4194304 := by rw [Nat.add_mul]; omega
  have := Nat.lt_of_mul_lt_mul_right this
  omega

private theorem indices_spec {bits : Nat} {a : Alloc} (w : WF bits a) {i o : Nat}
    (hc : a.slabMemoryStart + i * slabSize < a.nextSlab) (ho : o < slabSize) :
    a.indices (a.slabMemoryStart + i * slabSize + o) = some (i, o / a.allocSize i) := by
  have hS : slabSize = 4194304 := rfl
  have hal := w.aligned
  have hg : getSlabForMemory (a.slabMemoryStart + i * slabSize + o) = a.slabMemoryStart + i * slabSize := by
    simp only [getSlabForMemory, hS] at *; omega
  have hg2 : getSlabForMemory (a.slabMemoryStart + i * slabSize) = a.slabMemoryStart + i * slabSize := by
    simp only [getSlabForMemory, hS] at *; omega
  have hi : (a.slabMemoryStart + i * slabSize - a.slabMemoryStart) / slabSize = i := by
    rw [Nat.add_sub_cancel_left, Nat.mul_div_cancel _ (by decide)]
  simp only [Alloc.indices, hg, hi, Alloc.isValidSlab, hg2]
  simp [hc]

private theorem numAllocs_bound {s k : Nat} (hs : 2 ^ kMinAllocPower ≤ s) (hf : (k + 1) * s ≤ slabSize) : k < 2 ^ 16 := by
  have h1 : (k + 1) * 2 ^ kMinAllocPower ≤ slabSize := Nat.le_trans (Nat.mul_le_mul_left _ hs) hf
  simp only [kMinAllocPower, slabSize, kNumSlabBits] at h1; omega

/-- C13 (a), 4-byte pointers: compressing the address of any allocation succeeds, is not null, and decompresses to
the same address. -/
theorem roundtrip4 (multi : Bool) {a : Alloc} (h : Reach (2 ^ (numSlabIdxBits4 multi + kNumSlabBits)) a) {i k p : Nat}
    (hp : AllocAt a i k p) :
    ∃ c, a.compressPtr4 p multi = some c ∧ isNull4 c = false ∧ a.unCompressPtr4 c multi = p := by
  have w := reach_wf h
  have hib := slab_index_bound w hp.carved
  have hk := numAllocs_bound hp.minSize hp.fits
  have hspos : 0 < a.allocSize i := Nat.lt_of_lt_of_le (by decide) hp.minSize
  have hks : k * a.allocSize i < slabSize := by have := hp.fits; rw [Nat.add_mul] at this; omega
  have hidx := indices_spec w hp.carved hks
  rw [Nat.mul_div_cancel _ hspos, ← hp.addr] at hidx
  have hp0 : p ≠ 0 := by rw [hp.addr]; have := w.pos; omega
  have hbits : 2 ^ numSlabIdxBits4 multi ≤ 2 ^ 16 := by cases multi <;> decide
  have hsN : (BitVec.ofNat 32 i).toNat = i := by
    rw [BitVec.toNat_ofNat]; exact Nat.mod_eq_of_lt (by omega)
  have haN : (BitVec.ofNat 32 k).toNat = k := by
    rw [BitVec.toNat_ofNat]; exact Nat.mod_eq_of_lt (by omega)
  have hc := compress4_toNat (s := BitVec.ofNat 32 i) (a := BitVec.ofNat 32 k) (tid := 0) (multi := multi)
    (by rw [haN]; exact hk) (by rw [hsN]; omega) (by decide)
  rw [hsN, haN] at hc
  have hc' : (compress4 (BitVec.ofNat 32 i) (BitVec.ofNat 32 k) multi 0).toNat = i * 2 ^ 16 + k := by
    rw [hc]; cases multi <;> simp
  refine ⟨compress4 (BitVec.ofNat 32 i) (BitVec.ofNat 32 k) multi 0, ?_, ?_, ?_⟩
  · simp [Alloc.compressPtr4, hp0, hidx]
  · simp only [isNull4, beq_eq_false_iff_ne, ne_eq]
    intro e
    have := congrArg BitVec.toNat e
    rw [hc'] at this
    have hn : null4.toNat = 65535 * 2 ^ 16 + 65535 := by decide
    rw [hn] at this
    omega
  · have hnull : isNull4 (compress4 (BitVec.ofNat 32 i) (BitVec.ofNat 32 k) multi 0) = false := by
      simp only [isNull4, beq_eq_false_iff_ne, ne_eq]
      intro e
      have := congrArg BitVec.toNat e
      rw [hc'] at this
      have hn : null4.toNat = 65535 * 2 ^ 16 + 65535 := by decide
      rw [hn] at this
      omega
    have hsl : (getSlabIdx4 (compress4 (BitVec.ofNat 32 i) (BitVec.ofNat 32 k) multi 0) multi).toNat = i := by
      rw [getSlabIdx4_toNat, hc']
      cases multi
      · simp; omega
      · have : 2 ^ numSlabIdxBits4 true = 32768 := by decide
        simp; omega
    have hal : (getAllocIdx4 (compress4 (BitVec.ofNat 32 i) (BitVec.ofNat 32 k) multi 0)).toNat = k := by
      rw [getAllocIdx4_toNat, hc']; omega
    simp only [Alloc.unCompressPtr4, hnull, hsl, hal, Bool.false_eq_true, if_false]
    rw [hp.addr, Nat.mul_comm k, Nat.mod_eq_of_lt]
    rw [Nat.mul_comm]; have : slabSize = 4194304 := rfl
    omega

/-- C13 (a), 5-byte pointers. -/
theorem roundtrip5 (multi : Bool) {a : Alloc} (h : Reach (2 ^ (numSlabIdxBits5 multi + kNumSlabBits)) a) {i k p : Nat}
    (hp : AllocAt a i k p) :
    ∃ c, a.compressPtr5 p multi = some c ∧ isNull5 c = false ∧ a.unCompressPtr5 c multi = p := by
  have w := reach_wf h
  have hib := slab_index_bound w hp.carved
  have hk := numAllocs_bound hp.minSize hp.fits
  have hspos : 0 < a.allocSize i := Nat.lt_of_lt_of_le (by decide) hp.minSize
  have hks : k * a.allocSize i < slabSize := by have := hp.fits; rw [Nat.add_mul] at this; omega
  have hidx := indices_spec w hp.carved hks
  rw [Nat.mul_div_cancel _ hspos, ← hp.addr] at hidx
  have hp0 : p ≠ 0 := by rw [hp.addr]; have := w.pos; omega
  have hb : 2 ^ numSlabIdxBits5 multi = if multi then 4194304 else 8388608 := by cases multi <;> decide
  have hib' : i < 8388608 := by rw [hb] at hib; split at hib <;> omega
  have hsN : (BitVec.ofNat 32 i).toNat = i := by
    rw [BitVec.toNat_ofNat]; exact Nat.mod_eq_of_lt (by omega)
  have haN : (BitVec.ofNat 32 k).toNat = k := by
    rw [BitVec.toNat_ofNat]; exact Nat.mod_eq_of_lt (by omega)
  have hlow := compress5_low (s := BitVec.ofNat 32 i) (a := BitVec.ofNat 32 k) (tid := 0) (multi := multi) (by rw [haN]; exact hk)
  have hreg := region5_toNat (s := BitVec.ofNat 32 i) (tid := 0) (multi := multi) (by rw [hsN]; omega) (by decide)
  rw [hsN] at hreg hlow
  rw [haN] at hlow
  have hreg' : (mk5 (BitVec.ofNat 32 i) (BitVec.ofNat 32 k) multi 0).region.toNat = i / 2 ^ 16 := by
    show (getRegionIdx5 _ _ _).toNat = _
    rw [hreg]; cases multi <;> simp
  have hlow' : (mk5 (BitVec.ofNat 32 i) (BitVec.ofNat 32 k) multi 0).ptr.toNat = i % 2 ^ 16 * 2 ^ 16 + k := hlow
  generalize hcdef : mk5 (BitVec.ofNat 32 i) (BitVec.ofNat 32 k) multi 0 = c at *
  have hnull : isNull5 c = false := by
    simp only [isNull5, Bool.and_eq_false_iff, beq_eq_false_iff_ne, ne_eq]
    right
    intro e
    have := congrArg BitVec.toNat e
    rw [hreg'] at this
    have hn : (0xff#8).toNat = 255 := by decide
    omega
  refine ⟨c, ?_, hnull, ?_⟩
  · simp only [Alloc.compressPtr5, hp0, if_false, hidx, Option.map_some, hcdef]
  · have hsl : (getSlabIdx5 c multi).toNat = i := by
      rw [getSlabIdx5_toNat _ _ (by omega), hreg', hlow']
      cases multi
      · simp; omega
      · rw [hb] at hib; simp at hib ⊢; omega
    have hal : (getAllocIdx5 c).toNat = k := by
      rw [getAllocIdx5_toNat, hlow']; omega
    simp only [Alloc.unCompressPtr5, hnull, hsl, hal, Bool.false_eq_true, if_false]
    rw [hp.addr, Nat.mul_comm k, Nat.mod_eq_of_lt]
    rw [Nat.mul_comm]; have : slabSize = 4194304 := rfl
    omega

/-- C13 (a): null stays null, in both formats. -/
theorem null_roundtrip (a : Alloc) (multi : Bool) :
    (∃ c, a.compressPtr4 0 multi = some c ∧ a.unCompressPtr4 c multi = 0) ∧
    (∃ c, a.compressPtr5 0 multi = some c ∧ a.unCompressPtr5 c multi = 0) := by
  refine ⟨⟨null4, by simp [Alloc.compressPtr4], ?_⟩, ⟨null5, by simp [Alloc.compressPtr5], ?_⟩⟩
  · simp [Alloc.unCompressPtr4, isNull4]
  · simp [Alloc.unCompressPtr5, isNull5, null5]

/-- C13 (b): distinct allocations compress to distinct values (4-byte and 5-byte). -/
theorem compress_injective {a : Alloc} (multi : Bool) {i k p i' k' p' : Nat} (hp : AllocAt a i k p) (hp' : AllocAt a i' k' p')
    (hne : p ≠ p') :
    (Reach (2 ^ (numSlabIdxBits4 multi + kNumSlabBits)) a → a.compressPtr4 p multi ≠ a.compressPtr4 p' multi) ∧
    (Reach (2 ^ (numSlabIdxBits5 multi + kNumSlabBits)) a → a.compressPtr5 p multi ≠ a.compressPtr5 p' multi) := by
  constructor
  · intro h e
    obtain ⟨c, h1, _, h2⟩ := roundtrip4 multi h hp
    obtain ⟨c', h1', _, h2'⟩ := roundtrip4 multi h hp'
    rw [h1, h1'] at e; injection e with e; subst e
    exact hne (h2.symm.trans h2')
  · intro h e
    obtain ⟨c, h1, _, h2⟩ := roundtrip5 multi h hp
    obtain ⟨c', h1', _, h2'⟩ := roundtrip5 multi h hp'
    rw [h1, h1'] at e; injection e with e; subst e
    exact hne (h2.symm.trans h2')

/-- C13 (c): an address outside the carved slabs is rejected, never silently compressed. -/
theorem outside_rejected {bits : Nat} {a : Alloc} (h : Reach (2 ^ (bits + kNumSlabBits)) a) {p : Nat} (hp : p ≠ 0)
    (ho : p < a.slabMemoryStart ∨ a.nextSlab ≤ p) (multi : Bool) :
    a.compressPtr4 p multi = none ∧ a.compressPtr5 p multi = none := by
  have w := reach_wf h
  have hS : slabSize = 4194304 := rfl
  have h1 := w.aligned
  have h2 := w.nextAligned
  have : a.isValidSlab (getSlabForMemory p) = false := by
    simp only [Alloc.isValidSlab, getSlabForMemory, hS, Bool.and_eq_false_iff, decide_eq_false_iff_not] at *
    left
    omega
  simp [Alloc.compressPtr4, Alloc.compressPtr5, hp, Alloc.indices, this]

/-- C13 (d): the serialized form (used for warm restarts) restores every compressed pointer, including null. -/
theorem save_restore_ptr (p : BitVec 32) (q : Ptr5) : restore4 (save4 p) = p ∧ restore5 (save5 q) = q := by
  constructor
  · apply BitVec.eq_of_toNat_eq
    have := p.isLt
    simp only [restore4, save4, BitVec.toNat_setWidth]
    omega
  · obtain ⟨p, r⟩ := q
    have hp := p.isLt
    have hr := r.isLt
    have hs : (save5 ⟨p, r⟩).toNat = r.toNat * 2 ^ 32 + p.toNat := by
      simp only [save5, BitVec.toNat_add, BitVec.toNat_shiftLeft, BitVec.toNat_setWidth, Nat.shiftLeft_eq]
      omega
    have hmsb : (save5 ⟨p, r⟩).msb = false := by
      rw [BitVec.msb_eq_decide]; simp; omega
    simp only [restore5, Ptr5.mk.injEq]
    constructor
    · apply BitVec.eq_of_toNat_eq
      rw [BitVec.toNat_setWidth, hs]; omega
    · apply BitVec.eq_of_toNat_eq
      rw [BitVec.toNat_setWidth, BitVec.sshiftRight_eq_of_msb_false hmsb, BitVec.toNat_ushiftRight, hs,
        Nat.shiftRight_eq_div_pow]
      omega

/-- C13 (e), two tiers: setting the tier on a tier-0 pointer makes `getTierId` return it and changes neither the slab
index nor the allocation index (4-byte). -/
theorem tier_independent4 {s k tid : BitVec 32} (hk : k.toNat < 2 ^ 16) (hs : s.toNat < 2 ^ numSlabIdxBits4 true - 1)
    (ht : tid.toNat < 2) :
    let c := setTierId4 (compress4 s k true 0) tid
    getTierId4 c true = tid ∧ getSlabIdx4 c true = s ∧ getAllocIdx4 c = k ∧ isNull4 c = false := by
  intro c
  have hb : 2 ^ numSlabIdxBits4 true = 32768 := by decide
  have h0 := compress4_toNat (s := s) (a := k) (tid := 0) (multi := true) hk (by omega) (by decide)
  have hc : c.toNat = tid.toNat * 2 ^ 31 + s.toNat * 2 ^ 16 + k.toNat := by
    simp only [c, setTierId4, BitVec.toNat_add, h0, BitVec.toNat_shiftLeft, Nat.shiftLeft_eq, tierOffset4]
    simp
    omega
  refine ⟨?_, ?_, ?_, ?_⟩
  · apply BitVec.eq_of_toNat_eq; rw [getTierId4_toNat, hc]; omega
  · apply BitVec.eq_of_toNat_eq; rw [getSlabIdx4_toNat, hc]; simp; omega
  · apply BitVec.eq_of_toNat_eq; rw [getAllocIdx4_toNat, hc]; omega
  · simp only [isNull4, beq_eq_false_iff_ne, ne_eq]
    intro e
    have := congrArg BitVec.toNat e
    rw [hc] at this
    have hn : null4.toNat = 65535 * 2 ^ 16 + 65535 := by decide
    rw [hn] at this
    omega

/-- C13 (e), two tiers, 5-byte. -/
theorem tier_independent5 {s k tid : BitVec 32} (hk : k.toNat < 2 ^ 16) (hs : s.toNat < 2 ^ numSlabIdxBits5 true)
    (ht : tid.toNat < 2) :
    let c := setTierId5 (mk5 s k true 0) tid
    getTierId5 c true = tid ∧ getSlabIdx5 c true = s ∧ getAllocIdx5 c = k ∧ isNull5 c = false := by
  intro c
  have hb : 2 ^ numSlabIdxBits5 true = 4194304 := by decide
  have hr0 := region5_toNat (s := s) (tid := 0) (multi := true) hs (by decide)
  have hl0 := compress5_low (s := s) (a := k) (tid := 0) (multi := true) hk
  have hr : c.region.toNat = tid.toNat * 64 + s.toNat / 2 ^ 16 := by
    show (getRegionIdx5 s true 0 + (tid <<< tierOffset5).setWidth 8).toNat = _
    rw [BitVec.toNat_add, hr0, BitVec.toNat_setWidth, BitVec.toNat_shiftLeft, Nat.shiftLeft_eq]
    simp [tierOffset5]
    omega
  have hl : c.ptr.toNat = s.toNat % 2 ^ 16 * 2 ^ 16 + k.toNat := hl0
  refine ⟨?_, ?_, ?_, ?_⟩
  · apply BitVec.eq_of_toNat_eq; rw [getTierId5_toNat, hr]; omega
  · apply BitVec.eq_of_toNat_eq; rw [getSlabIdx5_toNat _ _ (by omega), hr, hl]; simp; omega
  · apply BitVec.eq_of_toNat_eq; rw [getAllocIdx5_toNat, hl]; omega
  · simp only [isNull5, Bool.and_eq_false_iff, beq_eq_false_iff_ne, ne_eq]
    right
    intro e
    have := congrArg BitVec.toNat e
    rw [hr] at this
    have hn : (0xff#8).toNat = 255 := by decide
    omega

/-- The alternative (benchmark) compression is faithful as long as the allocation lies in the first 4 GiB of slab
memory. -/
theorem alt_roundtrip_partial {bits : Nat} {a : Alloc} (h : Reach (2 ^ (bits + kNumSlabBits)) a) {i k p : Nat}
    (hp : AllocAt a i k p) (h4g : p - a.slabMemoryStart < 2 ^ 32) :
    a.unCompressAlt (a.compressAlt p) = some p := by
  have w := reach_wf h
  have hS : slabSize = 4194304 := rfl
  have hspos : 64 ≤ a.allocSize i := hp.minSize
  have hks : k * a.allocSize i < slabSize := by have := hp.fits; rw [Nat.add_mul] at this; omega
  have hp0 : p ≠ 0 := by rw [hp.addr]; have := w.pos; omega
  obtain ⟨o, ho⟩ : ∃ o, o = k * a.allocSize i := ⟨_, rfl⟩
  have haddr := hp.addr
  rw [← ho] at haddr hks
  have hd : p - a.slabMemoryStart = i * slabSize + o := by omega
  have hdiv : (p - a.slabMemoryStart) / 2 ^ 6 = i * 65536 + o / 64 := by rw [hd, hS]; omega
  have hmark : (a.compressAlt p <<< 6).toNat = i * slabSize + o / 64 * 64 := by
    simp only [Alloc.compressAlt, hp0, if_false, BitVec.toNat_shiftLeft, BitVec.toNat_ofNat, Nat.shiftLeft_eq, hdiv]
    simp only [hS] at *
    omega
  have hnn : isNull4 (a.compressAlt p) = false := by
    simp only [isNull4, beq_eq_false_iff_ne, ne_eq]
    intro e
    rw [e] at hmark
    have : (null4 <<< 6).toNat = 4294967232 := by decide
    have h2 : (a.compressAlt p).toNat = 4294967295 := by rw [e]; rfl
    simp only [Alloc.compressAlt, hp0, if_false, BitVec.toNat_ofNat, hdiv] at h2
    simp only [hS] at *
    omega
  have hal := w.aligned
  have hslab : getSlabForMemory (a.slabMemoryStart + (i * slabSize + o / 64 * 64)) = a.slabMemoryStart + i * slabSize := by
    clear hmark hnn; simp only [getSlabForMemory, hS] at hal ⊢; simp only [hS] at hks; omega
  have hslab2 : getSlabForMemory (a.slabMemoryStart + i * slabSize) = a.slabMemoryStart + i * slabSize := by
    clear hmark hnn; simp only [getSlabForMemory, hS] at hal ⊢; omega
  have hi : (a.slabMemoryStart + i * slabSize - a.slabMemoryStart) / slabSize = i := by
    rw [Nat.add_sub_cancel_left, Nat.mul_div_cancel _ (by decide)]
  have hcv := hp.carved
  have hoff : a.slabMemoryStart + (i * slabSize + o / 64 * 64) - (a.slabMemoryStart + i * slabSize) = o / 64 * 64 := by omega
  unfold Alloc.unCompressAlt
  simp only [hnn, hmark, hslab, hi, Alloc.isValidSlab, hslab2, hoff, hcv]
  simp
  by_cases hz : o / 64 * 64 = o
  · have hmod : o % a.allocSize i = 0 := by rw [ho]; exact Nat.mul_mod_left _ _
    rw [hz, hmod]; simp; omega
  · have hlt : o / 64 * 64 < o := by omega
    have hgt : o < o / 64 * 64 + 64 := by omega
    obtain ⟨k', rfl⟩ : ∃ k', k = k' + 1 := by
      cases k with
      | zero => simp at ho; omega
      | succ k' => exact ⟨k', rfl⟩
    have hexp : o = k' * a.allocSize i + a.allocSize i := by rw [ho, Nat.add_mul, Nat.one_mul]
    have hmod : (o / 64 * 64) % a.allocSize i = o / 64 * 64 - k' * a.allocSize i := by
      have e : o / 64 * 64 = (o / 64 * 64 - k' * a.allocSize i) + k' * a.allocSize i := by omega
      rw [e, Nat.add_mul_mod_self_right]
      rw [Nat.mod_eq_of_lt (by omega)]; omega
    rw [hmod]
    by_cases hzz : o / 64 * 64 - k' * a.allocSize i = 0
    · omega
    · simp only [hzz, if_false]; omega

/-- Above 4 GiB the alternative compression is wrong (32-bit shift, SlabAllocator.cpp:622): a witness. -/
theorem alt_wrong_above_4GiB : ∃ (a : Alloc) (i k p : Nat), Reach (2 ^ (16 + kNumSlabBits)) a ∧ AllocAt a i k p ∧
    a.unCompressAlt (a.compressAlt p) ≠ some p := by
  have hc : Alloc.create 4194304 (4194304 * 2000) = some ⟨4194304, 4194304 * 2000, 8388608, 8388608, fun _ => 0⟩ := by
    simp [Alloc.create, computeSlabMemoryStart, numSlabs, numSlabsForHeaders, sizeofSlabHeader, slabSize, kNumSlabBits]
  have hr0 : Reach (2 ^ (16 + kNumSlabBits)) ⟨4194304, 4194304 * 2000, 8388608, 8388608, fun _ => 0⟩ :=
    Reach.create (by decide) hc
  have hcarve : ∀ n, n ≤ 1999 →
      Reach (2 ^ (16 + kNumSlabBits)) ⟨4194304, 4194304 * 2000, 8388608, 8388608 + n * 4194304, fun _ => 0⟩ := by
    intro n
    induction n with
    | zero => intro _; exact hr0
    | succ n ih =>
      intro hn
      have := Reach.carve (ih (by omega)) (by show 8388608 + n * 4194304 ≠ 4194304 + 4194304 * 2000; omega)
      have e : 8388608 + n * 4194304 + slabSize = 8388608 + (n + 1) * 4194304 := by
        have : slabSize = 4194304 := rfl
        omega
      simpa only [e] using this
  have hr := Reach.header (fun _ => 64) (hcarve 1999 (by omega))
  refine ⟨_, 1024, 0, 8388608 + 1024 * 4194304, hr, ⟨?_, by decide, by decide, by decide⟩, ?_⟩
  · show 8388608 + 1024 * slabSize < 8388608 + 1999 * 4194304; decide
  · decide

/-! Hypotheses are satisfiable: a two-slab allocator with an allocation size of 192 bytes. -/
example : ∃ (a : Alloc), Reach maxAddressable4 a ∧ AllocAt a 1 3 (a.slabMemoryStart + slabSize + 3 * 192) := by
  have hc : Alloc.create 4194304 (4194304 * 5) = some ⟨4194304, 4194304 * 5, 8388608, 8388608, fun _ => 0⟩ := by
    simp [Alloc.create, computeSlabMemoryStart, numSlabs, numSlabsForHeaders, sizeofSlabHeader, slabSize, kNumSlabBits]
  have h0 : Reach maxAddressable4 _ := Reach.create (by decide) hc
  have h1 := Reach.header (fun _ => 192) (Reach.carve (Reach.carve h0 (by decide)) (by decide))
  exact ⟨_, h1, ⟨by decide, by decide, by decide, by decide⟩⟩

end Verif.CPtr
