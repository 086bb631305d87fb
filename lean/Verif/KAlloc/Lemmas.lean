import Verif.KAlloc.Model
namespace Verif.KAlloc
open Verif Mem

theorem kBits : kMaxValSizeBits = 24 := by decide
theorem kSmall : kKeyMaxLenSmall = 255 := by decide
theorem kMaxV : kMaxValSize = 16777215 := by decide
theorem kMaxK : kKeyMaxLen = 16777215 := by decide
theorem kPS : sizeofPackedSize = 4 := by decide
theorem sItem (hdr : Nat) : sizeofItem hdr = hdr + 4 := by unfold sizeofItem; rw [kPS]
theorem kLK : sizeofLargeKey = 4 := by decide

/-- Complete description of the object at `p`: value size, key size field, key. -/
structure Is (m : Mem) (p : Nat) (key : List UInt8) (v : Nat) : Prop where
  vs : getSize m p = v
  ks : getKeySize m p = key.length
  dt : getData m p = p + 4 + extraBytesForLargeKeys key.length
  ky : m.read (p + 4 + extraBytesForLargeKeys key.length) key.length = key

theorem is_key {m p key v} (h : Is m p key v) : getKey m p = key := by
  rw [getKey, h.dt, h.ks, h.ky]

theorem is_mem {m p key v} (h : Is m p key v) :
    getMemory m p = p + 4 + extraBytesForLargeKeys key.length + key.length := by
  rw [getMemory, h.dt, h.ks]

theorem isKeyValid_iff (k : Piece) : isKeyValid k = true ↔ 0 < k.data.length ∧ k.data.length ≤ 16777215 ∧ k.nonNull = true := by
  simp only [isKeyValid, kMaxK, Bool.and_eq_true, decide_eq_true_eq]
  cases k.data <;> simp

theorem isSmallKeyValid_iff (k : Piece) : isSmallKeyValid k = true ↔ 0 < k.data.length ∧ k.data.length ≤ 255 ∧ k.nonNull = true := by
  simp only [isSmallKeyValid, kSmall, Bool.and_eq_true, decide_eq_true_eq]
  cases k.data <;> simp

/-- Agreement on header and key bytes transports `Is`. -/
theorem is_congr {m m' : Mem} {p key v} (h : Is m p key v)
    (he : ∀ a, p ≤ a → a < p + 4 + extraBytesForLargeKeys key.length + key.length → m' a = m a) : Is m' p key v := by
  have h4 : m'.load p 4 = m.load p 4 := by
    simp only [load]; rw [read_congr (m := m') (m' := m)]
    intro a h1 h2; exact he a h1 (by omega)
  have hs : isSmallKey m' p = isSmallKey m p := by simp only [isSmallKey, keySizeField, h4]
  have hgd : getData m' p = getData m p := by simp only [getData, hs]
  have hex : isSmallKey m p = false → extraBytesForLargeKeys key.length = 4 := by
    intro hf
    have := h.dt
    simp only [getData, hf, dataField, kPS, kLK] at this
    simp only [Bool.false_eq_true, if_false] at this; omega
  refine ⟨?_, ?_, ?_, ?_⟩
  · rw [← h.vs]; simp only [getSize, valSizeField, h4]
  · rw [← h.ks]; simp only [getKeySize, hs, keySizeField, h4]
    cases hc : isSmallKey m p with
    | true => simp
    | false =>
      simp only [Bool.false_eq_true, if_false, load]
      rw [read_congr (m := m') (m' := m)]
      intro a h1 h2
      have := hex hc
      simp only [dataField, kPS] at h1 h2
      exact he a (by omega) (by omega)
  · rw [hgd, h.dt]
  · rw [read_congr (m := m') (m' := m)]
    · exact h.ky
    · intro a h1 h2; exact he a (by omega) (by omega)

theorem load_pow (m : Mem) (p : Nat) : m.load p 4 < 4294967296 := load_lt m p 4

theorem setVal_load {m : Mem} {p v} (h : v ≤ 16777215) (h0 : m.load p 4 = 0) : (setValSize m p v).load p 4 = v := by
  simp only [setValSize, keySizeField, h0, kBits]
  rw [load_store] <;> simp <;> omega

theorem construct_some {m : Mem} {p : Nat} {key : Piece} {v : Nat} {m' : Mem} (h : construct m p key v = some m') :
    (v ≤ 16777215 ∧ isKeyValid key = true) ∧ Is m' p key.data v ∧
    (∀ a, (a < p ∨ p + 4 + extraBytesForLargeKeys key.data.length + key.data.length ≤ a) → m' a = m a) := by
  simp only [construct] at h
  split at h
  · cases h
  rename_i hv
  split at h
  · cases h
  rename_i hk
  simp only [Bool.not_eq_true', Bool.not_eq_false] at hk
  simp only [kMaxV, gt_iff_lt, Nat.not_lt] at hv
  refine ⟨⟨hv, hk⟩, ?_⟩
  obtain ⟨hk0, hk1, -⟩ := (isKeyValid_iff key).1 hk
  generalize hm1 : setValSize (m.store p 4 0) p v = m1 at h
  have hl1 : m1.load p 4 = v := by
    rw [← hm1]; apply setVal_load hv; exact load_store (by decide)
  have ho1 : ∀ a, (a < p ∨ p + 4 ≤ a) → m1 a = m a := by
    intro a ha; rw [← hm1, setValSize, store_outside ha, store_outside ha]
  simp only [kSmall] at h
  by_cases hs : key.data.length ≤ 255
  · simp only [hs, if_true] at h
    injection h with h
    generalize hm2 : setKeySize m1 p key.data.length = m2 at h
    have hl2 : m2.load p 4 = key.data.length * 16777216 + v := by
      rw [← hm2]; simp only [setKeySize, valSizeField, hl1, kBits]
      rw [load_store] <;> simp <;> omega
    have hks2 : keySizeField m2 p = key.data.length := by
      simp only [keySizeField, hl2, kBits]; omega
    have hsm : isSmallKey m2 p = true := by simp only [isSmallKey, hks2, bne_iff_ne, ne_eq]; omega
    have hd2 : getData m2 p = p + 4 := by simp [getData, hsm, dataField, kPS]
    rw [hd2] at h
    have hl3 : m'.load p 4 = key.data.length * 16777216 + v := by
      rw [← h, load_write_disj (by omega), hl2]
    have hks3 : keySizeField m' p = key.data.length := by
      simp only [keySizeField, hl3, kBits]; omega
    have hsm3 : isSmallKey m' p = true := by simp only [isSmallKey, hks3, bne_iff_ne, ne_eq]; omega
    have hex : extraBytesForLargeKeys key.data.length = 0 := by simp [extraBytesForLargeKeys, kSmall, hs]
    refine ⟨⟨?_, ?_, ?_, ?_⟩, ?_⟩
    · simp only [getSize, valSizeField, hl3, kBits]; omega
    · simp [getKeySize, hsm3, hks3]
    · simp [getData, hsm3, hex, dataField, kPS]
    · rw [hex, ← h]; exact read_write_same ..
    · intro a ha; rw [hex] at ha
      rw [← h, write_outside (by omega), ← hm2, setKeySize, store_outside (by omega), ho1 a (by omega)]
  · simp only [hs, if_false] at h
    injection h with h
    generalize hm2 : (setKeySize m1 p 0).store (dataField p) 4 key.data.length = m2 at h
    have hdp : dataField p = p + 4 := rfl
    have hl2 : m2.load p 4 = v := by
      rw [← hm2, hdp, load_store_disj (by omega)]; simp only [setKeySize, valSizeField, hl1, kBits]
      rw [load_store] <;> simp <;> omega
    have hll : m2.load (p + 4) 4 = key.data.length := by
      rw [← hm2, hdp, load_store (by simp; omega)]
    have hks2 : keySizeField m2 p = 0 := by
      simp only [keySizeField, hl2, kBits]; omega
    have hsm : isSmallKey m2 p = false := by simp [isSmallKey, hks2]
    have hd2 : getData m2 p = p + 8 := by simp [getData, hsm, dataField, kPS, kLK]
    rw [hd2] at h
    have hl3 : m'.load p 4 = v := by
      rw [← h, load_write_disj (by omega), hl2]
    have hll3 : m'.load (p + 4) 4 = key.data.length := by
      rw [← h, load_write_disj (by omega), hll]
    have hks3 : keySizeField m' p = 0 := by
      simp only [keySizeField, hl3, kBits]; omega
    have hsm3 : isSmallKey m' p = false := by simp [isSmallKey, hks3]
    have hex : extraBytesForLargeKeys key.data.length = 4 := by simp [extraBytesForLargeKeys, kSmall, hs, kLK]
    refine ⟨⟨?_, ?_, ?_, ?_⟩, ?_⟩
    · simp only [getSize, valSizeField, hl3, kBits]; omega
    · simp [getKeySize, hsm3, hdp, hll3]
    · simp [getData, hsm3, hex, dataField, kPS, kLK]
    · rw [hex, ← h]; exact read_write_same ..
    · intro a ha; rw [hex] at ha
      rw [← h, write_outside (by omega), ← hm2, hdp, store_outside (by omega), setKeySize, store_outside (by omega),
        ho1 a (by omega)]

theorem construct_none {m : Mem} {p : Nat} {key : Piece} {v : Nat} :
    construct m p key v = none ↔ 16777215 < v ∨ isKeyValid key = false := by
  simp only [construct, kMaxV]
  by_cases h : v > 16777215
  · simp [h]
  · by_cases hk : isKeyValid key = true
    · simp [h, hk]
    · simp [h, hk]

theorem ofLe_inj {a b : List UInt8} (hl : a.length = b.length) (h : ofLe a = ofLe b) : a = b := by
  induction a generalizing b with
  | nil => cases b with
    | nil => rfl
    | cons => simp at hl
  | cons x a ih => cases b with
    | nil => simp at hl
    | cons y b =>
      simp only [ofLe] at h
      have hx := x.toNat_lt; have hy := y.toNat_lt
      have h1 : x.toNat = y.toNat := by omega
      have h2 : ofLe a = ofLe b := by omega
      rw [ih (by simpa using hl) h2, UInt8.toNat_inj.1 h1]

theorem eqT_iff {n m a b} : eqT n m a b = true ↔ m.read a n = m.read b n := by
  simp only [eqT, beq_iff_eq, load]
  exact ⟨fun h => ofLe_inj (by simp) h, fun h => by rw [h]⟩

theorem read_split {m : Mem} {a b n len : Nat} (h : n ≤ len) :
    m.read a len = m.read b len ↔ m.read a n = m.read b n ∧ m.read (a + n) (len - n) = m.read (b + n) (len - n) := by
  have e : len = n + (len - n) := by omega
  rw [e, read_append, read_append]
  rw [show n + (len - n) - n = len - n by omega]
  rw [List.append_inj_iff_of_length_left (by simp)] 
where
  List.append_inj_iff_of_length_left {α} {a b c d : List α} (h : a.length = c.length) : a ++ b = c ++ d ↔ a = c ∧ b = d :=
    ⟨fun e => List.append_inj e h, fun ⟨e1, e2⟩ => by rw [e1, e2]⟩

/-- The state after each loop keeps the question. -/
theorem loop8_spec (m : Mem) (a b len : Nat) :
    (m.read a len = m.read b len ↔ m.read (loop8 m a b len).1 (loop8 m a b len).2.2 = m.read (loop8 m a b len).2.1 (loop8 m a b len).2.2) ∧
    ((loop8 m a b len).2.2 ≥ 8 → m.read a len ≠ m.read b len) := by
  induction len using Nat.strongRecOn generalizing a b with
  | _ len ih =>
    rw [loop8]
    by_cases h : len ≥ 8
    · rw [dif_pos h]
      by_cases he : eqT 8 m a b = true
      · rw [if_pos he]
        have := ih (len - 8) (by omega) (a + 8) (b + 8)
        have hs := read_split (m := m) (a := a) (b := b) h
        rw [eqT_iff] at he
        rw [hs]
        simp only [he, true_and]
        refine ⟨this.1, fun h8 => ?_⟩
        simp only [ne_eq]
        rw [hs]; intro hc; exact this.2 h8 hc.2
      · rw [if_neg he]
        refine ⟨Iff.rfl, fun _ hc => he ?_⟩
        rw [eqT_iff]; exact ((read_split h).1 hc).1
    · rw [dif_neg h]; exact ⟨Iff.rfl, fun h8 => absurd h8 h⟩

theorem step_spec (n : Nat) (m : Mem) (s : Nat × Nat × Nat) :
    (m.read s.1 s.2.2 = m.read s.2.1 s.2.2 ↔ m.read (step n m s).1 (step n m s).2.2 = m.read (step n m s).2.1 (step n m s).2.2) ∧
    ((step n m s).2.2 = s.2.2 - n ∨ (step n m s = s ∧ s.2.2 < n) ∨ ((step n m s) = s ∧ s.2.2 ≥ n ∧ m.read s.1 s.2.2 ≠ m.read s.2.1 s.2.2)) := by
  simp only [step]
  by_cases h : s.2.2 ≥ n
  · by_cases he : eqT n m s.1 s.2.1 = true
    · rw [if_pos ⟨h, he⟩]
      rw [eqT_iff] at he
      refine ⟨?_, Or.inl rfl⟩
      rw [read_split h]; simp [he]
    · rw [if_neg (fun hc => he hc.2)]
      refine ⟨Iff.rfl, Or.inr (Or.inr ⟨rfl, h, fun hc => he ?_⟩)⟩
      rw [eqT_iff]; exact ((read_split h).1 hc).1
  · rw [if_neg (fun hc => h hc.1)]
    exact ⟨Iff.rfl, Or.inr (Or.inl ⟨rfl, by omega⟩)⟩

end Verif.KAlloc
