import Verif.NvmItem.Model
/-!
Property C31: items serialized to flash round-trip.

Specification: a record is a list of blobs (original size, bytes); `m.read p n` are the bytes that go to flash.
-/
namespace Verif.NvmItem
open Verif Mem

/-- Total number of payload bytes. -/
def payload (bs : List Blob) : Nat := (bs.map fun b => b.data.length).sum

/-- Start of blob `i` in the payload. -/
def startOf (bs : List Blob) (i : Nat) : Nat := payload (bs.take i)

theorem sNI : sizeofNvmItem = 18 := by decide
theorem sBI : sizeofBlobInfo = 8 := by decide
theorem mOff : maxOffset = 4294967295 := by decide
theorem bI (p i : Nat) : blobInfo p i = p + 18 + i * 8 := by unfold blobInfo; rw [sNI, sBI]

theorem payload_cons (b : Blob) (bs) : payload (b :: bs) = b.data.length + payload bs := by simp [payload]
theorem payload_append (a b : List Blob) : payload (a ++ b) = payload a + payload b := by simp [payload]

/-- Description of a region of filled entries: blobs `bs` at indices `index..`, payload from `offset`. -/
def Filled (m : Mem) (p db : Nat) : List Blob → Nat → Nat → Prop
  | [], _, _ => True
  | b :: bs, index, offset =>
    origAllocSize m p index = b.origAllocSize ∧ endOffset m p index = offset + b.data.length ∧
    m.read (db + offset) b.data.length = b.data ∧ Filled m p db bs (index + 1) (offset + b.data.length)

theorem fill_spec {p db : Nat} (bs : List Blob) : ∀ {index offset : Nat} {m : Mem},
    (∀ b ∈ bs, b.origAllocSize < 2 ^ 32) →
    p + 18 + (index + bs.length) * 8 ≤ db →
    (offset ≤ 4294967295 → (fill p db bs index offset m = none ↔ offset + payload bs > 4294967295)) ∧
    ∀ m', fill p db bs index offset m = some m' →
      Filled m' p db bs index offset ∧
      (∀ a, (a < p + 18 + index * 8 ∨ p + 18 + (index + bs.length) * 8 ≤ a) →
        (a < db + offset ∨ db + offset + payload bs ≤ a) → m' a = m a) := by
  induction bs with
  | nil =>
    intro index offset m _ _
    refine ⟨fun h => ⟨fun h => by simp [fill] at h, fun h => by simp [payload] at h; omega⟩, ?_⟩
    intro m' h
    simp only [fill, Option.some.injEq] at h; subst h
    exact ⟨trivial, fun _ _ _ => rfl⟩
  | cons b bs ih =>
    intro index offset m hsz hdb
    simp only [List.length_cons] at hdb
    simp only [fill, mOff, payload_cons]
    by_cases hov : offset + b.data.length > 4294967295
    · simp only [hov, if_true, reduceCtorEq, false_imp_iff, implies_true, and_true, true_iff]
      omega
    · simp only [hov, if_false]
      generalize hm3 : ((m.write (db + offset) b.data).store (blobInfo p index) 4 b.origAllocSize).store
        (blobInfo p index + 4) 4 (offset + b.data.length) = m3
      obtain ⟨i1, i2⟩ := ih (index := index + 1) (offset := offset + b.data.length) (m := m3)
        (fun b hb => hsz b (by simp [hb])) (by omega)
      constructor
      · intro _; rw [i1 (by omega)]; omega
      · intro m' h
        obtain ⟨j1, j2⟩ := i2 m' h
        have hb := hsz b (by simp)
        have e3 : ∀ a, p + 18 + index * 8 ≤ a → a < p + 18 + index * 8 + 8 → m' a = m3 a :=
          fun a h1 h2 => j2 a (Or.inl (by omega)) (Or.inl (by omega))
        have hd : ∀ a, db + offset ≤ a → a < db + offset + b.data.length → m' a = m3 a :=
          fun a h1 h2 => j2 a (Or.inr (by omega)) (Or.inl (by omega))
        refine ⟨⟨?_, ?_, ?_, j1⟩, ?_⟩
        · rw [origAllocSize, load, bI, read_congr (m' := m3) (fun a h1 h2 => e3 a (by omega) (by omega)), ← load, ← hm3,
            bI, load_store_disj (by omega), load_store hb]
        · rw [endOffset, load, bI, read_congr (m' := m3) (fun a h1 h2 => e3 a (by omega) (by omega)), ← load, ← hm3,
            bI, load_store (by omega)]
        · rw [read_congr (m' := m3) hd, ← hm3, bI, read_store_disj (by omega), read_store_disj (by omega)]
          exact read_write_same ..
        · intro a h1 h2
          simp only [List.length_cons] at h1
          rw [j2 a (by omega) (by omega), ← hm3, bI, store_outside (by omega), store_outside (by omega),
            write_outside (by omega)]

theorem filled_get {m : Mem} {p db : Nat} : ∀ (bs : List Blob) (index offset i : Nat) (b : Blob), Filled m p db bs index offset →
    bs[i]? = some b →
    origAllocSize m p (index + i) = b.origAllocSize ∧
    endOffset m p (index + i) = offset + startOf bs (i + 1) ∧
    (0 < i → endOffset m p (index + i - 1) = offset + startOf bs i) ∧
    m.read (db + offset + startOf bs i) b.data.length = b.data ∧ startOf bs (i + 1) = startOf bs i + b.data.length := by
  intro bs
  induction bs with
  | nil => intro _ _ i b _ h; simp at h
  | cons c bs ih =>
    intro index offset i b hf hi
    obtain ⟨h1, h2, h3, h4⟩ := hf
    cases i with
    | zero =>
      simp only [List.getElem?_cons_zero, Option.some.injEq] at hi; subst hi
      simp only [startOf, List.take_succ_cons, List.take_zero, payload_cons]
      simp only [payload, List.map_nil, List.sum_nil, Nat.add_zero]
      refine ⟨h1, by omega, by omega, h3, by omega⟩
    | succ i =>
      simp only [List.getElem?_cons_succ] at hi
      obtain ⟨k1, k2, k3, k4, k5⟩ := ih (index + 1) (offset + c.data.length) i b h4 hi
      have e : index + 1 + i = index + (i + 1) := by omega
      rw [e] at k1 k2 k3
      simp only [startOf, List.take_succ_cons, payload_cons] at *
      refine ⟨k1, by omega, fun _ => ?_, ?_, by omega⟩
      · by_cases h0 : i = 0
        · subst h0; simp only [List.take_zero, payload, List.map_nil, List.sum_nil] at *
          rw [show index + (0 + 1) - 1 = index by omega, h2]; omega
        · rw [k3 (by omega)]; omega
      · rw [show db + offset + (c.data.length + payload (List.take i bs)) = db + (offset + c.data.length) + payload (List.take i bs) by omega]
        exact k4

theorem header_spec {m : Mem} {p id ct et n : Nat} (h1 : id < 256) (h2 : ct < 2 ^ 32) (h3 : et < 2 ^ 32) (h4 : n < 2 ^ 64) :
    poolId (header m p id ct et n) p = id ∧ creationTime (header m p id ct et n) p = ct ∧
    expiryTime (header m p id ct et n) p = et ∧ numBlobs (header m p id ct et n) p = n ∧
    ∀ a, (a < p ∨ p + 18 ≤ a) → header m p id ct et n a = m a := by
  refine ⟨?_, ?_, ?_, ?_, ?_⟩
  · simp only [poolId, header]
    rw [load_store_disj (by omega), load_store_disj (by omega), load_store_disj (by omega), load_store_disj (by omega),
      load_store (by omega)]
  · simp only [creationTime, header]
    rw [load_store_disj (by omega), load_store_disj (by omega), load_store (by omega)]
  · simp only [expiryTime, header]
    rw [load_store_disj (by omega), load_store (by omega)]
  · simp only [numBlobs, header]
    rw [load_store (by omega)]
  · intro a ha
    simp only [header]
    rw [store_outside (by omega), store_outside (by omega), store_outside (by omega), store_outside (by omega),
      store_outside (by omega)]

/-- Field ranges of the C++ types. -/
structure Fits (id ct et : Nat) (bs : List Blob) : Prop where
  id : id < 256
  ct : ct < 2 ^ 32
  et : et < 2 ^ 32
  n : bs.length < 2 ^ 61
  sz : ∀ b ∈ bs, b.origAllocSize < 2 ^ 32

theorem estimate_eq (bs : List Blob) : estimate bs = bs.length * 8 + payload bs := by
  induction bs with
  | nil => rfl
  | cons b bs ih => simp only [estimate, estimate1, sBI, ih, payload_cons, List.length_cons]; omega

theorem dataBegin_eq {m : Mem} {p n : Nat} (h : numBlobs m p = n) : dataBegin m p = p + 18 + n * 8 := by
  unfold dataBegin; rw [h, sNI, sBI]

/-- **C31, rejection.** Packing fails exactly if the payload is longer than 2^32 - 1 bytes. -/
theorem reject_iff {m : Mem} {p id ct et : Nat} {bs : List Blob} (hf : Fits id ct et bs) :
    construct m p id ct et bs = none ↔ payload bs > 2 ^ 32 - 1 := by
  have hh := header_spec (m := m) (p := p) hf.id hf.ct hf.et (n := bs.length) (by have := hf.n; omega)
  have := (fill_spec (p := p) (db := dataBegin (header m p id ct et bs.length) p) bs (index := 0) (offset := 0)
    (m := header m p id ct et bs.length) hf.sz (by rw [dataBegin_eq hh.2.2.2.1]; omega)).1 (by omega)
  simp only [construct]; rw [this]; omega

theorem construct_filled {m m' : Mem} {p id ct et : Nat} {bs : List Blob} (hf : Fits id ct et bs)
    (h : construct m p id ct et bs = some m') :
    Filled m' p (p + 18 + bs.length * 8) bs 0 0 ∧ numBlobs m' p = bs.length ∧ poolId m' p = id ∧ creationTime m' p = ct ∧
    expiryTime m' p = et ∧ ∀ a, (a < p ∨ p + 18 + estimate bs ≤ a) → m' a = m a := by
  obtain ⟨h1, h2, h3, h4, h5⟩ := header_spec (m := m) (p := p) hf.id hf.ct hf.et (n := bs.length) (by have := hf.n; omega)
  simp only [construct] at h
  rw [dataBegin_eq h4] at h
  obtain ⟨k1, k2⟩ := (fill_spec bs (index := 0) (offset := 0) hf.sz (by omega)).2 m' h
  have eqh : ∀ a, p ≤ a → a < p + 18 → m' a = header m p id ct et bs.length a :=
    fun a ha hb => k2 a (Or.inl (by omega)) (Or.inl (by omega))
  refine ⟨k1, ?_, ?_, ?_, ?_, ?_⟩
  · rw [← h4]; simp only [numBlobs, load]; rw [read_congr (fun a ha hb => eqh a (by omega) (by omega))]
  · rw [← h1]; simp only [poolId, load]; rw [read_congr (fun a ha hb => eqh a (by omega) (by omega))]
  · rw [← h2]; simp only [creationTime, load]; rw [read_congr (fun a ha hb => eqh a (by omega) (by omega))]
  · rw [← h3]; simp only [expiryTime, load]; rw [read_congr (fun a ha hb => eqh a (by omega) (by omega))]
  · intro a ha
    rw [estimate_eq] at ha
    rw [k2 a (by omega) (by omega), h5 a (by omega)]

theorem getBlob_spec {m : Mem} {p : Nat} {bs : List Blob} (hf : Filled m p (p + 18 + bs.length * 8) bs 0 0)
    (hn : numBlobs m p = bs.length) (i : Nat) : getBlob m p i = bs[i]? := by
  simp only [getBlob, hn]
  by_cases hi : i ≥ bs.length
  · rw [if_pos hi, List.getElem?_eq_none hi]
  · rw [if_neg hi]
    have hlt : i < bs.length := by omega
    have hget : bs[i]? = some bs[i] := List.getElem?_eq_getElem hlt
    obtain ⟨k1, k2, k3, k4, k5⟩ := filled_get bs 0 0 i bs[i] hf hget
    rw [Nat.zero_add] at k1 k2 k3
    have hb : (if i = 0 then 0 else endOffset m p (i - 1)) = startOf bs i := by
      by_cases h0 : i = 0
      · subst h0; simp [startOf, payload]
      · rw [if_neg h0, k3 (by omega)]; omega
    have hd : dataBegin m p = p + 18 + bs.length * 8 := dataBegin_eq hn
    have hs : endOffset m p i - startOf bs i = bs[i].data.length := by omega
    simp only [hb, hs, hd, hget, k1, Option.some.injEq]
    rw [Nat.add_zero] at k4
    rw [k4]

/-- **C31, round trip.** Every blob is read back exactly (bytes and original size), reading past the last blob is refused, the
header fields are read back, the total size is exact, and nothing outside the `sizeof + estimateVariableSize` bytes allocated
for the record is written. -/
theorem roundtrip {m m' : Mem} {p id ct et : Nat} {bs : List Blob} (hf : Fits id ct et bs)
    (h : construct m p id ct et bs = some m') :
    (∀ i, getBlob m' p i = bs[i]?) ∧ poolId m' p = id ∧ creationTime m' p = ct ∧ expiryTime m' p = et ∧
    numBlobs m' p = bs.length ∧
    (bs ≠ [] → totalSize m' p = sizeofNvmItem + estimate bs) ∧
    (∀ a, (a < p ∨ p + sizeofNvmItem + estimate bs ≤ a) → m' a = m a) := by
  obtain ⟨h1, h2, h3, h4, h5, h6⟩ := construct_filled hf h
  refine ⟨getBlob_spec h1 h2, h3, h4, h5, h2, ?_, by rw [sNI]; exact h6⟩
  intro hne
  have hl : 0 < bs.length := List.length_pos_iff.2 hne
  obtain ⟨-, k2, -, -, -⟩ := filled_get bs 0 0 (bs.length - 1) bs[bs.length - 1] h1 (List.getElem?_eq_getElem (by omega))
  rw [totalSize, h2, estimate_eq, sNI, sBI]
  rw [Nat.zero_add] at k2
  rw [k2]
  have : startOf bs (bs.length - 1 + 1) = payload bs := by
    rw [show bs.length - 1 + 1 = bs.length by omega, startOf, List.take_length]
  omega

/-- The one-blob constructor produces exactly what the vector constructor produces for a one-element vector. -/
theorem construct1_eq (m : Mem) (p id ct et : Nat) (b : Blob) : construct1 m p id ct et b = construct m p id ct et [b] := by
  simp only [construct1, construct, fill, List.length_cons, List.length_nil, Nat.zero_add, Nat.add_zero]

/-- **C31, flash copy.** What is read depends only on the `totalSize` bytes that are written to flash: after copying those bytes
to any address of any memory, all blobs and header fields are read back. -/
theorem flash_copy {m m' n : Mem} {p q id ct et : Nat} {bs : List Blob} (hf : Fits id ct et bs) (hne : bs ≠ [])
    (h : construct m p id ct et bs = some m')
    (hc : n.read q (totalSize m' p) = m'.read p (totalSize m' p)) :
    (∀ i, getBlob n q i = bs[i]?) ∧ expiryTime n q = et ∧ creationTime n q = ct ∧ poolId n q = id ∧
    totalSize n q = totalSize m' p := by
  obtain ⟨h1, h2, h3, h4, h5, -⟩ := construct_filled hf h
  have ht := (roundtrip hf h).2.2.2.2.2.1 hne
  rw [sNI, estimate_eq] at ht
  have hrd : ∀ k l, k + l ≤ totalSize m' p → n.read (q + k) l = m'.read (p + k) l := by
    intro k l hkl; rw [read_sub hkl, read_sub hkl, hc]
  have hld : ∀ k l, k + l ≤ totalSize m' p → n.load (q + k) l = m'.load (p + k) l := by
    intro k l hkl; simp only [load, hrd k l hkl]
  have hf' : Filled n q (q + 18 + bs.length * 8) bs 0 0 := by
    have gen : ∀ (cs : List Blob) (idx off : Nat), idx + cs.length ≤ bs.length → off + payload cs ≤ payload bs →
        Filled m' p (p + 18 + bs.length * 8) cs idx off → Filled n q (q + 18 + bs.length * 8) cs idx off := by
      intro cs
      induction cs with
      | nil => intro _ _ _ _ _; trivial
      | cons c cs ih =>
        intro idx off hi ho hfl
        obtain ⟨f1, f2, f3, f4⟩ := hfl
        simp only [payload_cons, List.length_cons] at hi ho
        refine ⟨?_, ?_, ?_, ih _ _ (by omega) (by omega) f4⟩
        · rw [← f1]; simp only [origAllocSize, bI]
          rw [show q + 18 + idx * 8 = q + (18 + idx * 8) by omega, show p + 18 + idx * 8 = p + (18 + idx * 8) by omega]
          exact hld _ _ (by omega)
        · rw [← f2]; simp only [endOffset, bI]
          rw [show q + 18 + idx * 8 + 4 = q + (18 + idx * 8 + 4) by omega, show p + 18 + idx * 8 + 4 = p + (18 + idx * 8 + 4) by omega]
          exact hld _ _ (by omega)
        · conv => rhs; rw [← f3]
          rw [show q + 18 + bs.length * 8 + off = q + (18 + bs.length * 8 + off) by omega,
            show p + 18 + bs.length * 8 + off = p + (18 + bs.length * 8 + off) by omega]
          exact hrd _ _ (by omega)
    exact gen bs 0 0 (by omega) (by omega) h1
  have hn : numBlobs n q = bs.length := by rw [← h2]; exact hld 10 8 (by omega)
  refine ⟨getBlob_spec hf' hn, ?_, ?_, ?_, ?_⟩
  · rw [← h5]; exact hld 6 4 (by omega)
  · rw [← h4]; exact hld 2 4 (by omega)
  · rw [← h3]; exact hld 0 1 (by omega)
  · have hl : 0 < bs.length := List.length_pos_iff.2 hne
    simp only [totalSize, hn, h2, endOffset, bI]
    rw [show q + 18 + (bs.length - 1) * 8 + 4 = q + (18 + (bs.length - 1) * 8 + 4) by omega,
      show p + 18 + (bs.length - 1) * 8 + 4 = p + (18 + (bs.length - 1) * 8 + 4) by omega, hld _ _ (by omega)]

/-- An item without expiry never expires; with one it is expired exactly from the second after it. -/
theorem expired_iff {m m' : Mem} {p id ct et : Nat} {bs : List Blob} (hf : Fits id ct et bs)
    (h : construct m p id ct et bs = some m') (now : Nat) : isExpired m' p now = true ↔ et ≠ 0 ∧ et < now := by
  rw [isExpired, (roundtrip hf h).2.2.2.1]; simp; omega

/-! ### Concrete cases -/
def exBlobs : List Blob := [⟨10, [1, 2, 3]⟩, ⟨0, []⟩, ⟨77, [9, 9]⟩]
example : Fits 3 1000 2000 exBlobs ∧ exBlobs ≠ [] := ⟨⟨by decide, by decide, by decide, by decide, by decide⟩, by decide⟩
example : ∃ m', construct (fun _ => 5) 64 3 1000 2000 exBlobs = some m' := ⟨_, rfl⟩
example : (construct (fun _ => 5) 64 3 1000 2000 exBlobs).bind (fun m => getBlob m 64 2) = some ⟨77, [9, 9]⟩ := by decide +kernel

end Verif.NvmItem
