import Verif.KAlloc.Lemmas
/-!
Property C17: key and value of an item do not interfere (and key comparison is byte equality).

Specification vocabulary: addresses, byte ranges `[a, a+n)`, lists of bytes. `hdr` is the size of the item header before
the KAllocation, `it` the address of the allocation given to the item, `Verif.Mem.read` the bytes of a range.
-/
namespace Verif.KAlloc
open Verif Mem

/-- Longest key accepted with / without large keys. -/
def maxKey (large : Bool) : Nat := if large then 16777215 else 255

/-- **C17, acceptance.** `allocate` constructs an item exactly if the key is non-empty, has a non-null pointer and at most 255 bytes
(16777215 with large keys) and the value has at most 16777215 bytes. -/
theorem accept_iff (large : Bool) (hdr : Nat) (m : Mem) (it : Nat) (key : Piece) (size : Nat) :
    (∃ m', allocateItem large hdr m it key size = some m') ↔
      0 < key.data.length ∧ key.data.length ≤ maxKey large ∧ key.nonNull = true ∧ size ≤ 16777215 := by
  have hs : (∃ m', itemConstruct hdr m it key size = some m') ↔
      ¬ (16777215 < size ∨ isKeyValid key = false) := by
    rw [itemConstruct, ← construct_none (m := m) (p := it + hdr)]
    cases construct m (it + hdr) key size <;> simp
  simp only [allocateItem, kSmall]
  by_cases hl : (!large && decide (key.data.length > 255)) = true
  · rw [if_pos hl]
    simp only [Bool.and_eq_true, Bool.not_eq_true', decide_eq_true_eq] at hl
    simp [maxKey, hl.1]; omega
  · rw [if_neg hl, hs]
    have := isKeyValid_iff key
    rw [Bool.not_eq_true, Bool.and_eq_false_iff] at hl
    cases large with
    | false =>
      simp only [maxKey, Bool.not_false, Bool.true_eq_false, decide_eq_false_iff_not, false_or] at *
      grind
    | true =>
      simp only [maxKey] at *
      grind

/-- The cache's own key check agrees with what allocation accepts. -/
theorem isKeyValid_agrees (large : Bool) (hdr : Nat) (m : Mem) (it : Nat) (key : Piece) :
    cacheIsKeyValid large key = true ↔ ∃ m', allocateItem large hdr m it key 0 = some m' := by
  rw [accept_iff]
  cases large <;> simp [cacheIsKeyValid, maxKey, isKeyValid_iff, isSmallKeyValid_iff]

/-- **C17, round trip and layout.** For every accepted key and size, in the allocation of `getRequiredSize` bytes at `it`:
the key read back is the key given, the size is the size asked for, the value area is exactly the last `size` bytes of the allocation, it
begins after the header and after the end of the key, and construction touches neither the bytes before the KAllocation nor the value
area nor anything outside the allocation. -/
theorem item_layout {large : Bool} {hdr : Nat} {m m' : Mem} {it : Nat} {key : Piece} {size : Nat}
    (hh : hdr ≤ 1000) (h : allocateItem large hdr m it key size = some m') :
    getKey m' (it + hdr) = key.data ∧
    getSize m' (it + hdr) = size ∧
    getMemory m' (it + hdr) + size = it + itemRequiredSize hdr key.data.length size ∧
    it + hdr + 4 ≤ getData m' (it + hdr) ∧
    getData m' (it + hdr) + key.data.length ≤ getMemory m' (it + hdr) ∧
    itemTotalSize hdr m' it = itemRequiredSize hdr key.data.length size ∧
    (∀ a, (a < it + hdr ∨ getMemory m' (it + hdr) ≤ a) → m' a = m a) := by
  have hc : construct m (it + hdr) key size = some m' := by
    simp only [allocateItem] at h
    split at h
    · cases h
    · exact h
  obtain ⟨⟨hv, hk⟩, his, hout⟩ := construct_some hc
  have hkl := (isKeyValid_iff key).1 hk
  have hmem := is_mem his
  have hex : extraBytesForLargeKeys key.data.length ≤ 4 := by
    simp only [extraBytesForLargeKeys, kLK]; split <;> omega
  have hr : itemRequiredSize hdr key.data.length size =
      size + key.data.length + (hdr + 4) + extraBytesForLargeKeys key.data.length := by
    simp only [itemRequiredSize, sItem]; rw [if_neg (by omega)]
  refine ⟨is_key his, his.vs, ?_, ?_, ?_, ?_, ?_⟩
  · rw [hmem, hr]; omega
  · rw [his.dt]; omega
  · rw [hmem, his.dt]; omega
  · rw [itemTotalSize, hmem, hr, his.vs]; omega
  · intro a ha; rw [hmem] at ha; exact hout a ha

/-- Spec: the effect of the user's writes on the value, a plain byte list. -/
def specWrite (val : List UInt8) (w : Nat × List UInt8) : List UInt8 :=
  val.take w.1 ++ w.2 ++ val.drop (w.1 + w.2.length)

/-- A user write inside the value area `[getMemory, getMemory+getSize)`. -/
def userWrite (m : Mem) (p : Nat) (w : Nat × List UInt8) : Mem := m.write (getMemory m p + w.1) w.2

/-- The value area of the KAllocation at `p`. -/
def valueOf (m : Mem) (p : Nat) : List UInt8 := m.read (getMemory m p) (getSize m p)

theorem userWrite_one {m : Mem} {p : Nat} {key : List UInt8} {v : Nat} (h : Is m p key v) (w : Nat × List UInt8)
    (hw : w.1 + w.2.length ≤ v) :
    Is (userWrite m p w) p key v ∧ getMemory (userWrite m p w) p = getMemory m p ∧
    valueOf (userWrite m p w) p = specWrite (valueOf m p) w ∧
    ∀ a, (a < getMemory m p ∨ getMemory m p + v ≤ a) → userWrite m p w a = m a := by
  have hm := is_mem h
  have h' : Is (userWrite m p w) p key v := is_congr h (fun a h1 h2 => write_outside (by rw [hm]; omega))
  have hg : getMemory (userWrite m p w) p = getMemory m p := by rw [is_mem h', hm]
  refine ⟨h', hg, ?_, fun a ha => write_outside (by omega)⟩
  simp only [valueOf, hg, h'.vs, h.vs]
  exact read_write_inside hw

/-- **C17, histories.** However the user writes into the value area of an accepted item, the key, the size and the bytes outside the
value area never change and the value is exactly the one the writes produce on a plain byte string. -/
theorem value_history {large : Bool} {hdr : Nat} {m m' : Mem} {it : Nat} {key : Piece} {size : Nat}
    (h : allocateItem large hdr m it key size = some m') (ws : List (Nat × List UInt8))
    (hw : ∀ w ∈ ws, w.1 + w.2.length ≤ size) :
    let m'' := ws.foldl (fun m w => userWrite m (it + hdr) w) m'
    getKey m'' (it + hdr) = key.data ∧ getSize m'' (it + hdr) = size ∧
    getMemory m'' (it + hdr) = getMemory m' (it + hdr) ∧
    valueOf m'' (it + hdr) = ws.foldl specWrite (m.read (getMemory m' (it + hdr)) size) ∧
    ∀ a, (a < getMemory m' (it + hdr) ∨ getMemory m' (it + hdr) + size ≤ a) → m'' a = m' a := by
  have hc : construct m (it + hdr) key size = some m' := by
    simp only [allocateItem] at h
    split at h
    · cases h
    · exact h
  obtain ⟨-, his, hout⟩ := construct_some hc
  have hv : valueOf m' (it + hdr) = m.read (getMemory m' (it + hdr)) size := by
    simp only [valueOf, his.vs]
    exact read_congr fun a h1 _ => hout a (Or.inr (by rw [← is_mem his]; exact h1))
  rw [← hv]
  clear hv hout hc h
  induction ws generalizing m' with
  | nil => exact ⟨is_key his, his.vs, rfl, rfl, fun a _ => rfl⟩
  | cons w ws ih =>
    obtain ⟨h1, h2, h3, h4⟩ := userWrite_one his w (hw w (by simp))
    have := ih (m' := userWrite m' (it + hdr) w) (fun w hw' => hw w (by simp [hw'])) h1
    simp only [List.foldl_cons]
    rw [h2, h3] at this
    refine ⟨this.1, this.2.1, this.2.2.1, this.2.2.2.1, fun a ha => ?_⟩
    rw [this.2.2.2.2 a ha, h4 a ha]

/-- **C17, key change.** Changing the key succeeds exactly for a key of the same length; then the new key is read back and the
value area keeps its place and bytes; nothing outside the key bytes changes. -/
theorem changeKey_spec {m m0 : Mem} {p : Nat} {key key' : Piece} {size : Nat} (h : construct m0 p key size = some m) :
    (changeKey m p key' = none ↔ key'.data.length ≠ key.data.length) ∧
    ∀ m', changeKey m p key' = some m' →
      getKey m' p = key'.data ∧ getSize m' p = size ∧ getMemory m' p = getMemory m p ∧ valueOf m' p = valueOf m p ∧
      ∀ a, (a < getData m p ∨ getMemory m p ≤ a) → m' a = m a := by
  obtain ⟨⟨hv, hk⟩, his, -⟩ := construct_some h
  simp only [changeKey, his.ks]
  by_cases hl : key'.data.length = key.data.length
  · simp only [hl, ne_eq, not_true, if_false, reduceCtorEq, Option.some.injEq, true_and]
    intro m' he
    have hmm := is_mem his
    have hout : ∀ a, (a < getData m p ∨ getMemory m p ≤ a) → m' a = m a := by
      intro a ha; rw [← he]
      exact write_outside (by rw [hmm] at ha; rw [his.dt] at ha ⊢; omega)
    have h4 : m'.load p 4 = m.load p 4 := by
      simp only [load]; rw [read_congr (m := m') (m' := m)]
      intro a h1 h2; exact hout a (by rw [his.dt]; omega)
    have hs : isSmallKey m' p = isSmallKey m p := by simp only [isSmallKey, keySizeField, h4]
    have hgd : getData m' p = getData m p := by simp only [getData, hs]
    have hgs : getSize m' p = getSize m p := by simp only [getSize, valSizeField, h4]
    have hks : getKeySize m' p = getKeySize m p := by
      simp only [getKeySize, hs, keySizeField, h4]
      cases hc : isSmallKey m p with
      | true => simp
      | false =>
        simp only [Bool.false_eq_true, if_false, load]
        rw [read_congr (m := m') (m' := m)]
        intro a h1 h2
        have : getData m p = p + 8 := by simp [getData, hc, dataField, kPS, kLK]
        simp only [dataField, kPS] at h1 h2
        exact hout a (by omega)
    have hgm : getMemory m' p = getMemory m p := by simp only [getMemory, hgd, hks]
    refine ⟨?_, by rw [hgs, his.vs], hgm, ?_, hout⟩
    · rw [getKey, hgd, hks, his.ks, ← hl, ← he]; exact read_write_same ..
    · simp only [valueOf, hgm, hgs]
      exact read_congr fun a h1 _ => hout a (Or.inr h1)
  · simp [hl]

/-- **C17, reading keys of unallocated memory is bounded.** Whatever bytes are in memory, the checked accessor returns a key
range inside `[p, p+allocSize)`, or the empty key. -/
theorem checked_in_bounds (m : Mem) (p allocSize a n : Nat) (h : getKeyChecked m p allocSize = some (a, n)) :
    p + 4 ≤ a ∧ a + n ≤ p + allocSize := by
  simp only [getKeyChecked, kPS, kLK] at h
  by_cases hn : allocSize < (if isSmallKey m p = true then 4 else 4 + 4) ∨ getKeySize m p > allocSize - (if isSmallKey m p = true then 4 else 4 + 4)
  · simp only [hn, if_true] at h; cases h
  · simp only [hn, if_false] at h
    simp only [Option.some.injEq, Prod.mk.injEq] at h
    obtain ⟨rfl, rfl⟩ := h
    simp only [getData, dataField, kPS, kLK]
    cases hs : isSmallKey m p <;> simp only [hs, if_true, Bool.false_eq_true, if_false] at hn ⊢ <;> omega

/-- ... and for a live item in an allocation that is large enough it is the item's key. -/
theorem checked_exact {m m' : Mem} {p : Nat} {key : Piece} {size allocSize : Nat} (h : construct m p key size = some m')
    (hs : 4 + extraBytesForLargeKeys key.data.length + key.data.length ≤ allocSize) :
    getKeyChecked m' p allocSize = some (getData m' p, key.data.length) ∧
    m'.read (getData m' p) key.data.length = key.data := by
  obtain ⟨-, his, -⟩ := construct_some h
  refine ⟨?_, by rw [his.dt]; exact his.ky⟩
  have hd := his.dt
  simp only [getKeyChecked, his.ks, kPS, kLK]
  simp only [getData, dataField, kPS, kLK] at hd
  rw [if_neg]
  cases hc : isSmallKey m' p <;> simp only [hc, if_true, Bool.false_eq_true, if_false] at hd ⊢ <;> omega

/-- **C17, chained items.** With compressed pointers of `c` bytes (4 or 5): for an accepted chained item the parent pointer is read
back, the next pointer is null, the usable size is the size asked for, and the value area is exactly the last `size` bytes of an
allocation of `getRequiredSize` bytes; setting the next pointer or the parent afterwards affects only what it should. -/
theorem chained_layout {hdr c : Nat} {m m' : Mem} {it parent size : Nat} (hh : hdr ≤ 1000) (hc : c = 4 ∨ c = 5)
    (hp : parent < 256 ^ c) (hz : size < 2 ^ 32 - 8) (h : chainedConstruct hdr c m it parent size = some m') :
    chainedParent hdr c m' it = parent ∧ chainedGetNext hdr c m' it = 0 ∧ chainedSize hdr c m' it = size ∧
    chainedMemory hdr c m' it + size = it + chainedRequiredSize hdr c size ∧
    (∀ a, (a < it + hdr ∨ chainedMemory hdr c m' it ≤ a) → m' a = m a) ∧
    (∀ next, next < 256 ^ c → chainedGetNext hdr c (chainedSetNext hdr c m' it next) it = next ∧
      chainedParent hdr c (chainedSetNext hdr c m' it next) it = parent ∧
      chainedSize hdr c (chainedSetNext hdr c m' it next) it = size ∧
      chainedMemory hdr c (chainedSetNext hdr c m' it next) it = chainedMemory hdr c m' it ∧
      ∀ a, (a < it + hdr ∨ chainedMemory hdr c m' it ≤ a) → chainedSetNext hdr c m' it next a = m' a) := by
  simp only [chainedConstruct] at h
  split at h
  · cases h
  rename_i m1 h1
  injection h with h
  rw [Nat.mod_eq_of_lt (by omega)] at h1
  obtain ⟨⟨hv, hk⟩, his, hout⟩ := construct_some h1
  have hkl : (le c parent).length = c := length_le ..
  have hex : extraBytesForLargeKeys (le c parent).length = 0 := by
    rw [hkl]; simp only [extraBytesForLargeKeys, kSmall]; rw [if_pos (by omega)]
  have key : ∀ (mm : Mem), Is mm (it + hdr) (le c parent) (size + c) →
      getMemory mm (it + hdr) = it + hdr + 4 + c ∧ chainedParent hdr c mm it = parent ∧ chainedSize hdr c mm it = size := by
    intro mm hmm
    have hm := is_mem hmm
    rw [hex, hkl] at hm
    refine ⟨by omega, ?_, ?_⟩
    · have hky := hmm.ky
      rw [hex, hkl] at hky
      simp only [chainedParent, load, hmm.dt, hex, hky]
      exact ofLe_le hp
    · simp only [chainedSize, hmm.vs]; omega
  obtain ⟨km, kp, ksz⟩ := key m1 his
  have st : ∀ next, Is (m1.store (it + hdr + 4 + c) c next) (it + hdr) (le c parent) (size + c) := by
    intro next
    refine is_congr his (fun a _ h2 => store_outside ?_)
    rw [hex, hkl] at h2
    omega
  have st2 : ∀ n1 n2, Is ((m1.store (it + hdr + 4 + c) c n1).store (it + hdr + 4 + c) c n2) (it + hdr) (le c parent) (size + c) := by
    intro n1 n2
    refine is_congr (st n1) (fun a _ h2 => store_outside ?_)
    rw [hex, hkl] at h2
    omega
  rw [km] at h
  have ha' := st 0
  rw [h] at ha'
  obtain ⟨k1, k2, k3⟩ := key m' ha'
  have hpow : 0 < 256 ^ c := Nat.pow_pos (by decide)
  have hrs : chainedRequiredSize hdr c size = size + c + (hdr + 4) + c := by
    simp only [chainedRequiredSize, sItem]; rw [if_neg (by omega)]
  refine ⟨k2, ?_, k3, ?_, ?_, ?_⟩
  · simp only [chainedGetNext, k1]; rw [← h]; exact load_store hpow
  · simp only [chainedMemory, k1, hrs]; omega
  · intro a ha
    simp only [chainedMemory, k1] at ha
    rw [← h, store_outside (by omega)]
    exact hout a (by simp only; rw [hex, hkl]; omega)
  · intro next hn
    have hb : Is (m'.store (it + hdr + 4 + c) c next) (it + hdr) (le c parent) (size + c) := by
      rw [← h]; exact st2 0 next
    obtain ⟨j1, j2, j3⟩ := key _ hb
    simp only [chainedSetNext, k1]
    refine ⟨?_, j2, j3, ?_, ?_⟩
    · simp only [chainedGetNext, j1]; exact load_store hn
    · simp only [chainedMemory, j1, k1]
    · intro a ha
      simp only [chainedMemory, k1] at ha
      exact store_outside (by omega)

/-- **Key comparison is byte equality**, for every length and content (the word-wise comparison has no false result). -/
theorem bytesEqual_iff (m : Mem) (a b len : Nat) : bytesEqual m a b len = true ↔ m.read a len = m.read b len := by
  simp only [bytesEqual]
  by_cases hl : len ≥ 1024
  · rw [if_pos hl]; simp
  · rw [if_neg hl]
    obtain ⟨e8, f8⟩ := loop8_spec m a b len
    generalize loop8 m a b len = s at e8 f8
    rw [e8]
    by_cases h8 : s.2.2 ≥ 8
    · rw [if_pos h8]
      simp only [Bool.false_eq_true, false_iff]
      exact fun hc => f8 h8 (e8.2 hc)
    · rw [if_neg h8]
      obtain ⟨e4, f4⟩ := step_spec 4 m s
      by_cases h4 : (step 4 m s).2.2 ≥ 4
      · rw [if_pos h4]
        simp only [Bool.false_eq_true, false_iff]
        rcases f4 with f | ⟨f, g⟩ | ⟨f, g⟩
        · omega
        · rw [f] at h4; omega
        · exact g.2
      · rw [if_neg h4, e4]
        generalize step 4 m s = t at h4 e4
        obtain ⟨e2, f2⟩ := step_spec 2 m t
        rw [e2]
        have hlast : ∀ u : Nat × Nat × Nat, u.2.2 < 2 →
            (((u.2.2 == 1 && m u.1 == m u.2.1) || u.2.2 == 0) = true ↔ m.read u.1 u.2.2 = m.read u.2.1 u.2.2) := by
          intro u hu
          have : u.2.2 = 0 ∨ u.2.2 = 1 := by omega
          rcases this with h | h <;> rw [h] <;> simp [Mem.read]
        rcases f2 with f | ⟨f, g⟩ | ⟨f, g⟩
        · exact hlast _ (by omega)
        · exact hlast _ (by rw [f]; exact g)
        · rw [f]
          have n1 : (t.2.2 == 1) = false := by simp; omega
          have n0 : (t.2.2 == 0) = false := by simp; omega
          simp only [n1, n0, Bool.false_and, Bool.false_or, Bool.false_eq_true, false_iff]
          exact g.2

/-- Two keys compare equal exactly if they are the same byte string. -/
theorem keyEq_iff (m : Mem) (a asz b bsz : Nat) : keyEq m a asz b bsz = true ↔ m.read a asz = m.read b bsz := by
  simp only [keyEq, Bool.and_eq_true, beq_iff_eq]
  constructor
  · rintro ⟨rfl, h⟩; exact (bytesEqual_iff ..).1 h
  · intro h
    have hl : asz = bsz := by simpa using congrArg List.length h
    subst hl; exact ⟨rfl, (bytesEqual_iff ..).2 h⟩

/-! ### Concrete cases meeting the hypotheses -/

/-- A 300-byte key (large layout) and a 5-byte key are accepted, so the theorems above are about something. -/
example : ∃ m', allocateItem true 28 (fun _ => 7) 4096 ⟨List.replicate 300 1, true⟩ 1000 = some m' :=
  (accept_iff ..).2 (by simp only [List.length_replicate, maxKey]; decide)
example : ∃ m', allocateItem false 28 (fun _ => 7) 4096 ⟨[1, 2, 3, 4, 5], true⟩ 1000 = some m' :=
  (accept_iff ..).2 (by simp [maxKey])
/-- Without large keys the 300-byte key is refused; so are the empty key and an over-long value. -/
example : ¬ ∃ m', allocateItem false 28 (fun _ => 7) 4096 ⟨List.replicate 300 1, true⟩ 1000 = some m' := by
  rw [accept_iff]; simp only [List.length_replicate, maxKey]; decide
example : ¬ ∃ m', allocateItem true 28 (fun _ => 7) 4096 ⟨[1], true⟩ 16777216 = some m' := by
  rw [accept_iff]; simp
/-- Hypotheses of `value_history`, `changeKey_spec`, `checked_exact` and `chained_layout`. -/
example : ∀ w ∈ [(0, [1, 2]), (3, ([9] : List UInt8))], w.1 + w.2.length ≤ 4 := by simp
example : ∃ m', construct (fun _ => 0) 100 ⟨[1, 2, 3], true⟩ 4 = some m' ∧ ∃ m'', changeKey m' 100 ⟨[3, 2, 1], true⟩ = some m'' := by
  refine ⟨_, rfl, _, rfl⟩
example : ∃ m', chainedConstruct 28 4 (fun _ => 0) 4096 77 100 = some m' := ⟨_, rfl⟩
example : getKeyChecked (fun _ => 255) 100 64 = none := by decide
example : keyEq (fun a => if a < 100 then 1 else 2) 5 30 40 30 = true := by
  rw [keyEq_iff]; decide
example : keyEq (fun a => if a < 68 then 1 else 2) 5 30 40 30 = false := by
  rw [← Bool.not_eq_true, keyEq_iff]; decide

end Verif.KAlloc
