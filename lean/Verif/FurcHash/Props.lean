import Verif.FurcHash.Model
import Mathlib.Data.Nat.Bitwise
/-
C34: results are in range; one more shard leaves every key where it was or moves it to the new shard.
-/
namespace Verif.FurcHash

/-- the stream of hash values and of bits -/
def H (h0 : Nat) (rehash : Nat → Nat) : Nat → Nat
  | 0 => h0
  | k + 1 => rehash (H h0 rehash k)

def bit (h0 : Nat) (rehash : Nat → Nat) (c : Nat) : Bool := decide ((H h0 rehash (c >>> 6) >>> (c &&& 0x3f)) &&& 1 ≠ 0)

/-- the cache is a prefix of the stream -/
def Good (h0 : Nat) (rehash : Nat → Nat) (st : St) : Prop := ∀ k ≤ st.hashIdx, st.cache k = H h0 rehash k

theorem fill_good {h0 rehash} : ∀ (k n : Nat) (cache : Nat → Nat), 0 < n → (∀ i < n, cache i = H h0 rehash i) →
    ∀ i < n + k, fill rehash cache n k i = H h0 rehash i
  | 0, n, cache, _, h, i, hi => by simpa [fill] using h i hi
  | k + 1, n, cache, hn, h, i, hi => by
    simp only [fill]
    apply fill_good k (n + 1) _ (by omega)
    · intro j hj
      split
      · rename_i e; subst e
        rw [h (j - 1) (by omega)]
        obtain ⟨p, rfl⟩ : ∃ p, j = p + 1 := ⟨j - 1, by omega⟩
        rfl
      · exact h j (by omega)
    · omega

theorem getbit_spec {h0 rehash st} (h : Good h0 rehash st) (c : Nat) :
    Good h0 rehash (getbit rehash st c).1 ∧ (getbit rehash st c).2 = bit h0 rehash c := by
  unfold getbit
  simp only
  split
  · rename_i hlt
    have hg : ∀ i < st.hashIdx + 1 + (c >>> 6 - st.hashIdx), fill rehash st.cache (st.hashIdx + 1) (c >>> 6 - st.hashIdx) i = H h0 rehash i :=
      fill_good _ _ _ (by omega) (fun i hi => h i (by omega))
    refine ⟨fun k hk => hg k (by simp only at hk; omega), ?_⟩
    unfold bit
    simp only [hg (c >>> 6) (by omega)]
  · rename_i hge
    refine ⟨h, ?_⟩
    unfold bit
    simp only [h (c >>> 6) (by omega)]

/-! ### the same without the cache -/

def descendP (bit : Nat → Bool) : Nat → Nat → Option (Nat × Nat)
  | 0, _ => none
  | b + 1, c => if bit c then some (b + 1, c) else if b = 0 then none else descendP bit b b

def readP (bit : Nat → Bool) : Nat → Nat → Nat → Nat × Nat
  | 0, c, r => (c, r)
  | k + 1, c, r => readP bit k (c + 23) (2 * r + (if bit c then 1 else 0))

def tryP (bit : Nat → Bool) (n : Nat) : Nat → Nat → Nat → Res
  | 0, _, _ => .gaveUp
  | k + 1, b, c =>
    match descendP bit b c with
    | none => .found 0
    | some (b, c) => if (readP bit (b - 1) (c + 23) 1).2 < n then .found (readP bit (b - 1) (c + 23) 1).2
      else tryP bit n k b (readP bit (b - 1) (c + 23) 1).1

theorem descend_spec {h0 rehash} : ∀ (b : Nat) (st : St) (c : Nat), Good h0 rehash st →
    Good h0 rehash (descend rehash st b c).1 ∧ (descend rehash st b c).2 = descendP (bit h0 rehash) b c
  | 0, st, c, h => ⟨h, rfl⟩
  | b + 1, st, c, h => by
    have hg := getbit_spec h c
    simp only [descend, descendP]
    split
    · rename_i st' e
      rw [e] at hg
      simp only at hg
      exact ⟨hg.1, by rw [← hg.2]; rfl⟩
    · rename_i st' e
      rw [e] at hg
      simp only at hg
      rw [← hg.2]
      simp only [Bool.false_eq_true, if_false]
      split
      · exact ⟨hg.1, rfl⟩
      · exact descend_spec b st' b hg.1

theorem shift_or (r : Nat) (b : Bool) : (r <<< 1) ||| (if b then 1 else 0) = 2 * r + (if b then 1 else 0) := by
  rw [Nat.shiftLeft_eq]
  have := (Nat.two_pow_add_eq_or_of_lt (i := 1) (b := if b then 1 else 0) (by cases b <;> decide) r).symm
  rw [show r * 2 ^ 1 = 2 ^ 1 * r by omega, this]

theorem readBits_spec {h0 rehash} : ∀ (k : Nat) (st : St) (c r : Nat), Good h0 rehash st →
    Good h0 rehash (readBits rehash st k c r).1 ∧ (readBits rehash st k c r).2 = readP (bit h0 rehash) k c r
  | 0, st, c, r, h => ⟨h, rfl⟩
  | k + 1, st, c, r, h => by
    have hg := getbit_spec h c
    simp only [readBits, readP]
    rw [← hg.2, shift_or]
    exact readBits_spec k _ _ _ hg.1

theorem tryLoop_spec {h0 rehash n} : ∀ (k : Nat) (st : St) (b c : Nat), Good h0 rehash st →
    (tryLoop rehash n k st b c).2 = tryP (bit h0 rehash) n k b c
  | 0, st, b, c, h => rfl
  | k + 1, st, b, c, h => by
    have hd := descend_spec b st c h
    simp only [tryLoop, tryP]
    rw [← hd.2]
    split
    · rename_i st' e
      rw [e]
    · rename_i st' b' c' e
      rw [e] at hd
      rw [e]
      have hr := readBits_spec (b' - 1) st' (c' + 23) 1 hd.1
      simp only
      rw [← hr.2]
      split
      · rfl
      · exact tryLoop_spec k _ _ _ hr.1

/-! ### facts about the pure version -/

theorem descendP_le {bit} : ∀ (b c : Nat) {b' c'}, descendP bit b c = some (b', c') → 0 < b' ∧ b' ≤ b
  | 0, c, b', c', h => by simp [descendP] at h
  | b + 1, c, b', c', h => by
    simp only [descendP] at h
    split at h
    · simp at h; omega
    · split at h
      · simp at h
      · have := descendP_le b b h; omega

theorem readP_bounds {bit} : ∀ (k c r : Nat), 2 ^ k * r ≤ (readP bit k c r).2 ∧ (readP bit k c r).2 < 2 ^ k * (r + 1) ∧
    (readP bit k c r).1 = c + 23 * k
  | 0, c, r => by simp [readP]
  | k + 1, c, r => by
    simp only [readP]
    obtain ⟨h1, h2, h3⟩ := readP_bounds (bit := bit) k (c + 23) (2 * r + if bit c then 1 else 0)
    refine ⟨?_, ?_, by omega⟩
    · refine Nat.le_trans ?_ h1
      rw [Nat.pow_succ, Nat.mul_assoc]
      exact Nat.mul_le_mul_left _ (by omega)
    · refine Nat.lt_of_lt_of_le h2 ?_
      rw [Nat.pow_succ, Nat.mul_assoc]
      exact Nat.mul_le_mul_left _ (by split <;> omega)

theorem read_range {bit b c} (hb : 0 < b) : 2 ^ (b - 1) ≤ (readP bit (b - 1) c 1).2 ∧ (readP bit (b - 1) c 1).2 < 2 ^ b := by
  obtain ⟨h1, h2, _⟩ := readP_bounds (bit := bit) (b - 1) c 1
  obtain ⟨k, rfl⟩ : ∃ k, b = k + 1 := ⟨b - 1, by omega⟩
  simp only [Nat.add_sub_cancel] at h1 h2 ⊢
  exact ⟨by omega, by rw [Nat.pow_succ]; omega⟩

theorem tryP_range {bit n} (hn : 0 < n) : ∀ (k b c : Nat) {r}, tryP bit n k b c = .found r → r < n
  | 0, b, c, r, h => by simp [tryP] at h
  | k + 1, b, c, r, h => by
    simp only [tryP] at h
    split at h
    · simp at h; omega
    · split at h
      · rename_i h1; simp at h; omega
      · exact tryP_range hn k _ _ h

/-- one more shard with the same number of levels -/
theorem tryP_succ {bit n} : ∀ (k b c : Nat), tryP bit (n + 1) k b c = tryP bit n k b c ∨ tryP bit (n + 1) k b c = .found n
  | 0, b, c => Or.inl rfl
  | k + 1, b, c => by
    simp only [tryP]
    split
    · exact Or.inl rfl
    · rename_i b' c' _
      by_cases h1 : (readP bit (b' - 1) (c' + 23) 1).2 < n
      · rw [if_pos h1, if_pos (by omega)]; exact Or.inl rfl
      · rw [if_neg h1]
        by_cases h2 : (readP bit (b' - 1) (c' + 23) 1).2 < n + 1
        · rw [if_pos h2]; right; congr 1; omega
        · rw [if_neg h2]; exact tryP_succ k _ _

/-- if all numbers of `b` bits are in range, the first try decides -/
theorem tryP_full {bit n m b} (hn : 2 ^ b ≤ n) (hm : 2 ^ b ≤ m) (k k' c : Nat) : tryP bit n (k + 1) b c = tryP bit m (k' + 1) b c := by
  simp only [tryP]
  split
  · rfl
  · rename_i b' c' h
    have hb := descendP_le b c h
    have hr := (read_range (bit := bit) (c := c' + 23) hb.1).2
    have : 2 ^ b' ≤ 2 ^ b := Nat.pow_le_pow_right (by omega) hb.2
    rw [if_pos (by omega), if_pos (by omega)]

/-- one more level: n = 2^b shards become n + 1 -/
theorem tryP_level {bit b} (hb : 0 < b) (k0 : Nat) : ∀ (k c : Nat),
    tryP bit (2 ^ b + 1) k (b + 1) c = tryP bit (2 ^ b) (k0 + 1) b b ∨ tryP bit (2 ^ b + 1) k (b + 1) c = .found (2 ^ b) ∨
    tryP bit (2 ^ b + 1) k (b + 1) c = .gaveUp
  | 0, c => Or.inr (Or.inr rfl)
  | k + 1, c => by
    by_cases hc : bit c = true
    · simp only [tryP, descendP, hc, if_true]
      have hr := (read_range (bit := bit) (b := b + 1) (c := c + 23) (by omega)).1
      simp only [Nat.add_sub_cancel] at hr ⊢
      split
      · right; left; congr 1; omega
      · exact tryP_level hb k0 k _
    · left
      have e : tryP bit (2 ^ b + 1) (k + 1) (b + 1) c = tryP bit (2 ^ b + 1) (k + 1) b b := by
        simp only [tryP]
        have : descendP bit (b + 1) c = descendP bit b b := by
          simp only [descendP, hc]
          rw [if_neg (by simp), if_neg (by omega)]
        rw [this]
      rw [e]
      exact tryP_full (by omega) (Nat.le_refl _) _ _ _

theorem bitNumFrom_spec {n : Nat} : ∀ (k b : Nat), n ≤ 2 ^ (b + k) → (b = 0 ∨ 2 ^ (b - 1) < n) →
    n ≤ 2 ^ bitNumFrom n k b ∧ (bitNumFrom n k b = 0 ∨ 2 ^ (bitNumFrom n k b - 1) < n)
  | 0, b, h, hb => ⟨by simpa [bitNumFrom] using h, by simpa [bitNumFrom] using hb⟩
  | k + 1, b, h, hb => by
    simp only [bitNumFrom]
    split
    · rename_i hgt
      exact bitNumFrom_spec k (b + 1) (by rw [show b + 1 + k = b + (k + 1) by omega]; exact h) (Or.inr (by simpa using hgt))
    · rename_i hle
      exact ⟨by omega, hb⟩

theorem good0 {h0 rehash} : Good h0 rehash ⟨0, fun _ => h0⟩ := by
  intro k hk
  simp only at hk
  have : k = 0 := by omega
  subst this; rfl

theorem furcRes_eq {h0 rehash n} : (furcRun h0 rehash n).2 = tryP (bit h0 rehash) n 32 (bitNumFrom n 32 0) (bitNumFrom n 32 0) :=
  tryLoop_spec _ _ _ _ good0

/-! ### the properties -/

/-- C34: the result is below the number of shards (and 0 if there are none), for every hash of the key and every way to make
more bits of it. -/
theorem furc_range (h0 : Nat) (rehash : Nat → Nat) (n : Nat) : furcWith h0 rehash n < n ∨ (n = 0 ∧ furcWith h0 rehash n = 0) := by
  unfold furcWith
  split
  · omega
  · rename_i hn
    left
    split
    · rename_i r hr
      rw [furcRes_eq] at hr
      exact tryP_range (by omega) _ _ _ hr
    · omega

/-- the search gave up after kMaxTries tries -/
def GaveUp (h0 : Nat) (rehash : Nat → Nat) (n : Nat) : Prop := (furcRun h0 rehash n).2 = .gaveUp

/-- C34: with one more shard a key stays or moves to the new shard — unless the number of shards was a power of two and the search
for the new number gives up. -/
theorem furc_consistent (h0 : Nat) (rehash : Nat → Nat) (n : Nat) (hn : n < 2 ^ 32)
    (hg : (∃ b, n = 2 ^ b) → ¬ GaveUp h0 rehash (n + 1)) :
    furcWith h0 rehash (n + 1) = furcWith h0 rehash n ∨ furcWith h0 rehash (n + 1) = n := by
  by_cases h1 : n ≤ 1
  · have r := furc_range h0 rehash (n + 1)
    have e : furcWith h0 rehash n = 0 := by unfold furcWith; rw [if_pos h1]
    rw [e]; omega
  by_cases hmax : n + 1 ≤ 2 ^ 32
  · unfold furcWith
    rw [if_neg (by omega), if_neg h1]
    obtain ⟨a1, a2⟩ := bitNumFrom_spec (n := n) 32 0 (by simpa using Nat.le_of_lt hn) (Or.inl rfl)
    obtain ⟨c1, c2⟩ := bitNumFrom_spec (n := n + 1) 32 0 (by simpa using hmax) (Or.inl rfl)
    unfold GaveUp at hg
    rw [furcRes_eq] at hg
    rw [furcRes_eq, furcRes_eq]
    generalize bitNumFrom n 32 0 = B at a1 a2
    generalize bitNumFrom (n + 1) 32 0 = B' at c1 c2 hg
    have hB : 0 < B := by
      by_contra hc
      have : B = 0 := by omega
      subst this; simp at a1; omega
    have hB' : 0 < B' := by
      by_contra hc
      have : B' = 0 := by omega
      subst this; simp at c1; omega
    have a2 : 2 ^ (B - 1) < n := by rcases a2 with e | e <;> omega
    have c2 : 2 ^ (B' - 1) < n + 1 := by rcases c2 with e | e <;> omega
    have le1 : B ≤ B' := by
      by_contra hc
      have : 2 ^ B' ≤ 2 ^ (B - 1) := Nat.pow_le_pow_right (by omega) (by omega)
      omega
    by_cases e : B' = B
    · subst e
      rcases tryP_succ (bit := bit h0 rehash) (n := n) 32 B' B' with h | h
      · rw [h]; exact Or.inl rfl
      · rw [h]; exact Or.inr rfl
    · have e2 : 2 ^ B ≤ 2 ^ (B' - 1) := Nat.pow_le_pow_right (by omega) (by omega)
      have en : n = 2 ^ B := by omega
      have eB : B' = B + 1 := by
        by_contra hc
        have h1 : 2 ^ (B + 1) ≤ 2 ^ (B' - 1) := Nat.pow_le_pow_right (by omega) (by omega)
        have h2 : 2 ^ (B + 1) = 2 * 2 ^ B := by rw [Nat.pow_succ]; omega
        omega
      subst eB
      have hg := hg ⟨B, en⟩
      subst en
      rcases tryP_level (bit := bit h0 rehash) hB 31 32 (B + 1) with h | h | h
      · rw [h]; exact Or.inl rfl
      · rw [h]; exact Or.inr rfl
      · exact absurd h hg
  · omega

/-- C34 for furcHash -/
theorem furcHash_consistent (key : List Nat) (n : Nat) (hn : n < 2 ^ 32)
    (hg : (∃ b, n = 2 ^ b) → ¬ GaveUp (murmurHash64A key) murmurRehash64A (n + 1)) :
    furcHash key (n + 1) = furcHash key n ∨ furcHash key (n + 1) = n := furc_consistent _ _ n hn hg

/-- C34: … so, if the number of shards only grows, a key that moved is on one of the shards that were added. -/
theorem furc_grow (h0 : Nat) (rehash : Nat → Nat) (n k : Nat) (hn : n + k ≤ 2 ^ 32)
    (hg : ∀ j, n ≤ j → j < n + k → (∃ b, j = 2 ^ b) → ¬ GaveUp h0 rehash (j + 1)) :
    furcWith h0 rehash (n + k) = furcWith h0 rehash n ∨ n ≤ furcWith h0 rehash (n + k) := by
  induction k with
  | zero => exact Or.inl rfl
  | succ k ih =>
    have ih := ih (by omega) (fun j h1 h2 => hg j h1 (by omega))
    rcases furc_consistent h0 rehash (n + k) (by omega) (hg (n + k) (by omega) (by omega)) with h | h
    · rw [show n + (k + 1) = n + k + 1 by omega, h]; exact ih
    · right; rw [show n + (k + 1) = n + k + 1 by omega, h]; omega

/-! ### the cache is large enough

Every use of the cache sets `hashIdx` to the index it uses, if that is larger (FurcHash.cpp:141-145): so the last value of
`hashIdx` bounds all indices that were used. -/

theorem getbit_idx (rehash st c) : (getbit rehash st c).1.hashIdx = max st.hashIdx (c / 64) := by
  unfold getbit
  simp only [Nat.shiftRight_eq_div_pow]
  split <;> (try simp only) <;> omega

theorem descend_idx {rehash} : ∀ (b : Nat) (st : St) (c : Nat), (descend rehash st b c).1.hashIdx ≤ max st.hashIdx ((max b c) / 64) ∧
    ∀ b' c', (descend rehash st b c).2 = some (b', c') → 0 < b' ∧ b' ≤ b ∧ c' ≤ max b c
  | 0, st, c => ⟨by simp only [descend]; omega, by simp [descend]⟩
  | b + 1, st, c => by
    have hi := getbit_idx rehash st c
    simp only [descend]
    split
    · rename_i st' e
      rw [e] at hi
      simp only at hi
      refine ⟨by simp only; omega, fun b' c' h => ?_⟩
      simp at h; omega
    · rename_i st' e
      rw [e] at hi
      simp only at hi
      split
      · exact ⟨by simp only; omega, by simp⟩
      · obtain ⟨h1, h2⟩ := descend_idx (rehash := rehash) b st' b
        refine ⟨by omega, fun b' c' h => ?_⟩
        have := h2 b' c' h
        omega

theorem readBits_idx {rehash} : ∀ (k : Nat) (st : St) (c r : Nat),
    (readBits rehash st k c r).1.hashIdx ≤ max st.hashIdx ((c + 23 * k) / 64) ∧ (readBits rehash st k c r).2.1 = c + 23 * k
  | 0, st, c, r => by simp only [readBits]; omega
  | k + 1, st, c, r => by
    have hi := getbit_idx rehash st c
    simp only [readBits]
    obtain ⟨h1, h2⟩ := readBits_idx (rehash := rehash) k (getbit rehash st c).1 (c + 23) ((r <<< 1) ||| (if (getbit rehash st c).2 then 1 else 0))
    exact ⟨by omega, by omega⟩

theorem tryLoop_idx {rehash n} (B : Nat) : ∀ (k : Nat) (st : St) (b c : Nat), b ≤ B →
    (tryLoop rehash n k st b c).1.hashIdx ≤ max st.hashIdx ((max B c + 23 * B * k) / 64)
  | 0, st, b, c, _ => by simp only [tryLoop]; omega
  | k + 1, st, b, c, hb => by
    have e : 23 * B * (k + 1) = 23 * B * k + 23 * B := by rw [Nat.mul_succ]
    obtain ⟨d1, d2⟩ := descend_idx (rehash := rehash) b st c
    rw [tryLoop, e]
    generalize hX : 23 * B * k = X at *
    split
    · rename_i st' h
      rw [h] at d1
      simp only at d1 ⊢
      omega
    · rename_i st' b' c' h
      rw [h] at d1 d2
      have d2 := d2 b' c' rfl
      simp only at d1
      have hr := readBits_idx (rehash := rehash) (b' - 1) st' (c' + 23) 1
      split
      rename_i st'' c'' r he
      rw [he] at hr
      simp only at hr
      split
      · simp only; omega
      · have := tryLoop_idx (rehash := rehash) (n := n) B k st'' b' c'' (by omega)
        rw [hX] at this
        omega

/-- C34: for at most 2^23 shards no index into the cache of hash values reaches its size, 300. -/
theorem cache_bound (h0 : Nat) (rehash : Nat → Nat) (n : Nat) (hn : n ≤ 2 ^ 23) : (furcRun h0 rehash n).1.hashIdx < 300 := by
  have hb : bitNumFrom n 32 0 ≤ 23 := by
    obtain ⟨_, h⟩ := bitNumFrom_spec (n := n) 32 0 (by
      refine Nat.le_trans hn ?_
      exact Nat.pow_le_pow_right (by omega) (by omega)) (Or.inl rfl)
    by_contra hc
    have : 2 ^ 23 ≤ 2 ^ (bitNumFrom n 32 0 - 1) := Nat.pow_le_pow_right (by omega) (by omega)
    omega
  have := tryLoop_idx (rehash := rehash) (n := n) 23 32 ⟨0, fun _ => h0⟩ _ (bitNumFrom n 32 0) hb
  unfold furcRun
  simp only at this ⊢
  omega

end Verif.FurcHash
