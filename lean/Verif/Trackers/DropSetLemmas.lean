import Verif.Trackers.DropSet
/-! Invariants of the robin-hood table. -/
namespace Verif.Trackers
open Verif

/-- the key is stored in the table -/
def Mem (s : DSet) (k : Nat) : Prop := k ≠ 0 ∧ ∃ i, s.table i = k

/-- every key lies within the probe limit of its bucket -/
structure Safe (P : Nat) (s : DSet) : Prop where
  cap : 0 < s.cap
  pos : ∀ i, s.table i ≠ 0 → s.table i < W ∧ bucket s.cap (s.table i) ≤ i ∧ i < bucket s.cap (s.table i) + P

/-- number of used entries below n -/
def cnt (t : Nat → Nat) : Nat → Nat
  | 0 => 0
  | n + 1 => cnt t n + (if t n = 0 then 0 else 1)

/-- the robin-hood invariant: keys are ordered by bucket within a cluster; no duplicates; the size is right -/
structure RH (P : Nat) (s : DSet) : Prop extends Safe P s where
  order : ∀ i, s.table (i + 1) ≠ 0 → bucket s.cap (s.table (i + 1)) < i + 1 → s.table i ≠ 0 ∧ bucket s.cap (s.table i) ≤ bucket s.cap (s.table (i + 1))
  inj : ∀ i j, s.table i = s.table j → s.table i ≠ 0 → i = j
  size : s.size = cnt s.table (s.cap + P)

theorem bucket_lt {cap key : Nat} (hc : 0 < cap) (hk : key < W) : bucket cap key < cap := by
  unfold bucket
  apply Nat.div_lt_of_lt_mul
  exact Nat.mul_lt_mul_of_pos_right hk hc

theorem bucket_zero (cap : Nat) : bucket cap 0 = 0 := by unfold bucket; rw [Nat.zero_mul]; exact Nat.zero_div _

theorem cnt_upd (t : Nat → Nat) (i v : Nat) (hv : v ≠ 0) : ∀ n, cnt (upd t i v) n = cnt t n + (if i < n ∧ t i = 0 then 1 else 0)
  | 0 => by simp [cnt]
  | n + 1 => by
    simp only [cnt]
    rw [cnt_upd t i v hv n]
    by_cases h : n = i
    · subst h
      simp only [upd_same, hv, if_false]
      split <;> split <;> grind
    · rw [upd_ne _ _ h]
      grind

theorem cnt_upd_le (t : Nat → Nat) (i v : Nat) : ∀ n, cnt (upd t i v) n ≤ cnt t n + (if t i = 0 then 1 else 0)
  | 0 => by simp [cnt]
  | n + 1 => by
    by_cases h : n = i
    · subst h
      have : cnt (upd t n v) n = cnt t n := by
        have : ∀ m, m ≤ n → cnt (upd t n v) m = cnt t m := by
          intro m
          induction m with
          | zero => intro _; rfl
          | succ m ih => intro hm; simp only [cnt]; rw [ih (by omega), upd_ne _ _ (by omega)]
        exact this n (Nat.le_refl n)
      simp only [cnt, this, upd_same]
      split <;> split <;> omega
    · simp only [cnt]
      rw [upd_ne _ _ h]
      have := cnt_upd_le t i v n
      omega

theorem cnt_le (t : Nat → Nat) : ∀ n, cnt t n ≤ n
  | 0 => Nat.le_refl 0
  | n + 1 => by simp only [cnt]; have := cnt_le t n; split <;> omega

theorem cnt_zero (n : Nat) : cnt (fun _ => 0) n = 0 := by
  induction n with
  | zero => rfl
  | succ n ih => simp [cnt, ih]

theorem new_rh (P cap now : Nat) (h : 0 < cap) : RH P (DSet.new cap now) where
  cap := h
  pos := by intro i hi; exact absurd rfl hi
  order := by intro i hi; exact absurd rfl hi
  inj := by intro i j _ hi; exact absurd rfl hi
  size := by simp only [DSet.new]; rw [cnt_zero]

theorem new_mem (cap now k : Nat) : ¬ Mem (DSet.new cap now) k := by rintro ⟨h, i, hi⟩; exact h hi.symm

theorem reset_rh {P : Nat} {s : DSet} (h : 0 < s.cap) (now : Nat) : RH P (s.reset now) where
  cap := h
  pos := by intro i hi; exact absurd rfl hi
  order := by intro i hi; exact absurd rfl hi
  inj := by intro i j _ hi; exact absurd rfl hi
  size := by simp only [DSet.reset]; rw [cnt_zero]

theorem reset_mem (s : DSet) (now k : Nat) : ¬ Mem (s.reset now) k := by rintro ⟨h, i, hi⟩; exact h hi.symm

theorem probeDistance_eq {P : Nat} {s : DSet} (h : Safe P s) {i : Nat} (hi : s.table i ≠ 0) :
    probeDistance s i = some (i - bucket s.cap (s.table i)) := by
  unfold probeDistance; rw [if_pos (h.pos i hi).2.1]

/-- insertion is safe for every key, and adds no other key -/
theorem insLoop_safe {P : Nat} : ∀ (fuel i key : Nat) (s : DSet), Safe P s → key < W → bucket s.cap key ≤ i → s.cap + P + 1 ≤ fuel + i →
    i ≤ bucket s.cap key + P →
    ∃ s', insLoop P fuel (i - bucket s.cap key) i key s = some s' ∧ Safe P s' ∧ s'.cap = s.cap ∧ s'.created = s.created ∧
      (∀ x, Mem s' x → Mem s x ∨ x = key) ∧ s.size ≤ s'.size ∧ s'.size ≤ s.size + 1 ∧
      cnt s'.table (s.cap + P) + s.size ≤ cnt s.table (s.cap + P) + s'.size
  | 0, i, key, s, hs, hk, hb, hf, hP => by
    have := bucket_lt hs.cap hk
    omega
  | fuel + 1, i, key, s, hs, hk, hb, hf, hP => by
    have hbl := bucket_lt hs.cap hk
    unfold insLoop
    split
    · rename_i hd
      rw [if_neg (by omega)]
      have memS : ∀ (sz : Nat) x, Mem { s with table := upd s.table i key, size := sz } x → Mem s x ∨ x = key := by
        rintro sz x ⟨h1, j, hj⟩
        by_cases hji : j = i
        · subst hji; right; simpa using hj.symm
        · left; refine ⟨h1, j, ?_⟩; simpa [upd_ne _ _ hji] using hj
      have safe : ∀ sz : Nat, Safe P { s with table := upd s.table i key, size := sz } := by
        intro sz
        refine ⟨hs.cap, ?_⟩
        intro j hj
        by_cases hji : j = i
        · subst hji; simp only [upd_same]; exact ⟨hk, hb, by omega⟩
        · simp only [upd_ne _ _ hji] at hj ⊢; exact hs.pos j hj
      split
      · rename_i he
        refine ⟨_, rfl, safe _, rfl, rfl, memS _, by simp, Nat.le_refl _, ?_⟩
        have := cnt_upd_le s.table i key (s.cap + P)
        rw [if_pos he] at this
        dsimp only
        omega
      · rename_i hne
        rw [probeDistance_eq hs hne]
        have hp := hs.pos i hne
        dsimp only
        split
        · rename_i hc
          have e : i - bucket s.cap (s.table i) + 1 = (i + 1) - bucket s.cap (s.table i) := by omega
          rw [e]
          obtain ⟨s', h1, h2, h3, h4, h5, h6, h7, h8⟩ := insLoop_safe fuel (i + 1) (s.table i) { s with table := upd s.table i key } (safe s.size) hp.1
            (by show bucket s.cap (s.table i) ≤ i + 1; omega) (by show s.cap + P + 1 ≤ fuel + (i + 1); omega)
            (by show i + 1 ≤ bucket s.cap (s.table i) + P; omega)
          refine ⟨s', h1, h2, h3, h4, ?_, h6, h7, ?_⟩
          rotate_left
          · have := cnt_upd_le s.table i key (s.cap + P)
            rw [if_neg hne] at this
            dsimp only at h8
            omega
          intro x hx
          rcases h5 x hx with h | rfl
          · exact memS s.size x h
          · exact .inl ⟨hne, i, rfl⟩
        · rename_i hc
          have e : i - bucket s.cap key + 1 = (i + 1) - bucket s.cap key := by omega
          rw [e]
          exact insLoop_safe fuel (i + 1) key s hs hk (by omega) (by omega) (by omega)
    · exact ⟨s, rfl, hs, rfl, rfl, fun x hx => .inl hx, Nat.le_refl _, by omega, Nat.le_refl _⟩

theorem insertNoResize_safe {P : Nat} {s : DSet} (hs : Safe P s) {key : Nat} (hk : key < W) :
    ∃ s', insertNoResize P s key = some s' ∧ Safe P s' ∧ s'.cap = s.cap ∧ s'.created = s.created ∧
      (∀ x, Mem s' x → Mem s x ∨ x = key) ∧ s.size ≤ s'.size ∧ s'.size ≤ s.size + 1 ∧
      cnt s'.table (s.cap + P) + s.size ≤ cnt s.table (s.cap + P) + s'.size := by
  have := insLoop_safe (P := P) (s.cap + P + 1) (bucket s.cap key) key s hs hk (Nat.le_refl _) (by omega) (by omega)
  rw [Nat.sub_self] at this
  exact this

/-- the result of one insertion: the key is added, and at most one key (then the size does not change) is dropped -/
def Added (s s' : DSet) (key : Nat) : Prop :=
  (s'.size = s.size + 1 ∧ ∀ x, Mem s' x ↔ Mem s x ∨ x = key) ∨
  (s'.size = s.size ∧ ∃ d, ¬ Mem s' d ∧ (Mem s d ∨ d = key) ∧ ∀ x, x ≠ d → (Mem s' x ↔ Mem s x ∨ x = key))

theorem insLoop_rh {P : Nat} : ∀ (fuel i key : Nat) (s : DSet), RH P s → key ≠ 0 → key < W → ¬ Mem s key → bucket s.cap key ≤ i →
    s.cap + P + 1 ≤ fuel + i → i ≤ bucket s.cap key + P →
    (bucket s.cap key < i → s.table (i - 1) ≠ 0 ∧ bucket s.cap (s.table (i - 1)) ≤ bucket s.cap key) →
    ∃ s', insLoop P fuel (i - bucket s.cap key) i key s = some s' ∧ RH P s' ∧ s'.cap = s.cap ∧ s'.created = s.created ∧ Added s s' key
  | 0, i, key, s, hs, _, hk, _, hb, hf, hP, _ => by
    have := bucket_lt hs.cap hk
    omega
  | fuel + 1, i, key, s, hs, h0, hk, hm, hb, hf, hP, hprev => by
    have hbl := bucket_lt hs.cap hk
    unfold insLoop
    split
    · rename_i hd
      rw [if_neg (by omega)]
      -- the table with the key written at i, if that position is empty or holds a key of a later bucket
      have rh : (s.table i = 0 ∨ bucket s.cap key ≤ bucket s.cap (s.table i)) →
          RH P { s with table := upd s.table i key, size := s.size + (if s.table i = 0 then 1 else 0) } := by
        intro hc
        refine ⟨⟨hs.cap, ?_⟩, ?_, ?_, ?_⟩
        · intro j hj
          by_cases hji : j = i
          · subst hji; simp only [upd_same]; exact ⟨hk, hb, by omega⟩
          · simp only [upd_ne _ _ hji] at hj ⊢; exact hs.pos j hj
        · intro j hj hjb
          dsimp only at hj hjb ⊢
          by_cases h1 : j + 1 = i
          · subst h1
            rw [upd_same] at hj hjb ⊢
            rw [upd_ne _ _ (by omega : j ≠ j + 1)]
            have := hprev hjb
            rw [Nat.add_sub_cancel] at this
            exact this
          · rw [upd_ne _ _ h1] at hj hjb ⊢
            by_cases h2 : j = i
            · subst h2
              rw [upd_same]
              refine ⟨h0, ?_⟩
              have := hs.order j hj hjb
              rcases hc with hc | hc
              · exact absurd hc this.1
              · omega
            · rw [upd_ne _ _ h2]
              exact hs.order j hj hjb
        · intro a b hab ha
          dsimp only at hab ha
          by_cases h1 : a = i
          · by_cases h2 : b = i
            · rw [h1, h2]
            · subst h1
              rw [upd_same, upd_ne _ _ h2] at hab
              exact absurd ⟨h0, b, hab.symm⟩ hm
          · by_cases h2 : b = i
            · subst h2
              rw [upd_same, upd_ne _ _ h1] at hab
              exact absurd ⟨h0, a, hab⟩ hm
            · rw [upd_ne _ _ h1, upd_ne _ _ h2] at hab
              rw [upd_ne _ _ h1] at ha
              exact hs.inj a b hab ha
        · dsimp only
          rw [cnt_upd _ _ _ h0, ← hs.size]
          split <;> split <;> grind
      split
      · rename_i he
        have := rh (.inl he)
        rw [if_pos he] at this
        refine ⟨_, rfl, this, rfl, rfl, .inl ⟨rfl, ?_⟩⟩
        intro x
        constructor
        · rintro ⟨h1, j, hj⟩
          by_cases hji : j = i
          · subst hji; right; simpa using hj.symm
          · left; refine ⟨h1, j, ?_⟩; simpa [upd_ne _ _ hji] using hj
        · rintro (⟨h1, j, hj⟩ | rfl)
          · have hji : j ≠ i := by rintro rfl; rw [he] at hj; exact h1 hj.symm
            exact ⟨h1, j, by simpa [upd_ne _ _ hji] using hj⟩
          · exact ⟨h0, i, by simp⟩
      · rename_i hne
        rw [probeDistance_eq hs.toSafe hne]
        have hp := hs.pos i hne
        dsimp only
        split
        · rename_i hc
          have hle : bucket s.cap key ≤ bucket s.cap (s.table i) := by omega
          have rh' := rh (.inr hle)
          rw [if_neg hne, Nat.add_zero] at rh'
          have e : i - bucket s.cap (s.table i) + 1 = (i + 1) - bucket s.cap (s.table i) := by omega
          rw [e]
          have hnm : ¬ Mem { s with table := upd s.table i key } (s.table i) := by
            rintro ⟨-, j, hj⟩
            dsimp only at hj
            by_cases hji : j = i
            · subst hji; rw [upd_same] at hj; exact hm ⟨h0, j, hj.symm⟩
            · rw [upd_ne _ _ hji] at hj; exact hji (hs.inj j i hj (by rw [hj]; exact hne))
          have mm : ∀ x, (Mem { s with table := upd s.table i key } x ∨ x = s.table i) ↔ (Mem s x ∨ x = key) := by
            intro x
            constructor
            · rintro (⟨h1, j, hj⟩ | rfl)
              · by_cases hji : j = i
                · subst hji; right; simpa using hj.symm
                · left; refine ⟨h1, j, ?_⟩; simpa [upd_ne _ _ hji] using hj
              · exact .inl ⟨hne, i, rfl⟩
            · rintro (⟨h1, j, hj⟩ | rfl)
              · by_cases hji : j = i
                · subst hji; exact .inr hj.symm
                · exact .inl ⟨h1, j, by simpa [upd_ne _ _ hji] using hj⟩
              · exact .inl ⟨h0, i, by simp⟩
          obtain ⟨s', h1, h2, h3, h4, h5⟩ := insLoop_rh fuel (i + 1) (s.table i) { s with table := upd s.table i key } rh' hne hp.1 hnm
            (by show bucket s.cap (s.table i) ≤ i + 1; omega) (by show s.cap + P + 1 ≤ fuel + (i + 1); omega)
            (by show i + 1 ≤ bucket s.cap (s.table i) + P; omega) (by
              intro _
              simp only [Nat.add_sub_cancel, upd_same]
              exact ⟨h0, hle⟩)
          refine ⟨s', h1, h2, h3, h4, ?_⟩
          rcases h5 with ⟨a, b⟩ | ⟨a, d, b, c, f⟩
          · exact .inl ⟨a, fun x => (b x).trans (mm x)⟩
          · exact .inr ⟨a, d, b, (mm d).mp c, fun x hx => (f x hx).trans (mm x)⟩
        · rename_i hc
          have e : i - bucket s.cap key + 1 = (i + 1) - bucket s.cap key := by omega
          rw [e]
          exact insLoop_rh fuel (i + 1) key s hs h0 hk hm (by omega) (by omega) (by omega) (by
            intro _
            rw [Nat.add_sub_cancel]
            exact ⟨hne, by omega⟩)
    · exact ⟨s, rfl, hs, rfl, rfl, .inr ⟨rfl, key, hm, .inr rfl, fun x hx => by simp [hx]⟩⟩

theorem insertNoResize_rh {P : Nat} {s : DSet} (hs : RH P s) {key : Nat} (h0 : key ≠ 0) (hk : key < W) (hm : ¬ Mem s key) :
    ∃ s', insertNoResize P s key = some s' ∧ RH P s' ∧ s'.cap = s.cap ∧ s'.created = s.created ∧ Added s s' key := by
  have := insLoop_rh (P := P) (s.cap + P + 1) (bucket s.cap key) key s hs h0 hk hm (Nat.le_refl _) (by omega) (by omega) (by omega)
  rw [Nat.sub_self] at this
  exact this

/-- a key further on in a cluster: the entries before it have buckets no later than its own -/
theorem cluster {P : Nat} {s : DSet} (hs : RH P s) {p : Nat} (hp : s.table p ≠ 0) : ∀ n, bucket s.cap (s.table p) ≤ p - n → n ≤ p →
    s.table (p - n) ≠ 0 ∧ bucket s.cap (s.table (p - n)) ≤ bucket s.cap (s.table p)
  | 0, _, _ => ⟨hp, Nat.le_refl _⟩
  | n + 1, h, hn => by
    have ih := cluster hs hp n (by omega) (by omega)
    have e : p - n = (p - (n + 1)) + 1 := by omega
    rw [e] at ih
    have := hs.order (p - (n + 1)) ih.1 (by omega)
    exact ⟨this.1, by omega⟩

theorem lookLoop_safe {P : Nat} {s : DSet} (hs : Safe P s) {key : Nat} (hk : key < W) : ∀ (n i : Nat), bucket s.cap key ≤ i →
    i + n = bucket s.cap key + P → ∃ b, lookLoop P s key n (i - bucket s.cap key) i = some b ∧ (b = true → key = 0 ∨ Mem s key)
  | 0, i, _, _ => ⟨false, rfl, by simp⟩
  | n + 1, i, hb, he => by
    have hbl := bucket_lt hs.cap hk
    unfold lookLoop
    rw [if_neg (by omega)]
    split
    · rename_i ht
      refine ⟨true, rfl, fun _ => ?_⟩
      by_cases h0 : key = 0
      · exact .inl h0
      · exact .inr ⟨h0, i, ht⟩
    · split
      · exact ⟨false, rfl, by simp⟩
      · rename_i hne
        rw [probeDistance_eq hs hne]
        dsimp only
        split
        · exact ⟨false, rfl, by simp⟩
        · have e : i - bucket s.cap key + 1 = (i + 1) - bucket s.cap key := by omega
          rw [e]
          exact lookLoop_safe hs hk n (i + 1) (by omega) (by omega)

theorem lookup_safe {P : Nat} {s : DSet} (hs : Safe P s) {key : Nat} (hk : key < W) :
    ∃ b, s.lookup P key = some b ∧ (b = true → key = 0 ∨ Mem s key) := by
  have := lookLoop_safe hs hk P (bucket s.cap key) (Nat.le_refl _) rfl
  rw [Nat.sub_self] at this
  exact this

theorem lookLoop_find {P : Nat} {s : DSet} (hs : RH P s) {key p : Nat} (h0 : key ≠ 0) (hk : key < W) (hp : s.table p = key) :
    ∀ (n i : Nat), bucket s.cap key ≤ i → i ≤ p → i + n = bucket s.cap key + P → lookLoop P s key n (i - bucket s.cap key) i = some true
  | 0, i, hb, hi, he => by
    have := hs.pos p (by rw [hp]; exact h0)
    rw [hp] at this
    omega
  | n + 1, i, hb, hi, he => by
    have hbl := bucket_lt hs.cap hk
    have hc := cluster hs (p := p) (by rw [hp]; exact h0) (p - i) (by rw [hp]; omega) (by omega)
    rw [show p - (p - i) = i by omega, hp] at hc
    unfold lookLoop
    rw [if_neg (by omega)]
    split
    · rfl
    · rename_i hne
      rw [if_neg hc.1, probeDistance_eq hs.toSafe hc.1]
      dsimp only
      rw [if_neg (by omega)]
      have : i ≠ p := by rintro rfl; exact hne hp
      have e : i - bucket s.cap key + 1 = (i + 1) - bucket s.cap key := by omega
      rw [e]
      exact lookLoop_find hs h0 hk hp n (i + 1) (by omega) (by omega) (by omega)

/-- lookup is exact for nonzero keys -/
theorem lookup_iff {P : Nat} {s : DSet} (hs : RH P s) {key : Nat} (h0 : key ≠ 0) (hk : key < W) : s.lookup P key = some true ↔ Mem s key := by
  constructor
  · intro h
    obtain ⟨b, h1, h2⟩ := lookup_safe hs.toSafe hk
    rw [h1] at h
    simp only [Option.some.injEq] at h
    rcases h2 h with h | h
    · exact absurd h h0
    · exact h
  · rintro ⟨-, p, hp⟩
    have hpos := hs.pos p (by rw [hp]; exact h0)
    rw [hp] at hpos
    have := lookLoop_find hs h0 hk hp P (bucket s.cap key) (Nat.le_refl _) hpos.2.1 rfl
    rw [Nat.sub_self] at this
    exact this

/-! ### rehash -/

theorem rehashCapacity_pos (cap : Nat) : 0 < rehashCapacity cap := by unfold rehashCapacity; omega

theorem copyLoop_safe {P : Nat} {t : Nat → Nat} (ht : ∀ i, t i ≠ 0 → t i < W) : ∀ (l : List Nat) (dst : DSet), Safe P dst →
    ∃ d, copyLoop P t l dst = some d ∧ Safe P d ∧ d.cap = dst.cap ∧ d.created = dst.created ∧ (∀ x, Mem d x → Mem dst x ∨ ∃ i ∈ l, t i = x) ∧
      d.size ≤ dst.size + (l.countP fun i => decide (t i ≠ 0)) ∧
      cnt d.table (dst.cap + P) + dst.size ≤ cnt dst.table (dst.cap + P) + d.size
  | [], dst, hd => ⟨dst, rfl, hd, rfl, rfl, fun x hx => .inl hx, by simp, Nat.le_refl _⟩
  | i :: l, dst, hd => by
    unfold copyLoop
    split
    · rename_i hne
      obtain ⟨s', h1, h2, h3, h4, h5, h6, h7, h8⟩ := insertNoResize_safe hd (ht i hne)
      rw [h1]
      dsimp only
      obtain ⟨d, g1, g2, g3, g4, g5, g6, g7⟩ := copyLoop_safe ht l s' h2
      refine ⟨d, g1, g2, g3.trans h3, g4.trans h4, ?_, ?_, by rw [h3] at g7; omega⟩
      · intro x hx
        rcases g5 x hx with h | ⟨j, hj, rfl⟩
        · rcases h5 x h with h | rfl
          · exact .inl h
          · exact .inr ⟨i, by simp, rfl⟩
        · exact .inr ⟨j, by simp [hj], rfl⟩
      · rw [List.countP_cons, if_pos (by simpa using hne)]; omega
    · rename_i hne
      obtain ⟨d, g1, g2, g3, g4, g5, g6, g7⟩ := copyLoop_safe ht l dst hd
      refine ⟨d, g1, g2, g3, g4, ?_, ?_, g7⟩
      · intro x hx
        rcases g5 x hx with h | ⟨j, hj, rfl⟩
        · exact .inl h
        · exact .inr ⟨j, by simp [hj], rfl⟩
      · rw [List.countP_cons]; omega

theorem copyLoop_rh {P : Nat} {t : Nat → Nat} (ht : ∀ i, t i ≠ 0 → t i < W) (hinj : ∀ i j, t i = t j → t i ≠ 0 → i = j) :
    ∀ (l : List Nat) (dst : DSet), l.Nodup → RH P dst → (∀ i ∈ l, ¬ Mem dst (t i)) → ∃ d, copyLoop P t l dst = some d ∧ RH P d
  | [], dst, _, hd, _ => ⟨dst, rfl, hd⟩
  | i :: l, dst, hn, hd, hm => by
    have hn' := List.nodup_cons.mp hn
    unfold copyLoop
    split
    · rename_i hne
      obtain ⟨s', h1, h2, h3, h4, h5⟩ := insertNoResize_rh hd hne (ht i hne) (hm i (by simp))
      rw [h1]
      dsimp only
      refine copyLoop_rh ht hinj l s' hn'.2 h2 ?_
      intro j hj hmem
      have : Mem dst (t j) ∨ t j = t i := by
        rcases h5 with ⟨-, b⟩ | ⟨-, d, b, c, f⟩
        · exact (b _).mp hmem
        · by_cases hd : t j = d
          · rw [hd] at hmem; exact absurd hmem b
          · exact (f _ hd).mp hmem
      rcases this with h | h
      · exact hm j (by simp [hj]) h
      · have := hinj j i h (by rw [h]; exact hne)
        rw [this] at hj
        exact hn'.1 hj
    · exact copyLoop_rh ht hinj l dst hn'.2 hd (fun j hj => hm j (by simp [hj]))

theorem cnt_eq_countP (t : Nat → Nat) (n : Nat) : cnt t n = (List.range n).countP fun i => decide (t i ≠ 0) := by
  induction n with
  | zero => rfl
  | succ n ih =>
    rw [List.range_succ, List.countP_append, ← ih]
    simp only [cnt, List.countP_cons, List.countP_nil]
    split <;> simp_all

/-- DropSet::insert never fails, keeps the invariant of safety, adds no other key -/
theorem insert_safe {P : Nat} {s : DSet} (hs : Safe P s) (hsz : cnt s.table (s.cap + P) ≤ s.size) {key : Nat} (hk : key < W) (now : Nat) :
    ∃ s', s.insert P now key = some s' ∧ Safe P s' ∧ cnt s'.table (s'.cap + P) ≤ s'.size ∧ s'.size ≤ s.size + 1 ∧
      (∀ x, Mem s' x → Mem s x ∨ x = key) := by
  unfold DSet.insert
  split
  · obtain ⟨d, h1, h2, h3, h4, h5, h6, h8⟩ := copyLoop_safe (t := s.table) (fun i hi => (hs.pos i hi).1) (List.range s.cap)
      (DSet.new (rehashCapacity s.cap) now) (new_rh P _ now (rehashCapacity_pos _)).toSafe
    rw [h1]
    dsimp only
    obtain ⟨s', g1, g2, g3, g4, g5, g6, g7, g8⟩ := insertNoResize_safe h2 hk
    have h7 : (List.range s.cap).countP (fun i => decide (s.table i ≠ 0)) ≤ s.size := by
      rw [cnt_eq_countP, List.range_add, List.countP_append] at hsz
      omega
    have h9 : (DSet.new (rehashCapacity s.cap) now).size = 0 := rfl
    have h10 : cnt (DSet.new (rehashCapacity s.cap) now).table ((DSet.new (rehashCapacity s.cap) now).cap + P) = 0 := cnt_zero _
    rw [← h3] at h8 h10
    refine ⟨s', g1, g2, by rw [g3]; omega, by omega, ?_⟩
    intro x hx
    rcases g5 x hx with h | rfl
    · rcases h5 x h with h | ⟨i, -, rfl⟩
      · exact absurd h (new_mem _ _ _)
      · exact .inl ⟨h.1, i, rfl⟩
    · exact .inr rfl
  · obtain ⟨s', g1, g2, g3, g4, g5, g6, g7, g8⟩ := insertNoResize_safe hs hk
    exact ⟨s', g1, g2, by rw [g3]; omega, by omega, g5⟩

/-- with nonzero new keys the robin-hood invariant is kept -/
theorem insert_rh {P : Nat} {s : DSet} (hs : RH P s) {key : Nat} (h0 : key ≠ 0) (hk : key < W) (hm : ¬ Mem s key) (now : Nat) :
    ∃ s', s.insert P now key = some s' ∧ RH P s' ∧ s'.size ≤ s.size + 1 ∧
      (s.size < rehashSize s.cap → Added s s' key ∧ s'.created = s.created) := by
  unfold DSet.insert
  split
  · rename_i hr
    obtain ⟨d, h1, h2⟩ := copyLoop_rh (P := P) (t := s.table) (fun i hi => (hs.pos i hi).1) hs.inj (List.range s.cap)
      (DSet.new (rehashCapacity s.cap) now) List.nodup_range (new_rh P _ now (rehashCapacity_pos _)) (fun i _ => new_mem _ _ _)
    obtain ⟨d', h1', h2', h3, h4, h5, h6, -⟩ := copyLoop_safe (t := s.table) (fun i hi => (hs.pos i hi).1) (List.range s.cap)
      (DSet.new (rehashCapacity s.cap) now) (new_rh P _ now (rehashCapacity_pos _)).toSafe
    rw [h1] at h1'
    simp only [Option.some.injEq] at h1'
    subst h1'
    rw [h1]
    dsimp only
    have hnm : ¬ Mem d key := by
      intro h
      rcases h5 key h with h | ⟨i, -, hi⟩
      · exact new_mem _ _ _ h
      · exact hm ⟨h0, i, hi⟩
    obtain ⟨s', g1, g2, g3, g4, g5⟩ := insertNoResize_rh h2 h0 hk hnm
    refine ⟨s', g1, g2, ?_, fun h => by omega⟩
    have hle : d.size ≤ s.size := by
      have h7 : (List.range s.cap).countP (fun i => decide (s.table i ≠ 0)) ≤ s.size := by
        rw [hs.size, cnt_eq_countP, List.range_add, List.countP_append]
        omega
      have : (DSet.new (rehashCapacity s.cap) now).size = 0 := rfl
      omega
    rcases g5 with ⟨a, -⟩ | ⟨a, -⟩ <;> omega
  · obtain ⟨s', g1, g2, g3, g4, g5⟩ := insertNoResize_rh hs h0 hk hm
    refine ⟨s', g1, g2, ?_, fun _ => ⟨g5, g4⟩⟩
    rcases g5 with ⟨a, -⟩ | ⟨a, -⟩ <;> omega

end Verif.Trackers
