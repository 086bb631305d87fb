import Verif.NvmIndex.Fixed
import Mathlib.Data.Nat.Bitwise
import Mathlib.Data.List.Nodup
/-
Geometry, fill information and the invariant of the fixed size index (C25).
-/
namespace Verif.NvmIndex.Fixed
open Verif

/-! ### Geometry -/

/-- Configurations for which the index works: at least 98 buckets per mutex, which divide the number of buckets. -/
structure Cfg.Good (c : Cfg) : Prop where
  big : 98 ≤ c.n
  dvd : c.n ∣ c.total
  pos : 0 < c.total
  small : c.total ≤ 2 ^ 63

theorem off_lt (i : Nat) : off i < 98 := by unfold off; split <;> decide

theorem off_inj {i j : Nat} (hi : i < 4) (hj : j < 4) (h : off i = off j) : i = j := by
  have : ∀ i < 4, ∀ j < 4, off i = off j → i = j := by decide
  exact this i hi j hj h

theorem decomp {n : Nat} (hn : 0 < n) (b : Nat) : ∃ q r, b = q * n + r ∧ r < n ∧ b / n = q ∧ b % n = r :=
  ⟨b / n, b % n, (Nat.div_add_mod' b n).symm, Nat.mod_lt _ hn, rfl, rfl⟩

theorem slot_val {n q r o : Nat} (hn : 98 ≤ n) (hr : r < n) (ho : o < 98) :
    (q * n + r) / n * n + (q * n + r + o) % n = q * n + (if r + o < n then r + o else r + o - n) := by
  have e1 : (q * n + r) / n = q := by
    rw [Nat.mul_comm q n, Nat.mul_add_div (by omega), Nat.div_eq_of_lt hr, Nat.add_zero]
  rw [e1, Nat.add_assoc, Nat.add_comm (q * n) (r + o), Nat.add_mul_mod_self_right]
  congr 1
  split
  · exact Nat.mod_eq_of_lt (by assumption)
  · rw [Nat.mod_eq_sub_mod (by omega), Nat.mod_eq_of_lt (by omega)]

theorem div_val {n q r : Nat} (hr : r < n) : (q * n + r) / n = q := by
  rw [Nat.mul_comm q n, Nat.mul_add_div (by omega), Nat.div_eq_of_lt hr, Nat.add_zero]

theorem mod_val {n q r : Nat} (hr : r < n) : (q * n + r) % n = r := by
  rw [Nat.mul_comm q n, Nat.mul_add_mod, Nat.mod_eq_of_lt hr]

/-- A slot is in the shard of its bucket. -/
theorem slot_shard {c : Cfg} (hc : 98 ≤ c.n) (b i : Nat) : c.shard (c.slot b i) = c.shard b := by
  obtain ⟨q, r, rfl, hr, _, _⟩ := decomp (n := c.n) (by omega) b
  have ho := off_lt i
  unfold Cfg.shard Cfg.slot
  rw [slot_val hc hr ho, div_val hr]
  split
  · exact div_val (by assumption)
  · exact div_val (by omega)

theorem org_slot {c : Cfg} (hc : c.Good) {b : Nat} (hb : b < c.total) (i : Nat) : c.org (c.slot b i) i = b := by
  have hn := hc.big
  have hs := hc.small
  have hnt : c.n ≤ c.total := Nat.le_of_dvd hc.pos hc.dvd
  obtain ⟨q, r, rfl, hr, _, _⟩ := decomp (n := c.n) (by omega) b
  have ho := off_lt i
  unfold Cfg.org Cfg.slot
  rw [slot_val hn hr ho]
  generalize hqn : q * c.n = x at *
  by_cases h1 : r + off i < c.n
  · rw [if_pos h1, ← hqn, mod_val h1, hqn, if_pos (by omega)]; omega
  · rw [if_neg h1, ← hqn, mod_val (by omega), hqn, if_neg (by omega)]
    rw [show x + (r + off i - c.n) + c.n + 2 ^ 64 - off i = (x + r) + 2 ^ 64 by omega, Nat.add_mod_right, Nat.mod_eq_of_lt (by omega)]

theorem lt_of_shard {c : Cfg} (hc : c.Good) {a b : Nat} (hb : b < c.total) (h : c.shard a = c.shard b) : a < c.total := by
  obtain ⟨m, hm⟩ := hc.dvd
  have hn := hc.big
  unfold Cfg.shard at h
  rw [hm] at hb ⊢
  have : b / c.n < m := Nat.div_lt_of_lt_mul hb
  rw [← h] at this
  exact (Nat.div_lt_iff_lt_mul (by omega)).1 this |>.trans_eq (Nat.mul_comm _ _)

theorem slot_lt {c : Cfg} (hc : c.Good) {b : Nat} (hb : b < c.total) (i : Nat) : c.slot b i < c.total :=
  lt_of_shard hc hb (slot_shard hc.big b i)

theorem org_eq {c : Cfg} (hc : c.Good) {q : Nat} (hq : q < c.total) (f : Nat) :
    c.org q f = if q % c.n ≥ off f then q - off f else q + c.n - off f := by
  have hn := hc.big
  have hs := hc.small
  have hnt : c.n ≤ c.total := Nat.le_of_dvd hc.pos hc.dvd
  have ho := off_lt f
  unfold Cfg.org
  split
  · rfl
  · rw [show q + c.n + 2 ^ 64 - off f = (q + c.n - off f) + 2 ^ 64 by omega, Nat.add_mod_right, Nat.mod_eq_of_lt (by omega)]

theorem slot_org {c : Cfg} (hc : c.Good) {q : Nat} (hq : q < c.total) (f : Nat) : c.slot (c.org q f) f = q := by
  rw [org_eq hc hq]
  have hn := hc.big
  have ho := off_lt f
  obtain ⟨x, r, rfl, hr, _, hm⟩ := decomp (n := c.n) (by omega) q
  rw [hm]
  unfold Cfg.slot
  by_cases h1 : r ≥ off f
  · rw [if_pos h1, show x * c.n + r - off f = x * c.n + (r - off f) by omega, slot_val hn (by omega) ho, if_pos (by omega)]; omega
  · rw [if_neg h1, show x * c.n + r + c.n - off f = x * c.n + (r + c.n - off f) by omega, slot_val hn (by omega) ho, if_neg (by omega)]
    omega

theorem org_lt {c : Cfg} (hc : c.Good) {q : Nat} (hq : q < c.total) (f : Nat) : c.org q f < c.total :=
  lt_of_shard hc hq (by rw [← slot_shard hc.big (c.org q f) f, slot_org hc hq])

theorem org_shard {c : Cfg} (hc : c.Good) {q : Nat} (hq : q < c.total) (f : Nat) : c.shard (c.org q f) = c.shard q := by
  rw [← slot_shard hc.big (c.org q f) f, slot_org hc hq]

/-- The four slots of a bucket are different buckets. -/
theorem slot_inj {c : Cfg} (hc : 98 ≤ c.n) {b i j : Nat} (hi : i < 4) (hj : j < 4) (h : c.slot b i = c.slot b j) : i = j := by
  obtain ⟨q, r, rfl, hr, _, _⟩ := decomp (n := c.n) (by omega) b
  have h1 := off_lt i
  have h2 := off_lt j
  unfold Cfg.slot at h
  rw [slot_val hc hr h1, slot_val hc hr h2] at h
  apply off_inj hi hj
  split at h <;> split at h <;> omega

/-! ### Fill information -/

theorem byte_get_set : ∀ x : Fin 256, ∀ o : Fin 4, ∀ v : Fin 4,
    ((setByte (BitVec.ofNat 8 x.1) (2 * o.1) v.1 >>> (2 * o.1)) &&& 3#8).toNat = v.1 := by decide +kernel

theorem byte_get_other : ∀ x : Fin 256, ∀ o o' : Fin 4, ∀ v : Fin 4, o ≠ o' →
    ((setByte (BitVec.ofNat 8 x.1) (2 * o.1) v.1 >>> (2 * o'.1)) &&& 3#8) = (BitVec.ofNat 8 x.1 >>> (2 * o'.1)) &&& 3#8 := by
  decide +kernel

theorem byte_get_lt : ∀ x : Fin 256, ∀ o : Fin 4, ((BitVec.ofNat 8 x.1 >>> (2 * o.1)) &&& 3#8).toNat < 4 := by decide +kernel

theorem pos_eq (b : Nat) : (b &&& 3) <<< 1 = 2 * (b % 4) := by
  rw [show 3 = 2 ^ 2 - 1 by rfl, Nat.and_two_pow_sub_one_eq_mod, Nat.shiftLeft_eq]; omega

theorem fill_lt (s : St) (b : Nat) : s.fill b < 4 := by
  unfold St.fill
  rw [pos_eq]
  have h := byte_get_lt ⟨(s.fillMap (b / 4)).toNat, (s.fillMap (b / 4)).isLt⟩ ⟨b % 4, Nat.mod_lt _ (by decide)⟩
  simpa using h

theorem fill_setDist (s : St) (b v p b' : Nat) (hv : v < 4) : (s.setDist b v p).fill b' = if b' = b then v else s.fill b' := by
  unfold St.fill St.setDist
  simp only [pos_eq, upd]
  by_cases hq : b' / 4 = b / 4
  · rw [if_pos hq, hq]
    split
    · rename_i hb
      subst hb
      have h := byte_get_set ⟨(s.fillMap (b' / 4)).toNat, (s.fillMap (b' / 4)).isLt⟩ ⟨b' % 4, Nat.mod_lt _ (by decide)⟩ ⟨v, hv⟩
      simpa using h
    · have h := byte_get_other ⟨(s.fillMap (b / 4)).toNat, (s.fillMap (b / 4)).isLt⟩ ⟨b % 4, Nat.mod_lt _ (by decide)⟩
        ⟨b' % 4, Nat.mod_lt _ (by decide)⟩ ⟨v, hv⟩ (by simp only [ne_eq, Fin.mk.injEq]; omega)
      simp only [BitVec.ofNat_toNat, BitVec.setWidth_eq] at h
      rw [h]
  · rw [if_neg hq, if_neg (by intro h; rw [h] at hq; exact hq rfl)]

theorem part_setDist (s : St) (b v p b' : Nat) : (s.setDist b v p).part b' = if b' = b then p else s.part b' := by
  simp only [St.setDist, upd]

/-! ### Sizes -/

theorem expLoop_ge (hint : Nat) (xp fuel : Nat) : xp ≤ expLoop hint xp fuel := by
  induction fuel generalizing xp with
  | zero => exact Nat.le_refl _
  | succ f ih => unfold expLoop; split
                 · have := ih (xp + 1); omega
                 · exact Nat.le_refl _

theorem expLoop_spec (hint : Nat) {xp fuel e : Nat} (h : hint * 1000 ^ e ≤ 1196 ^ e) (hx : xp ≤ e) (hf : e ≤ xp + fuel) :
    expLoop hint xp fuel ≤ e ∧ hint * 1000 ^ expLoop hint xp fuel ≤ 1196 ^ expLoop hint xp fuel ∧
    ∀ y, xp ≤ y → y < expLoop hint xp fuel → 1196 ^ y < hint * 1000 ^ y := by
  induction fuel generalizing xp with
  | zero =>
    have : xp = e := by omega
    subst this
    exact ⟨Nat.le_refl _, h, fun y h1 h2 => by simp only [expLoop] at h2; omega⟩
  | succ f ih =>
    unfold expLoop
    split
    · rename_i hlt
      have hne : xp ≠ e := by intro he; subst he; omega
      obtain ⟨h1, h2, h3⟩ := ih (xp := xp + 1) (by omega) (by omega)
      refine ⟨h1, h2, fun y hy hy2 => ?_⟩
      by_cases hxy : y = xp
      · subst hxy; exact hlt
      · exact h3 y (by omega) hy2
    · exact ⟨hx, by omega, fun y h1 h2 => by omega⟩

theorem pow62 : 65535 * 1000 ^ 62 ≤ 1196 ^ 62 := by decide +kernel

theorem exp_spec {hint : Nat} (h : hint < 65536) :
    sizeHintToExp hint ≤ 62 ∧ hint * 1000 ^ sizeHintToExp hint ≤ 1196 ^ sizeHintToExp hint ∧
    ∀ y < sizeHintToExp hint, 1196 ^ y < hint * 1000 ^ y := by
  have h62 : hint * 1000 ^ 62 ≤ 1196 ^ 62 := Nat.le_trans (Nat.mul_le_mul_right _ (by omega)) pow62
  obtain ⟨h1, h2, h3⟩ := expLoop_spec hint (xp := 0) (fuel := 100) h62 (by omega) (by omega)
  exact ⟨h1, h2, fun y hy => h3 y (Nat.zero_le _) hy⟩

/-! ### The invariant -/

/-- The key of the record in bucket `q`. -/
def keyAt (c : Cfg) (s : St) (q : Nat) : Nat × Nat := (c.org q (s.fill q), s.part q)

/-- The number of records in a shard. -/
def held (n : Nat) (v : Nat → Bool) (i : Nat) : Nat := (List.range n).countP (fun j => v (i * n + j))

def St.vf (s : St) : Nat → Bool := fun q => (s.ht q).valid

/-- Bucket `q` holds the record of key `k`. -/
def At (c : Cfg) (s : St) (k : Nat × Nat) (q : Nat) : Prop := q < c.total ∧ (s.ht q).valid ∧ keyAt c s q = k

structure Inv (c : Cfg) (s : St) : Prop where
  uniq : ∀ k q q', At c s k q → At c s k q' → q = q'
  plain : ∀ q < c.total, (s.ht q).combined = false
  cnt : ∀ i < c.total / c.n, s.cnt i = held c.n s.vf i

theorem isMatch_iff {c : Cfg} {s : St} (hc : c.Good) (h : Inv c s) {b p i : Nat} (hb : b < c.total) :
    s.isMatch c b p i = true ↔ (s.ht (c.slot b i)).valid ∧ s.fill (c.slot b i) = i ∧ s.part (c.slot b i) = p := by
  unfold St.isMatch
  rw [h.plain _ (slot_lt hc hb i)]
  simp only [Bool.not_false, Bool.and_true, Bool.and_eq_true, beq_iff_eq]
  constructor
  · rintro ⟨⟨h1, h2⟩, h3⟩; exact ⟨h1, h2, h3.symm⟩
  · rintro ⟨h1, h2, h3⟩; exact ⟨⟨h1, h2⟩, h3.symm⟩

theorem check_some {c : Cfg} {s : St} (hc : c.Good) (h : Inv c s) {b p i : Nat} (hb : b < c.total) (hi : s.check c b p = some i) :
    i < 4 ∧ At c s (b, p) (c.slot b i) ∧ s.fill (c.slot b i) = i := by
  have h1 := List.find?_some hi
  have h2 := List.mem_of_find?_eq_some hi
  rw [isMatch_iff hc h hb] at h1
  refine ⟨by simp at h2; omega, ⟨slot_lt hc hb i, h1.1, ?_⟩, h1.2.1⟩
  unfold keyAt
  rw [h1.2.1, h1.2.2, org_slot hc hb]

theorem check_none {c : Cfg} {s : St} (hc : c.Good) (h : Inv c s) {b p : Nat} (hb : b < c.total) (hi : s.check c b p = none) (q : Nat) :
    ¬ At c s (b, p) q := by
  rintro ⟨hq, hv, hk⟩
  unfold keyAt at hk
  simp only [Prod.mk.injEq] at hk
  have h1 : c.slot b (s.fill q) = q := by rw [← hk.1, slot_org hc hq]
  have hf := fill_lt s q
  unfold St.check at hi
  rw [List.find?_eq_none] at hi
  refine hi (s.fill q) (by simp; omega) ?_
  rw [isMatch_iff hc h hb, h1]
  exact ⟨hv, rfl, hk.2⟩

theorem At.shard {c : Cfg} {s : St} (hc : c.Good) {k : Nat × Nat} {q : Nat} (h : At c s k q) : c.shard q = c.shard k.1 := by
  obtain ⟨h1, _, h2⟩ := h
  rw [← h2]
  exact (org_shard hc h1 _).symm

/-! ### Counting -/

theorem countP_upd (n j : Nat) (hj : j < n) (f : Nat → Bool) (x : Bool) :
    (List.range n).countP (upd f j x) + (if f j then 1 else 0) = (List.range n).countP f + (if x then 1 else 0) := by
  induction n with
  | zero => omega
  | succ n ih =>
    rw [List.range_succ, List.countP_append, List.countP_append]
    simp only [List.countP_cons, List.countP_nil, Nat.zero_add]
    by_cases hjn : j = n
    · subst hjn
      have : (List.range j).countP (upd f j x) = (List.range j).countP f := by
        apply List.countP_congr
        intro y hy
        rw [upd_ne _ _ (by have := List.mem_range.1 hy; omega)]
      rw [this, upd_same]
      omega
    · have := ih (by omega)
      rw [upd_ne f _ (show n ≠ j by omega)]
      omega

theorem held_upd {n : Nat} (hn : 0 < n) (v : Nat → Bool) (q i : Nat) (x : Bool) :
    held n (upd v q x) i + (if q / n = i ∧ v q then 1 else 0) = held n v i + (if q / n = i ∧ x then 1 else 0) := by
  unfold held
  obtain ⟨d, r, rfl, hr, hd, _⟩ := decomp hn q
  rw [hd]
  by_cases hi : d = i
  · subst hi
    simp only [true_and]
    have := countP_upd n r hr (fun j => v (d * n + j)) x
    rw [← this]
    congr 1
    apply List.countP_congr
    intro y _
    simp only [upd]
    by_cases hy : y = r
    · simp [hy]
    · rw [if_neg hy, if_neg (by omega)]
  · simp only [hi, false_and, if_false, Nat.add_zero]
    apply List.countP_congr
    intro y hy
    rw [upd_ne _ _ ?_]
    intro he
    apply hi
    have h1 := div_val (q := i) (List.mem_range.1 hy)
    rw [he, div_val hr] at h1
    exact h1

end Verif.NvmIndex.Fixed
