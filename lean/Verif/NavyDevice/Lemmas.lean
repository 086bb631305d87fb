import Verif.NavyDevice.Model
namespace Verif.NavyDevice

/-! ### Masks -/

theorem maskDown_pow {x k : Nat} (hx : x < 2 ^ 64) (hk : k ≤ 64) : maskDown x (2 ^ k) = x / 2 ^ k * 2 ^ k := by
  unfold maskDown
  have e : 2 ^ 64 - 1 - (2 ^ k - 1) = (2 ^ (64 - k) - 1) * 2 ^ k := by
    rw [Nat.sub_mul, ← Nat.pow_add, Nat.sub_add_cancel hk]
    have := Nat.two_pow_pos k
    omega
  rw [e]
  apply Nat.eq_of_testBit_eq
  intro i
  rw [Nat.testBit_and, Nat.testBit_mul_two_pow, Nat.testBit_mul_two_pow]
  by_cases hi : k ≤ i
  · simp only [hi, decide_true, Bool.true_and]
    rw [Nat.testBit_two_pow_sub_one, Nat.testBit_div_two_pow]
    have : i - k + k = i := by omega
    rw [this]
    by_cases h2 : i < 64
    · have : i - k < 64 - k := by omega
      simp [this]
    · have : x.testBit i = false := Nat.testBit_lt_two_pow (Nat.lt_of_lt_of_le hx (Nat.pow_le_pow_right (by decide) (by omega)))
      simp [this]
  · simp [hi]

/-- The alignment is a power of two (which is only checked in debug builds, Utils.h:51, Device.cpp:1255). -/
def Pow2 (a : Nat) : Prop := ∃ k, k ≤ 31 ∧ a = 2 ^ k

theorem maskDown_eq {x a : Nat} (ha : Pow2 a) (hx : x < 2 ^ 64) : maskDown x a = x / a * a := by
  obtain ⟨k, hk, rfl⟩ := ha
  exact maskDown_pow hx (by omega)

theorem lowBits_eq {x a : Nat} (ha : Pow2 a) : x &&& (a - 1) = x % a := by
  obtain ⟨k, _, rfl⟩ := ha
  exact Nat.and_two_pow_sub_one_eq_mod x k

theorem Pow2.pos {a : Nat} (ha : Pow2 a) : 0 < a := by
  obtain ⟨k, _, rfl⟩ := ha
  exact Nat.two_pow_pos k

theorem Pow2.le {a : Nat} (ha : Pow2 a) : a ≤ 2147483648 := by
  obtain ⟨k, hk, rfl⟩ := ha
  exact Nat.le_trans (Nat.pow_le_pow_right (by decide) hk) (by decide)

theorem powTwoAlign_eq {x a : Nat} (ha : Pow2 a) (hx : x + a ≤ 2 ^ 64) : powTwoAlign x a = (x + (a - 1)) / a * a := by
  have := ha.pos
  exact maskDown_eq ha (by omega)

/-! ### Where a byte of the device is -/

/-- File and offset of a byte. -/
def Cfg.loc (c : Cfg) (o : Nat) : Nat × Nat :=
  if c.nfiles > 1 then (o / c.stripe % c.nfiles, o / c.stripe / c.nfiles * c.stripe + o % c.stripe) else (0, o)

theorem loc_inj {c : Cfg} (hs : c.nfiles > 1 → 0 < c.stripe) {a b : Nat} (h : c.loc a = c.loc b) : a = b := by
  unfold Cfg.loc at h
  split at h
  · rename_i hn
    have hS := hs hn
    have hN : 0 < c.nfiles := by omega
    injection h with h1 h2
    generalize c.stripe = S at *
    generalize c.nfiles = n at *
    have hdiv : ∀ q r, r < S → (q * S + r) / S = q := by
      intro q r hr
      rw [Nat.mul_comm, Nat.mul_add_div hS, Nat.div_eq_of_lt hr]; omega
    have e1 := hdiv (a / S / n) (a % S) (Nat.mod_lt _ hS)
    have e2 := hdiv (b / S / n) (b % S) (Nat.mod_lt _ hS)
    rw [h2, e2] at e1
    have e3 : a % S = b % S := by rw [e1] at h2; omega
    have e4 : a / S = b / S := by
      rw [← Nat.div_add_mod (a / S) n, ← Nat.div_add_mod (b / S) n, e1, h1]
    rw [← Nat.div_add_mod a S, ← Nat.div_add_mod b S, e4, e3]
  · injection h

/-- The operation is on the bytes of the device that correspond to its part of the buffer, which starts at `base`. -/
def Op.At (op : Op) (c : Cfg) (base len : Nat) : Prop :=
  op.buf + op.size ≤ len ∧ ∀ j, j < op.size → c.loc (base + op.buf + j) = (op.fd, op.off + j)

theorem raidOps_at {c : Cfg} (hn : c.nfiles > 1) (hs : 0 < c.stripe) : ∀ f off size buf base len,
    base + buf = off → buf + size ≤ len → ∀ op ∈ raidOps c.stripe c.nfiles f off size buf, op.At c base len := by
  intro f
  induction f with
  | zero => intro off size buf base len _ _ op h; simp [raidOps] at h
  | succ f ih =>
    intro off size buf base len hb hl op h
    rw [raidOps] at h
    split at h
    · rename_i hsz
      dsimp only at h
      have hmod := Nat.mod_lt off hs
      rcases List.mem_cons.1 h with rfl | h
      · refine ⟨by dsimp only; omega, ?_⟩
        intro j hj
        dsimp only at hj ⊢
        unfold Cfg.loc
        rw [if_pos hn]
        have hj2 : off % c.stripe + j < c.stripe := by omega
        have e : base + buf + j = c.stripe * (off / c.stripe) + (off % c.stripe + j) := by
          have := Nat.div_add_mod off c.stripe
          omega
        have e1 : (base + buf + j) / c.stripe = off / c.stripe := by
          rw [e, Nat.mul_add_div hs, Nat.div_eq_of_lt hj2]; omega
        have e2 : (base + buf + j) % c.stripe = off % c.stripe + j := by
          rw [e, Nat.mul_add_mod, Nat.mod_eq_of_lt hj2]
        rw [e1, e2, Nat.add_assoc]
      · refine ih _ _ _ base len ?_ ?_ op h
        · omega
        · omega
    · simp at h

theorem ops_at {c : Cfg} (hs : c.nfiles > 1 → 0 < c.stripe) {base size : Nat} : ∀ op ∈ c.ops base size, op.At c base size := by
  intro op h
  unfold Cfg.ops at h
  split at h
  · rename_i hn
    exact raidOps_at hn (hs hn) _ _ _ _ _ _ (by omega) (by omega) op h
  · rename_i hn
    simp only [List.mem_singleton] at h
    subst h
    refine ⟨by simp, ?_⟩
    intro j _
    simp [Cfg.loc, hn]

theorem raidOps_cover {S n : Nat} (hs : 0 < S) : ∀ f off size buf, size ≤ f → ∀ i, buf ≤ i → i < buf + size →
    ∃ op ∈ raidOps S n f off size buf, op.buf ≤ i ∧ i < op.buf + op.size := by
  intro f
  induction f with
  | zero => intro off size buf h i h1 h2; omega
  | succ f ih =>
    intro off size buf h i h1 h2
    have hmod := Nat.mod_lt off hs
    rw [raidOps, if_pos (by omega)]
    dsimp only
    by_cases hi : i < buf + min size (S - off % S)
    · exact ⟨_, List.mem_cons_self, h1, hi⟩
    · obtain ⟨op, ho, h3⟩ := ih (off + min size (S - off % S)) (size - min size (S - off % S)) (buf + min size (S - off % S))
        (by omega) i (by omega) (by omega)
      exact ⟨op, List.mem_cons_of_mem _ ho, h3⟩

theorem ops_cover {c : Cfg} (hs : c.nfiles > 1 → 0 < c.stripe) {base size i : Nat} (hi : i < size) :
    ∃ op ∈ c.ops base size, op.buf ≤ i ∧ i < op.buf + op.size := by
  unfold Cfg.ops
  split
  · rename_i hn
    exact raidOps_cover (hs hn) _ _ _ _ (Nat.le_refl _) i (by omega) (by omega)
  · exact ⟨_, List.mem_singleton.2 rfl, by simp, by simpa using hi⟩

theorem loc_bound {c : Cfg} (hn : 0 < c.nfiles) (hs : c.nfiles > 1 → 0 < c.stripe)
    (hf : c.nfiles > 1 → c.fileSize % c.stripe = 0) {o : Nat} (ho : o < c.size) :
    (c.loc o).1 < c.nfiles ∧ (c.loc o).2 < c.fileSize := by
  unfold Cfg.loc
  split
  · rename_i h
    have hS := hs h
    have hF := hf h
    refine ⟨Nat.mod_lt _ hn, ?_⟩
    dsimp only
    unfold Cfg.size at ho
    generalize c.stripe = S at *
    generalize c.nfiles = n at *
    generalize c.fileSize = F at *
    obtain ⟨q, rfl⟩ := Nat.dvd_of_mod_eq_zero hF
    have h1 : o / S / n < q := by
      rw [Nat.div_div_eq_div_mul]
      apply Nat.div_lt_of_lt_mul
      rw [Nat.mul_comm S n, Nat.mul_assoc, Nat.mul_comm n]; exact ho
    have h2 := Nat.mod_lt o hS
    calc o / S / n * S + o % S < o / S / n * S + S := by omega
      _ = (o / S / n + 1) * S := by rw [Nat.add_mul]; omega
      _ ≤ q * S := Nat.mul_le_mul_right _ h1
      _ = S * q := Nat.mul_comm _ _
  · rename_i h
    have : c.nfiles = 1 := by omega
    unfold Cfg.size at ho
    rw [this] at ho ⊢
    simp only [Nat.mul_one] at ho
    exact ⟨Nat.zero_lt_one, ho⟩

end Verif.NavyDevice
