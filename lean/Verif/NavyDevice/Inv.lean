import Verif.NavyDevice.Spec
namespace Verif.NavyDevice

theorem LastWrote.cons_not {e : Ev} {log : List Ev} {o : Nat} {b : Byte} (h : LastWrote (e :: log) o b) (ht : ¬ e.touches o) :
    LastWrote log o b := by
  obtain ⟨l1, l2, off, size, data, e1, h1, h2, h3, h4⟩ := h
  cases l1 with
  | nil =>
    injection e1 with e1 e2
    subst e1
    exact absurd ⟨h1, h2⟩ ht
  | cons a l1 =>
    injection e1 with e1 e2
    exact ⟨l1, l2, off, size, data, e2, h1, h2, h3, fun e he => h4 e (List.mem_cons_of_mem _ he)⟩

theorem LastWrote.failed {off size : Nat} {d : Nat → Byte} {log : List Ev} {o : Nat} {b : Byte}
    (h : LastWrote (.wrote off size d false :: log) o b) : ¬ (off ≤ o ∧ o < off + size) := by
  intro ht
  obtain ⟨l1, l2, off', size', data, e1, h1, h2, h3, h4⟩ := h
  cases l1 with
  | nil => injection e1 with e1 e2; cases e1
  | cons a l1 =>
    injection e1 with e1 e2
    subst e1
    exact h4 _ List.mem_cons_self ht

theorem LastWrote.here {off size : Nat} {d : Nat → Byte} {log : List Ev} {o : Nat} {b : Byte}
    (h : LastWrote (.wrote off size d true :: log) o b) (ht : off ≤ o ∧ o < off + size) : d (o - off) = b := by
  obtain ⟨l1, l2, off', size', data, e1, h1, h2, h3, h4⟩ := h
  cases l1 with
  | nil => injection e1 with e1 e2; injection e1 with a1 a2 a3; subst a1; subst a2; subst a3; exact h3
  | cons a l1 =>
    injection e1 with e1 e2
    subst e1
    exact absurd ht (h4 _ List.mem_cons_self)

theorem Made.blk_pos {c : Cfg} (h : Made c) : 0 < c.blk := by
  have h1 := h.accepted
  have h2 := h.pow2.pos
  unfold Cfg.blk
  unfold Cfg.accepted at h1
  split
  · decide
  · rename_i e he
    simp only [he, Bool.and_eq_true, beq_iff_eq] at h1
    omega

theorem Made.blk_dvd {c : Cfg} (h : Made c) : c.align % c.blk = 0 := by
  have h1 := h.accepted
  unfold Cfg.blk
  unfold Cfg.accepted at h1
  split
  · exact Nat.mod_one _
  · rename_i e he
    simp only [he, Bool.and_eq_true, beq_iff_eq] at h1
    rw [h1.1.1.1.2, Nat.mod_self]

/-- What encryption does, with or without an encryptor. -/
structure Good (c : Cfg) (E D : Nat → (Nat → Byte) → Nat → Byte) : Prop where
  enc : ∀ v n s r, n % c.blk = 0 → c.encrypt v n s = some (some r) → ∀ B j, B % c.blk = 0 → B + c.blk ≤ n → j < c.blk →
    r (B + j) = E (s + B) (fun k => v (B + k)) j
  dec : ∀ v n s r, n % c.blk = 0 → c.decrypt v n s = some (some r) → ∀ B j, B % c.blk = 0 → B + c.blk ≤ n → j < c.blk →
    r (B + j) = D (s + B) (fun k => v (B + k)) j
  inv : ∀ s p q, (∀ k, k < c.blk → q k = E s p k) → ∀ k, k < c.blk → D s q k = p k
  cong : ∀ s p q, (∀ k, k < c.blk → q k = p k) → ∀ k, k < c.blk → E s q k = E s p k

theorem good_exists {c : Cfg} (h : ∀ e, c.enc = some e → ∃ E D, BlockCipher e E D) : ∃ E D, Good c E D := by
  cases he : c.enc with
  | none =>
    refine ⟨fun _ p j => p j, fun _ p j => p j, ⟨?_, ?_, fun _ _ _ h k hk => h k hk, fun _ _ _ h k hk => h k hk⟩⟩
    · intro v n s r _ h
      simp only [Cfg.encrypt, he, Option.some.injEq] at h
      subst h
      intros; rfl
    · intro v n s r _ h
      simp only [Cfg.decrypt, he, Option.some.injEq] at h
      subst h
      intros; rfl
  | some e =>
    obtain ⟨E, D, hc⟩ := h e he
    refine ⟨E, D, ?_⟩
    have hb : c.blk = e.block := by simp [Cfg.blk, he]
    constructor
    · intro v n s r hn h
      simp only [Cfg.encrypt, he] at h
      split at h
      · rename_i hs
        simp only [Option.some.injEq] at h
        rw [hb] at hn ⊢
        exact hc.enc v n s r hs hn h
      · cases h
    · intro v n s r hn h
      simp only [Cfg.decrypt, he] at h
      split at h
      · rename_i hs
        simp only [Option.some.injEq] at h
        rw [hb] at hn ⊢
        exact hc.dec v n s r hs hn h
      · cases h
    · rw [hb]; exact hc.inv
    · rw [hb]; exact hc.cong

/-! ### Invariant -/

/-- The device as one sequence of bytes. -/
def flat (c : Cfg) (d : Nat → Nat → Byte) (o : Nat) : Byte := d (c.loc o).1 (c.loc o).2

def Covered (pend : List (Op × Nat)) (i : Nat) : Prop := ∃ y ∈ pend, y.1.buf ≤ i ∧ i < y.1.buf + y.1.size

/-- Byte `i` of the call has been transferred. -/
def Done (c : Cfg) (d : Nat → Nat → Byte) (x : Call) (i : Nat) : Prop :=
  c.InSpan x.uoff x.usize (x.off + i) → flat c d (x.off + i) = x.data i

structure CallInv (c : Cfg) (E : Nat → (Nat → Byte) → Nat → Byte) (d : Nat → Nat → Byte) (x : Call) : Prop where
  offB : x.off % c.blk = 0
  sizeB : x.size % c.blk = 0
  lo : x.off ≤ x.uoff
  hi : x.uoff + x.usize ≤ x.off + x.size
  posLe : x.pos ≤ x.size
  inDev : x.off + x.size ≤ c.size
  small : x.wr = true → c.maxWrite = 0 → x.size < 4294967296
  smallR : x.wr = false → x.size < 4294967296
  wrEq : x.wr = true → x.off = x.uoff ∧ x.size = x.usize
  encd : x.wr = true → ∀ B j, B % c.blk = 0 → B + c.blk ≤ x.size → j < c.blk → x.data (B + j) = E (x.off + B) (fun k => x.udata (B + k)) j
  done : ∀ i, i < x.pos → Done c d x i
  req : ∀ r, x.req = some r → x.pos + r.len ≤ x.size ∧ (∀ y ∈ r.pend, y.1.At c (x.off + x.pos) r.len) ∧
    ∀ i, i < r.len → Covered r.pend i ∨ (r.ok = true → Done c d x (x.pos + i))

/-- Reads in the log gave what was written. -/
def ReadsOk (log : List Ev) : Prop := ∀ later earlier off size f, log = later ++ .didRead off size (some f) :: earlier →
  ∀ i b, i < size → LastWrote earlier (off + i) b → f i = b

structure Inv (c : Cfg) (E : Nat → (Nat → Byte) → Nat → Byte) (w : World) : Prop where
  calls : ∀ id x, w.calls id = some x → CallInv c E w.disk x
  compat : ∀ id x id' x', w.calls id = some x → w.calls id' = some x' → id ≠ id' → (x.wr = true ∨ x'.wr = true) →
    ∀ o, ¬ (c.InSpan x.uoff x.usize o ∧ c.InSpan x'.uoff x'.usize o)
  logB : ∀ off size d ok, .wrote off size d ok ∈ w.log → off % c.blk = 0 ∧ size % c.blk = 0
  known : ∀ B p, B % c.blk = 0 → (∀ j, j < c.blk → LastWrote w.log (B + j) (p j)) →
    (∀ id x, w.calls id = some x → x.wr = true → ¬ c.InSpan x.uoff x.usize B) → ∀ j, j < c.blk → flat c w.disk (B + j) = E B p j
  reads : ReadsOk w.log

theorem ReadsOk.cons {e : Ev} {log : List Ev} (h : ReadsOk log)
    (he : ∀ off size f, e = .didRead off size (some f) → ∀ i b, i < size → LastWrote log (off + i) b → f i = b) : ReadsOk (e :: log) := by
  intro later earlier off size f hl i b hi hb
  cases later with
  | nil =>
    injection hl with h1 h2
    subst h2
    exact he off size f h1 i b hi hb
  | cons a later =>
    injection hl with h1 h2
    exact h later earlier off size f h2 i b hi hb

/-! Blocks -/

theorem block_div {bs B j : Nat} (hb : 0 < bs) (hB : B % bs = 0) (hj : j < bs) : (B + j) / bs = B / bs := by
  obtain ⟨q, rfl⟩ := Nat.dvd_of_mod_eq_zero hB
  rw [Nat.mul_add_div hb, Nat.div_eq_of_lt hj, Nat.mul_div_cancel_left _ hb]; rfl

/-- A range of whole blocks has all of the block or nothing of it. -/
theorem span_aligned {c : Cfg} (hb : 0 < c.blk) {off size o : Nat} (h1 : off % c.blk = 0) (h2 : size % c.blk = 0) :
    c.InSpan off size o ↔ off ≤ o ∧ o < off + size := by
  constructor
  · rintro ⟨u, hu1, hu2, hu3⟩
    obtain ⟨q, rfl⟩ := Nat.dvd_of_mod_eq_zero h1
    obtain ⟨r, rfl⟩ := Nat.dvd_of_mod_eq_zero h2
    generalize c.blk = bs at *
    rw [← Nat.mul_add] at hu2 ⊢
    have e1 : q ≤ u / bs := (Nat.le_div_iff_mul_le hb).2 (by rw [Nat.mul_comm]; exact hu1)
    have e2 : u / bs < q + r := Nat.div_lt_of_lt_mul hu2
    rw [hu3] at e1 e2
    refine ⟨?_, ?_⟩
    · have := (Nat.le_div_iff_mul_le hb).1 e1
      rw [Nat.mul_comm]; exact this
    · have := (Nat.div_lt_iff_lt_mul hb).1 e2
      rw [Nat.mul_comm]; exact this
  · rintro ⟨a, b⟩
    exact ⟨o, a, b, rfl⟩

theorem span_block {c : Cfg} (hb : 0 < c.blk) {off size B j : Nat} (hB : B % c.blk = 0) (hj : j < c.blk) :
    c.InSpan off size (B + j) ↔ c.InSpan off size B := by
  unfold Cfg.InSpan
  rw [block_div hb hB hj]

/-- If one byte of a block was last written, so was all of it. -/
theorem lastWrote_block {c : Cfg} (hb : 0 < c.blk) {log : List Ev}
    (hl : ∀ off size d ok, .wrote off size d ok ∈ log → off % c.blk = 0 ∧ size % c.blk = 0) {B j : Nat} {b : Byte}
    (hB : B % c.blk = 0) (hj : j < c.blk) (h : LastWrote log (B + j) b) :
    ∃ p : Nat → Byte, p j = b ∧ ∀ k, k < c.blk → LastWrote log (B + k) (p k) := by
  obtain ⟨l1, l2, off, size, data, e1, h1, h2, h3, h4⟩ := h
  have ha := hl off size data true (by rw [e1]; simp)
  have key : ∀ off size : Nat, off % c.blk = 0 → size % c.blk = 0 → ∀ k, k < c.blk →
      ((off ≤ B + k ∧ B + k < off + size) ↔ (off ≤ B + j ∧ B + j < off + size)) := by
    intro off size a1 a2 k hk
    rw [← span_aligned hb a1 a2, ← span_aligned hb a1 a2, span_block hb hB hk, span_block hb hB hj]
  refine ⟨fun k => data (B + k - off), h3, ?_⟩
  intro k hk
  have hc := (key off size ha.1 ha.2 k hk).2 ⟨h1, h2⟩
  refine ⟨l1, l2, off, size, data, e1, hc.1, hc.2, rfl, ?_⟩
  intro e he ht
  cases e with
  | didRead => exact ht
  | wrote off' size' d' ok' =>
    have ha' := hl off' size' d' ok' (by rw [e1]; simp [he])
    exact h4 _ he ((key off' size' ha'.1 ha'.2 k hk).1 ht)

end Verif.NavyDevice
