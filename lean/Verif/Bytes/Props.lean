import Verif.Bytes.Model
/-
C67: bytesEqual decides equality of the two buffers and reads nothing outside them.
-/
namespace Verif.Bytes

theorem load_inj : ∀ (n : Nat) (a b : List UInt8), n ≤ a.length → n ≤ b.length →
    ∃ x y, load n a = some x ∧ load n b = some y ∧ (x = y ↔ a.take n = b.take n) := by
  intro n
  induction n with
  | zero => intro a b _ _; exact ⟨0, 0, rfl, rfl, by simp⟩
  | succ n ih =>
    intro a b ha hb
    match a, b with
    | [], _ => simp at ha
    | _ :: _, [] => simp at hb
    | p :: a, q :: b =>
      simp only [List.length_cons] at ha hb
      obtain ⟨x, y, h1, h2, h3⟩ := ih a b (by omega) (by omega)
      refine ⟨p.toNat + 256 * x, q.toNat + 256 * y, by simp [load, h1], by simp [load, h2], ?_⟩
      rw [List.take_succ_cons, List.take_succ_cons, List.cons.injEq, ← h3]
      have hp := p.toNat_lt
      have hq := q.toNat_lt
      constructor
      · intro h
        exact ⟨UInt8.toNat_inj.mp (by omega), by omega⟩
      · rintro ⟨rfl, rfl⟩; rfl

theorem eqT_eq {n : Nat} {a b : List UInt8} (ha : n ≤ a.length) (hb : n ≤ b.length) :
    eqT n a b = some (decide (a.take n = b.take n)) := by
  obtain ⟨x, y, h1, h2, h3⟩ := load_inj n a b ha hb
  simp only [eqT, h1, h2, Option.bind_eq_bind, Option.bind_some, Option.pure_def, Option.some.injEq]
  rw [Bool.eq_iff_iff]
  simp [h3]

theorem memEq_eq : ∀ (n : Nat) (a b : List UInt8), n ≤ a.length → n ≤ b.length →
    memEq n a b = some (decide (a.take n = b.take n)) := by
  intro n
  induction n with
  | zero => intro a b _ _; simp [memEq]
  | succ n ih =>
    intro a b ha hb
    match a, b with
    | [], _ => simp at ha
    | _ :: _, [] => simp at hb
    | p :: a, q :: b =>
      simp only [List.length_cons] at ha hb
      simp only [memEq, ih a b (by omega) (by omega), Option.map_some, Option.some.injEq, List.take_succ_cons]
      rw [Bool.eq_iff_iff]
      simp

theorem take_split {n len : Nat} (h : n ≤ len) (a b : List UInt8) (ha : len ≤ a.length) (hb : len ≤ b.length) :
    a.take len = b.take len ↔ a.take n = b.take n ∧ (a.drop n).take (len - n) = (b.drop n).take (len - n) := by
  have e : ∀ l : List UInt8, l.take len = l.take n ++ (l.drop n).take (len - n) := by
    intro l
    rw [← List.take_add]; congr 1; omega
  rw [e a, e b]
  constructor
  · intro h'
    exact List.append_inj h' (by simp only [List.length_take]; omega)
  · rintro ⟨h1, h2⟩; rw [h1, h2]

/-- What a step leaves to be compared: the same question about shorter buffers, of fewer than `n` bytes or different in the first `n`. -/
structure Rest (n len : Nat) (a b : List UInt8) (r : Nat × List UInt8 × List UInt8) : Prop where
  la : r.1 ≤ r.2.1.length
  lb : r.1 ≤ r.2.2.length
  same : r.2.1.take r.1 = r.2.2.take r.1 ↔ a.take len = b.take len
  small : r.1 < n ∨ a.take len ≠ b.take len
  le : r.1 ≤ len

theorem words_rest (len : Nat) : ∀ a b : List UInt8, len ≤ a.length → len ≤ b.length → ∃ r, words len a b = some r ∧ Rest 8 len a b r := by
  induction len using Nat.strongRecOn with
  | ind len ih =>
    intro a b ha hb
    unfold words
    split
    · next h =>
      rw [eqT_eq (by omega) (by omega)]
      have hs := take_split h a b ha hb
      by_cases hc : a.take 8 = b.take 8
      · simp only [hc, decide_true]
        obtain ⟨r, h1, h2⟩ := ih (len - 8) (by omega) (a.drop 8) (b.drop 8) (by simp; omega) (by simp; omega)
        have e : (a.drop 8).take (len - 8) = (b.drop 8).take (len - 8) ↔ a.take len = b.take len := by rw [hs]; simp [hc]
        exact ⟨r, h1, h2.la, h2.lb, h2.same.trans e, h2.small.imp id (fun h' => fun h'' => h' (e.mpr h'')), by have := h2.le; omega⟩
      · simp only [hc, decide_false]
        exact ⟨_, rfl, ha, hb, Iff.rfl, .inr (by rw [Ne, hs]; exact fun h' => hc h'.1), Nat.le_refl _⟩
    · exact ⟨_, rfl, ha, hb, Iff.rfl, .inl (by dsimp only; omega), Nat.le_refl _⟩

theorem chunk_rest {n len : Nat} (h2n : len < 2 * n) {a b : List UInt8} (ha : len ≤ a.length) (hb : len ≤ b.length) :
    ∃ r, chunk n len a b = some r ∧ Rest n len a b r := by
  unfold chunk
  split
  · next h =>
    rw [eqT_eq (by omega) (by omega)]
    have hs := take_split h a b ha hb
    by_cases hc : a.take n = b.take n
    · simp only [hc, decide_true]
      refine ⟨_, rfl, by simp; omega, by simp; omega, by rw [hs]; simp [hc], .inl (by dsimp only; omega), by dsimp only; omega⟩
    · simp only [hc, decide_false]
      exact ⟨_, rfl, ha, hb, Iff.rfl, .inr (by rw [Ne, hs]; exact fun h' => hc h'.1), Nat.le_refl _⟩
  · exact ⟨_, rfl, ha, hb, Iff.rfl, .inl (by dsimp only; omega), Nat.le_refl _⟩

/-- **bytesEqual is equality**: for buffers of at least `len` bytes it returns whether their first `len` bytes agree, and reads nothing
outside the buffers. -/
theorem bytesEqual_exact {a b : List UInt8} {len : Nat} (ha : len ≤ a.length) (hb : len ≤ b.length) :
    bytesEqual a b len = some (decide (a.take len = b.take len)) := by
  unfold bytesEqual
  split
  · exact memEq_eq len a b ha hb
  · obtain ⟨⟨n1, a1, b1⟩, e1, r1⟩ := words_rest len a b ha hb
    have rla := r1.la; have rlb := r1.lb; have rs := r1.same; have rsm := r1.small
    dsimp only at rla rlb rs rsm
    simp only [e1, Option.bind_eq_bind, Option.bind_some, Option.pure_def]
    split
    · next h => rw [decide_eq_false (rsm.resolve_left (by omega))]
    · next h =>
      obtain ⟨⟨n2, a2, b2⟩, e2, r2⟩ := chunk_rest (n := 4) (by omega) rla rlb
      have r2a := r2.la; have r2b := r2.lb; have r2s := r2.same.trans rs; have r2m := r2.small
      rw [Ne, rs] at r2m
      dsimp only at r2a r2b r2s r2m
      simp only [e2, Option.bind_some]
      split
      · next h' => rw [decide_eq_false (r2m.resolve_left (by omega))]
      · next h' =>
        obtain ⟨⟨n3, a3, b3⟩, e3, r3⟩ := chunk_rest (n := 2) (by omega) r2a r2b
        have r3a := r3.la; have r3b := r3.lb; have r3s := r3.same.trans r2s; have r3m := r3.small
        rw [Ne, r2s] at r3m
        dsimp only at r3a r3b r3s r3m
        simp only [e3, Option.bind_some]
        unfold last
        split
        · next h1 =>
          subst h1
          rw [eqT_eq r3a r3b, Option.some.injEq, decide_eq_decide]
          exact r3s
        · next h1 =>
          rw [Option.some.injEq, Bool.eq_iff_iff]
          simp only [beq_iff_eq, decide_eq_true_eq]
          constructor
          · intro h0; subst h0; exact r3s.mp (by simp)
          · intro h0
            have := r3m.resolve_right (fun hn => hn h0)
            omega

/-- On two buffers of one length: exactly their equality, however they are laid out in memory. -/
theorem bytesEqual_iff {a b : List UInt8} (h : a.length = b.length) :
    bytesEqual a b a.length = some (decide (a = b)) := by
  rw [bytesEqual_exact (Nat.le_refl _) (by omega), List.take_length, h, List.take_length]

/-- What lies behind the compared bytes has no influence. -/
theorem bytesEqual_local {a b c d : List UInt8} (h : a.length = b.length) :
    bytesEqual (a ++ c) (b ++ d) a.length = bytesEqual a b a.length := by
  rw [bytesEqual_iff h, bytesEqual_exact (by simp) (by simp; omega)]
  rw [List.take_left, h, List.take_left]

/-- **Keys are equal if and only if their bytes are.** -/
theorem keyEq_exact {a b : List UInt8} : keyEq a b = some (decide (a = b)) := by
  unfold keyEq
  split
  · next h => exact bytesEqual_iff h
  · next h => rw [decide_eq_false (fun e => h (congrArg _ e))]

/-- **Hashed keys whose hashes come from one hash function are equal if and only if their bytes are**; with hashes supplied by the caller
(`precomputed`), if and only if both agree. -/
theorem hashedKey_exact {a b : HashedKey} : a.eq b = some (decide (a.key = b.key ∧ a.hash = b.hash)) := by
  unfold HashedKey.eq
  split
  · next h =>
    rw [bytesEqual_iff h.2, Option.some.injEq, decide_eq_decide]
    exact ⟨fun e => ⟨e, h.1⟩, fun e => e.1⟩
  · next h => rw [decide_eq_false (fun e => h ⟨e.2, congrArg _ e.1⟩)]

theorem hashedKey_key {f : List UInt8 → UInt64} {x y : List UInt8} :
    HashedKey.eq ⟨x, f x⟩ ⟨y, f y⟩ = some (decide (x = y)) := by
  rw [hashedKey_exact, Option.some.injEq, decide_eq_decide]
  exact ⟨fun h => h.1, fun h => ⟨h, congrArg f h⟩⟩

end Verif.Bytes
