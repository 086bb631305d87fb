import Verif.Persist.Spec

namespace Verif.Persist
open Spec

/-! ## Numbers -/

theorem le_length : ∀ n v, (le n v).length = n
  | 0, _ => rfl
  | n + 1, v => by simp [le, le_length n]

theorem de_le : ∀ n v, v < 256 ^ n → de (le n v) = v
  | 0, v, h => by simp at h; simp [le, de, h]
  | n + 1, v, h => by
    have h1 : v / 256 < 256 ^ n := by
      rw [Nat.pow_succ] at h; omega
    simp only [le, de, de_le n _ h1]
    have : (UInt8.ofNat (v % 256)).toNat = v % 256 := by simp [UInt8.toNat_ofNat']
    omega

theorem mapIdx_sum (l : List Byte) :
    ∀ k, (l.mapIdx fun i b => b.toNat * 256 ^ (i + k)).sum = 256 ^ k * de l := by
  induction l with
  | nil => simp [de]
  | cons b l ih =>
    intro k
    have := ih (k + 1)
    simp only [List.mapIdx_cons, List.sum_cons, de, Nat.zero_add]
    have e : (l.mapIdx fun i (b : Byte) => b.toNat * 256 ^ (i + 1 + k)) =
        l.mapIdx fun i b => b.toNat * 256 ^ (i + (k + 1)) := by
      congr 1; funext i b; rw [Nat.add_assoc, Nat.add_comm 1 k]
    rw [e, this, Nat.mul_add, Nat.pow_succ, Nat.mul_comm b.toNat, Nat.mul_assoc]

theorem Number_iff {l : List Byte} {n : Nat} : Number l n ↔ de l = n := by
  have := mapIdx_sum l 0
  simp only [Nat.add_zero, Nat.pow_zero, Nat.one_mul] at this
  unfold Number
  rw [this]; exact ⟨Eq.symm, Eq.symm⟩

theorem Number_le {n v : Nat} (h : v < 256 ^ n) : Number (le n v) v := Number_iff.2 (de_le n v h)

/-! ## Sequencing -/

theorem P.bind_ok {α β} {p : P α} {g : α → P β} {t h a r h'} (e : p t h = .ok a r h') :
    P.bind p g t h = g a r h' := by simp [P.bind, e]

theorem P.bind_thrown {α β} {p : P α} {g : α → P β} {t h h'} (e : p t h = .thrown h') :
    P.bind p g t h = .thrown h' := by simp [P.bind, e]

theorem P.bind_eq_ok {α β} {p : P α} {g : α → P β} {t h b r' h''} (e : P.bind p g t h = .ok b r' h'') :
    ∃ a r h', p t h = .ok a r h' ∧ g a r h' = .ok b r' h'' := by
  unfold P.bind at e
  cases hp : p t h with
  | ok a r h' => rw [hp] at e; exact ⟨a, r, h', rfl, e⟩
  | thrown h' => rw [hp] at e; cases e
  | fault => rw [hp] at e; cases e

theorem P.check_true (t h) : P.check true t h = .ok () t h := rfl
theorem P.check_false (t h) : P.check false t h = .thrown h := rfl

theorem P.check_ok {c : Bool} {t h a r h'} (e : P.check c t h = .ok a r h') : c = true ∧ r = t ∧ h' = h := by
  cases c with
  | true => simp only [P.check, P.pure, if_true, Out.ok.injEq] at e; exact ⟨rfl, e.2.1.symm, e.2.2.symm⟩
  | false => simp [P.check, P.throw] at e

theorem readBuf_app (st : Bool) (u r : List Byte) (h : Host) : readBuf st u.length (u ++ r) h = .ok u r h := by
  simp [readBuf]

theorem readExact_app (st : Bool) (u r : List Byte) (h : Host) : readExact st u.length (u ++ r) h = .ok u r h := by
  unfold readExact
  rw [P.bind_ok (readBuf_app st u r h)]
  simp [P.bind, P.check, P.pure]

theorem readExact_app' {st : Bool} {n : Nat} {u r : List Byte} {h : Host} (e : u.length = n) :
    readExact st n (u ++ r) h = .ok u r h := by subst e; exact readExact_app st u r h

/-- What a successful `readExact` read. -/
theorem readExact_ok {st : Bool} {n : Nat} {t h a r h'} (e : readExact st n t h = .ok a r h') :
    t = a ++ r ∧ a.length = n ∧ h' = h := by
  unfold readExact at e
  obtain ⟨b, r1, h1, e1, e2⟩ := P.bind_eq_ok e
  obtain ⟨_, r2, h2, e3, e4⟩ := P.bind_eq_ok e2
  obtain ⟨hc, rfl, rfl⟩ := P.check_ok e3
  simp only [P.pure, Out.ok.injEq] at e4
  obtain ⟨rfl, rfl, rfl⟩ := e4
  have hl : b.length = n := by simpa using hc
  unfold readBuf at e1
  split at e1
  · simp only [Out.ok.injEq] at e1
    obtain ⟨rfl, rfl, rfl⟩ := e1
    exact ⟨(List.take_append_drop n t).symm, hl, rfl⟩
  · rename_i hn
    split at e1
    · cases e1
    · simp only [Out.ok.injEq] at e1
      obtain ⟨rfl, rfl, rfl⟩ := e1
      simp only [List.length_nil] at hl
      omega

theorem readExact_short {st : Bool} {n : Nat} {t h} (e : t.length < n) : readExact st n t h = .thrown h := by
  have hb : readBuf st n t h = if st then .thrown h else .ok [] t h := by
    unfold readBuf; rw [if_neg (by omega)]
  have h0 : ((0 : Nat) == n) = false := by
    have : ¬ (0 = n) := by omega
    simpa using this
  unfold readExact
  cases st with
  | true => rw [P.bind_thrown hb]
  | false =>
    rw [P.bind_ok hb, List.length_nil, h0]
    rfl

/-! ## Blocks -/

theorem readBlock_good {f : Fmt} {st : Bool} {d c l pad r : List Byte} {h : Host} (hd : d.length ≤ f.B)
    (hc : c.length = 4) (hcn : Number c (f.crc d)) (hl : l.length = 4) (hln : Number l d.length)
    (hp : pad.length = f.B - d.length) :
    readBlock f st (c ++ (l ++ (d ++ (pad ++ r)))) h = .ok d r h := by
  have e : c ++ (l ++ (d ++ (pad ++ r))) = (c ++ (l ++ (d ++ pad))) ++ r := by simp
  have el : (c ++ (l ++ (d ++ pad))).length = blockSize f := by simp [blockSize]; omega
  unfold readBlock
  rw [e, P.bind_ok (readExact_app' el)]
  have h1 : (c ++ (l ++ (d ++ pad))).take 4 = c := by rw [← hc]; simp
  have h2 : ((c ++ (l ++ (d ++ pad))).drop 4).take 4 = l := by
    rw [← hc, List.drop_left, hc, ← hl, List.take_left]
  have h3 : (c ++ (l ++ (d ++ pad))).drop 8 = d ++ pad := by
    have : c ++ (l ++ (d ++ pad)) = (c ++ l) ++ (d ++ pad) := by simp
    rw [this, List.drop_left' (by simp; omega)]
  simp only [h1, h2, h3, Number_iff.1 hcn, Number_iff.1 hln, List.take_left, beq_self_eq_true]
  rw [if_neg (by simp)]
  rfl

theorem readBlock_damaged {f : Fmt} {st : Bool} {d c l pad r : List Byte} {x : Nat} {h : Host} (hd : d.length ≤ f.B)
    (hc : c.length = 4) (hcn : Number c x) (hx : x ≠ f.crc d) (hl : l.length = 4) (hln : Number l d.length)
    (hp : pad.length = f.B - d.length) :
    readBlock f st (c ++ (l ++ (d ++ (pad ++ r)))) h = .thrown h := by
  have e : c ++ (l ++ (d ++ (pad ++ r))) = (c ++ (l ++ (d ++ pad))) ++ r := by simp
  have el : (c ++ (l ++ (d ++ pad))).length = blockSize f := by simp [blockSize]; omega
  unfold readBlock
  rw [e, P.bind_ok (readExact_app' el)]
  have h1 : (c ++ (l ++ (d ++ pad))).take 4 = c := by rw [← hc]; simp
  have h2 : ((c ++ (l ++ (d ++ pad))).drop 4).take 4 = l := by
    rw [← hc, List.drop_left, hc, ← hl, List.take_left]
  have h3 : (c ++ (l ++ (d ++ pad))).drop 8 = d ++ pad := by
    have : c ++ (l ++ (d ++ pad)) = (c ++ l) ++ (d ++ pad) := by simp
    rw [this, List.drop_left' (by simp; omega)]
  simp only [h1, h2, h3, Number_iff.1 hcn, Number_iff.1 hln, List.take_left]
  rw [if_neg (by simp)]
  simp [P.bind, P.check, P.throw, hx]

/-- What a successful `readBlock` read: a piece with its checksum and length in front. -/
theorem readBlock_ok {f : Fmt} {st : Bool} {t h d r h'} (e : readBlock f st t h = .ok d r h') :
    h' = h ∧ ∃ c l pad, t = c ++ (l ++ (d ++ (pad ++ r))) ∧ c.length = 4 ∧ Number c (f.crc d) ∧ l.length = 4 ∧
      Number l d.length ∧ d.length ≤ f.B ∧ pad.length = f.B - d.length := by
  unfold readBlock at e
  obtain ⟨buf, r1, h1, e1, e2⟩ := P.bind_eq_ok e
  obtain ⟨rfl, hl, rfl⟩ := readExact_ok e1
  simp only at e2
  split at e2
  · cases e2
  · rename_i hlen
    obtain ⟨_, r2, h2, e3, e4⟩ := P.bind_eq_ok e2
    obtain ⟨hc, rfl, rfl⟩ := P.check_ok e3
    simp only [P.pure, Out.ok.injEq] at e4
    obtain ⟨rfl, rfl, rfl⟩ := e4
    refine ⟨rfl, buf.take 4, (buf.drop 4).take 4, (buf.drop 8).drop (de ((buf.drop 4).take 4)), ?_, ?_, ?_, ?_, ?_, ?_, ?_⟩
    · have e8 : buf.drop 8 = (buf.drop 4).drop 4 := by rw [List.drop_drop]
      rw [← List.append_assoc _ _ r2, List.take_append_drop, e8, ← List.append_assoc _ _ r2, List.take_append_drop,
        ← List.append_assoc, List.take_append_drop]
    · simp [blockSize] at hl ⊢; omega
    · exact Number_iff.2 (by simpa using hc)
    · simp [blockSize] at hl ⊢; omega
    · refine Number_iff.2 ?_
      simp only [List.length_take]; omega
    · simp [blockSize] at hl ⊢; omega
    · simp [blockSize] at hl ⊢; omega

theorem readBlock_short {f : Fmt} {st : Bool} {t h} (e : t.length < 8 + f.B) : readBlock f st t h = .thrown h := by
  unfold readBlock
  rw [P.bind_thrown (readExact_short (show t.length < blockSize f from e))]

end Verif.Persist
