import Verif.NvmIndex.Overflow
/-
What the index with overflow blocks holds (C59).
-/
namespace Verif.NvmIndex.Fixed
open Verif

/-- The plain record of bucket `q`: its key and its address. -/
def regOf (c : Cfg) (s : St) (q : Nat) : Option (Key × Nat) :=
  if q < c.total ∧ (s.ht q).valid = true ∧ (s.ht q).combined = false then some (keyAt c s q, (s.ht q).addr) else none

/-- The address that the block of bucket `q` holds for hash `x`. -/
def OSt.bl (s : OSt) (q x : Nat) : Option Nat :=
  if (s.base.ht q).combined = true then ((s.comb q).bind fun b => b.val x).map (·.addr) else none

/-- The invariant of the contents; `cur` gives the latest address of every hash. -/
structure AI (c : Cfg) (reg : Nat → Option (Key × Nat)) (bl : Nat → Nat → Option Nat) (cur : Nat → Option Nat) : Prop where
  own : ∀ q k a, reg q = some (k, a) → ∃ x, keyOf c x = k ∧ cur x = some a
  uniq : ∀ q q' k a a', reg q = some (k, a) → reg q' = some (k, a') → q = q'
  bown : ∀ q x a, bl q x = some a → cur x = some a
  reach : ∀ q x a, bl q x = some a → ∃ i, i < 4 ∧ q = c.slot (c.bucketId x) i
  d2 : ∀ q k a q' x, reg q = some (k, a) → bl q' x ≠ some a
  d3 : ∀ q q' x a a', bl q x = some a → bl q' x = some a' → q = q'
  inj : ∀ x y a, cur x = some a → cur y = some a → x = y

theorem AI.mono {c : Cfg} {reg reg' : Nat → Option (Key × Nat)} {bl bl' : Nat → Nat → Option Nat} {cur : Nat → Option Nat}
    (h : AI c reg bl cur) (hr : ∀ q e, reg' q = some e → reg q = some e) (hb : ∀ q x a, bl' q x = some a → bl q x = some a) :
    AI c reg' bl' cur := by
  constructor
  · intro q k a h1; exact h.own q k a (hr _ _ h1)
  · intro q q' k a a' h1 h2; exact h.uniq q q' k a a' (hr _ _ h1) (hr _ _ h2)
  · intro q x a h1; exact h.bown q x a (hb _ _ _ h1)
  · intro q x a h1; exact h.reach q x a (hb _ _ _ h1)
  · intro q k a q' x h1 h2; exact h.d2 q k a q' x (hr _ _ h1) (hb _ _ _ h2)
  · intro q q' x a a' h1 h2; exact h.d3 q q' x a a' (hb _ _ _ h1) (hb _ _ _ h2)
  · exact h.inj

/-- nothing in the index is the record of `x` -/
def Free (reg : Nat → Option (Key × Nat)) (bl : Nat → Nat → Option Nat) (cur : Nat → Option Nat) (x : Nat) : Prop :=
  (∀ q k a, reg q = some (k, a) → cur x ≠ some a) ∧ ∀ q, bl q x = none

theorem AI.setCur {c : Cfg} {reg : Nat → Option (Key × Nat)} {bl : Nat → Nat → Option Nat} {cur : Nat → Option Nat}
    (h : AI c reg bl cur) {x : Nat} (hf : Free reg bl cur x) {v : Option Nat} (hv : ∀ y a, v = some a → cur y ≠ some a) :
    AI c reg bl (upd cur x v) := by
  constructor
  · intro q k a h1
    obtain ⟨y, hy, hc⟩ := h.own q k a h1
    have : y ≠ x := by rintro rfl; exact hf.1 q k a h1 hc
    exact ⟨y, hy, by rw [upd_ne _ _ this]; exact hc⟩
  · exact h.uniq
  · intro q y a h1
    have : y ≠ x := by rintro rfl; rw [hf.2 q] at h1; cases h1
    rw [upd_ne _ _ this]; exact h.bown q y a h1
  · exact h.reach
  · exact h.d2
  · exact h.d3
  · intro y z a h1 h2
    by_cases hy : y = x <;> by_cases hz : z = x
    · rw [hy, hz]
    · subst hy; rw [upd_same] at h1; rw [upd_ne _ _ hz] at h2; exact absurd h2 (hv z a h1)
    · subst hz; rw [upd_same] at h2; rw [upd_ne _ _ hy] at h1; exact absurd h1 (hv y a h2)
    · rw [upd_ne _ _ hy] at h1; rw [upd_ne _ _ hz] at h2; exact h.inj y z a h1 h2

theorem AI.addReg {c : Cfg} {reg : Nat → Option (Key × Nat)} {bl : Nat → Nat → Option Nat} {cur : Nat → Option Nat}
    (h : AI c reg bl cur) {q x a : Nat} (hc : cur x = some a) (hk : ∀ q' k b, reg q' = some (k, b) → q' ≠ q → k ≠ keyOf c x)
    (hb : ∀ q', bl q' x = none) : AI c (upd reg q (some (keyOf c x, a))) bl cur := by
  constructor
  · intro q' k a' h1
    by_cases e : q' = q
    · subst e; rw [upd_same] at h1; cases h1; exact ⟨x, rfl, hc⟩
    · rw [upd_ne _ _ e] at h1; exact h.own _ _ _ h1
  · intro q1 q2 k a1 a2 h1 h2
    by_cases e1 : q1 = q <;> by_cases e2 : q2 = q
    · rw [e1, e2]
    · subst e1; rw [upd_same] at h1; rw [upd_ne _ _ e2] at h2; cases h1; exact absurd rfl (hk _ _ _ h2 e2)
    · subst e2; rw [upd_same] at h2; rw [upd_ne _ _ e1] at h1; cases h2; exact absurd rfl (hk _ _ _ h1 e1)
    · rw [upd_ne _ _ e1] at h1; rw [upd_ne _ _ e2] at h2; exact h.uniq _ _ _ _ _ h1 h2
  · exact h.bown
  · exact h.reach
  · intro q1 k a1 q2 y h1 h2
    by_cases e : q1 = q
    · subst e; rw [upd_same] at h1; cases h1
      have := h.inj x y _ hc (h.bown _ _ _ h2)
      subst this; rw [hb] at h2; cases h2
    · rw [upd_ne _ _ e] at h1; exact h.d2 _ _ _ _ _ h1 h2
  · exact h.d3
  · exact h.inj

theorem AI.addBl {c : Cfg} {reg : Nat → Option (Key × Nat)} {bl bl' : Nat → Nat → Option Nat} {cur : Nat → Option Nat}
    (h : AI c reg bl cur) {q x a : Nat} (hc : cur x = some a) (hr : ∃ i, i < 4 ∧ q = c.slot (c.bucketId x) i)
    (hk : ∀ q' k b, reg q' = some (k, b) → b ≠ a) (hb : ∀ q', q' ≠ q → bl q' x = none)
    (hbl : ∀ q' y, bl' q' y = if q' = q ∧ y = x then some a else bl q' y) : AI c reg bl' cur := by
  constructor
  · exact h.own
  · exact h.uniq
  · intro q' y a' h1
    rw [hbl] at h1; split at h1
    · next e => obtain ⟨-, rfl⟩ := e; cases h1; exact hc
    · exact h.bown _ _ _ h1
  · intro q' y a' h1
    rw [hbl] at h1; split at h1
    · next e => obtain ⟨rfl, rfl⟩ := e; exact hr
    · exact h.reach _ _ _ h1
  · intro q1 k a1 q2 y h1 h2
    rw [hbl] at h2; split at h2
    · cases h2; exact hk _ _ _ h1 rfl
    · exact h.d2 _ _ _ _ _ h1 h2
  · intro q1 q2 y a1 a2 h1 h2
    rw [hbl] at h1 h2
    split at h1 <;> split at h2
    · next e1 e2 => rw [e1.1, e2.1]
    · next e1 e2 =>
      obtain ⟨rfl, rfl⟩ := e1
      by_cases e : q2 = q1
      · exact e.symm
      · rw [hb q2 e] at h2; cases h2
    · next e1 e2 =>
      obtain ⟨rfl, rfl⟩ := e2
      by_cases e : q1 = q2
      · exact e
      · rw [hb q1 e] at h1; cases h1
    · exact h.d3 _ _ _ _ _ h1 h2
  · exact h.inj

/-- The invariant of the representation. -/
structure Wf (c : Cfg) (s : OSt) : Prop where
  cv : ∀ q, q < c.total → (s.base.ht q).combined = true → (s.base.ht q).valid = true ∧ ∃ b, s.comb q = some b
  bv : ∀ q b x r, q < c.total → (s.base.ht q).combined = true → s.comb q = some b → b.val x = some r →
    r.valid = true ∧ r.combined = false ∧ x ∈ b.stored
  out : ∀ q, c.total ≤ q → (s.base.ht q).combined = false

structure OInv (c : Cfg) (s : OSt) (cur : Nat → Option Nat) : Prop where
  wf : Wf c s
  ai : AI c (regOf c s.base) s.bl cur

theorem comb_lt {c : Cfg} {s : OSt} (h : Wf c s) {q : Nat} (hq : (s.base.ht q).combined = true) : q < c.total := by
  refine Nat.lt_of_not_le fun hn => ?_
  rw [h.out q hn] at hq; cases hq

theorem bl_some {c : Cfg} {s : OSt} (h : Wf c s) {q x a : Nat} (hb : s.bl q x = some a) :
    q < c.total ∧ (s.base.ht q).combined = true ∧ ∃ b r, s.comb q = some b ∧ b.val x = some r ∧ r.addr = a := by
  unfold OSt.bl at hb
  split at hb
  · next hq =>
    refine ⟨comb_lt h hq, hq, ?_⟩
    rw [Option.map_eq_some_iff] at hb
    obtain ⟨r, hr, ha⟩ := hb
    rw [Option.bind_eq_some_iff] at hr
    obtain ⟨b, h1, h2⟩ := hr
    exact ⟨b, r, h1, h2, ha⟩
  · cases hb

theorem bl_val {s : OSt} {q : Nat} {b : Blk} (hq : (s.base.ht q).combined = true) (hb : s.comb q = some b) (x : Nat) :
    s.bl q x = (b.val x).map (·.addr) := by
  unfold OSt.bl
  rw [if_pos hq, hb]; rfl

theorem checkComb_some {c : Cfg} {s : OSt} {h i : Nat} (hi : s.checkComb c h = some i) :
    i < 4 ∧ (s.base.ht (c.slot (c.bucketId h) i)).combined = true ∧
      ∃ b r, s.comb (c.slot (c.bucketId h) i) = some b ∧ b.val h = some r := by
  have h1 := List.find?_some hi
  have h2 := List.mem_of_find?_eq_some hi
  simp only [Bool.and_eq_true] at h1
  refine ⟨by simp at h2; omega, h1.1, ?_⟩
  obtain ⟨-, h1⟩ := h1
  split at h1
  · next b hb => obtain ⟨r, hr⟩ := Option.isSome_iff_exists.mp h1; exact ⟨b, r, hb, hr⟩
  · cases h1

theorem checkComb_none {c : Cfg} {s : OSt} {cur : Nat → Option Nat} (hI : OInv c s cur) {h : Nat}
    (hi : s.checkComb c h = none) (q : Nat) : s.bl q h = none := by
  cases hb : s.bl q h with
  | none => rfl
  | some a =>
    obtain ⟨h1, h2, b, r, h3, h4, h5⟩ := bl_some hI.wf hb
    obtain ⟨i, hi4, rfl⟩ := hI.ai.reach _ _ _ hb
    unfold OSt.checkComb at hi
    rw [List.find?_eq_none] at hi
    refine absurd ?_ (hi i (by simp; omega))
    rw [h2, h3]; simp [h4]

theorem regOf_some {c : Cfg} {s : St} {q : Nat} {e : Key × Nat} (h : regOf c s q = some e) :
    q < c.total ∧ (s.ht q).valid = true ∧ (s.ht q).combined = false ∧ e = (keyAt c s q, (s.ht q).addr) := by
  unfold regOf at h
  split at h
  · next hc => cases h; exact ⟨hc.1, hc.2.1, hc.2.2, rfl⟩
  · cases h

theorem regOf_eq {c : Cfg} {s : St} {q : Nat} (h1 : q < c.total) (h2 : (s.ht q).valid = true) (h3 : (s.ht q).combined = false) :
    regOf c s q = some (keyAt c s q, (s.ht q).addr) := if_pos ⟨h1, h2, h3⟩

theorem scheck_some {c : Cfg} {s : St} (hc : c.Good) {b p i : Nat} (hb : b < c.total) (hi : s.check c b p = some i) :
    i < 4 ∧ (s.ht (c.slot b i)).valid = true ∧ (s.ht (c.slot b i)).combined = false ∧
      regOf c s (c.slot b i) = some ((b, p), (s.ht (c.slot b i)).addr) := by
  have h1 := List.find?_some hi
  have h2 := List.mem_of_find?_eq_some hi
  unfold St.isMatch at h1
  simp only [Bool.and_eq_true, Bool.not_eq_eq_eq_not, Bool.not_true, beq_iff_eq] at h1
  obtain ⟨⟨⟨h3, h4⟩, h5⟩, h6⟩ := h1
  refine ⟨by simp at h2; omega, h3, h4, ?_⟩
  rw [regOf_eq (slot_lt hc hb i) h3 h4]
  unfold keyAt
  rw [h5, ← h6, org_slot hc hb]

theorem scheck_none {c : Cfg} {s : St} (hc : c.Good) {b p : Nat} (hb : b < c.total) (hi : s.check c b p = none) {q : Nat}
    {k : Key} {a : Nat} (hq : regOf c s q = some (k, a)) : k ≠ (b, p) := by
  rintro rfl
  obtain ⟨h1, h2, h3, h4⟩ := regOf_some hq
  injection h4 with h4 _
  unfold keyAt at h4
  injection h4 with h4 h5
  have h6 : c.slot b (s.fill q) = q := by rw [h4, slot_org hc h1]
  have hf := fill_lt s q
  unfold St.check at hi
  rw [List.find?_eq_none] at hi
  refine hi (s.fill q) (by simp; omega) ?_
  unfold St.isMatch
  rw [h6, h2, h3, h5]; simp

/-! ### Elementary changes -/

theorem regOf_setRec {c : Cfg} {s : St} (q : Nat) (r : PRec) (q' : Nat) :
    regOf c (s.setRec q r) q' = if q' = q then
      (if q < c.total ∧ r.valid = true ∧ r.combined = false then some (keyAt c s q, r.addr) else none) else regOf c s q' := by
  unfold regOf keyAt St.fill St.setRec
  simp only [upd]
  by_cases e : q' = q
  · subst e; simp
  · simp [e]

theorem regOf_cnt {c : Cfg} {s : St} (f : Nat → Nat) : regOf c { s with cnt := f } = regOf c s := rfl

theorem bl_setRec {s : OSt} {q : Nat} {r : PRec} (h1 : (s.base.ht q).combined = r.combined) :
    OSt.bl { s with base := s.base.setRec q r } = s.bl := by
  funext q' x
  unfold OSt.bl St.setRec
  simp only [upd]
  by_cases e : q' = q
  · subst e; simp [h1]
  · simp [e]

theorem wf_setRec {c : Cfg} {s : OSt} (h : Wf c s) {q : Nat} {r : PRec} (h1 : (s.base.ht q).combined = r.combined)
    (h2 : r.combined = true → r.valid = true) : Wf c { s with base := s.base.setRec q r } := by
  have hc : ∀ q', ((s.base.setRec q r).ht q').combined = (s.base.ht q').combined := by
    intro q'; unfold St.setRec; simp only [upd]; split
    · next e => rw [e, h1]
    · rfl
  constructor
  · intro q' hq hcq
    simp only at hcq ⊢
    have hcq' := hcq
    rw [hc] at hcq'
    refine ⟨?_, (h.cv q' hq hcq').2⟩
    by_cases e : q' = q
    · subst e; simp only [St.setRec, upd_same] at hcq ⊢; exact h2 hcq
    · simp only [St.setRec]; rw [upd_ne _ _ e]; exact (h.cv q' hq hcq').1
  · intro q' b x r' hq hcq
    simp only at hcq
    rw [hc] at hcq
    exact h.bv q' b x r' hq hcq
  · intro q' hq
    simp only
    rw [hc]; exact h.out q' hq

end Verif.NvmIndex.Fixed
