import Verif.Reuse.Model
import Verif.Trackers.TrackerProps
/-
C64: the reuse time policy reinserts exactly the items whose last two accesses are recent enough.
-/
namespace Verif.Reuse
open Verif Verif.Trackers.Tracker.Spec

/-! ### Specification -/

namespace Spec

/-- There was an access in bucket `i` (0 is the current one). -/
def Hit (l : List Nat) (i : Nat) : Prop := ∃ v, l[i]? = some v ∧ 0 < v

/-- `i` is the bucket of the last access. -/
def Last (l : List Nat) (i : Nat) : Prop := Hit l i ∧ ∀ k, k < i → ¬ Hit l k

/-- The last access is at most `thr` ago, in whole buckets, and so is the one before it from the last one, if there is one. -/
def Recent (size thr : Nat) (l : List Nat) : Prop :=
  ∃ i, Last l i ∧ size * (i + 1) ≤ thr ∧ ∀ j, i < j → Hit l j → (∀ k, i < k → k < j → ¬ Hit l k) → size * (j - i) ≤ thr

end Spec

/-! ### The loop -/

def firstHit (l : List Nat) : Option Nat := l.findIdx? fun v => Decidable.decide (0 < v)

theorem firstHit_none {l : List Nat} (h : firstHit l = none) (k : Nat) : ¬ Spec.Hit l k := by
  rintro ⟨v, h1, h2⟩
  unfold firstHit at h
  rw [List.findIdx?_eq_none_iff] at h
  have := h v (List.mem_of_getElem? h1)
  simp at this; omega

theorem firstHit_some {l : List Nat} {i : Nat} (h : firstHit l = some i) : Spec.Last l i := by
  unfold firstHit at h
  rw [List.findIdx?_eq_some_iff_getElem] at h
  obtain ⟨hl, h1, h2⟩ := h
  refine ⟨⟨l[i], by rw [List.getElem?_eq_getElem hl], by simpa using h1⟩, ?_⟩
  rintro k hk ⟨v, h3, h4⟩
  have h5 := h2 k hk
  rw [List.getElem?_eq_getElem (by omega)] at h3
  rw [← Option.some.inj h3] at h4
  simp at h5; omega

theorem loop_full (a b : Nat) (l : List Nat) : ∀ idx, loop idx (some a) (some b) l = (some a, some b) := by
  induction l with
  | nil => intro idx; rfl
  | cons v l ih => intro idx; unfold loop; split <;> simp [ih]

theorem loop_one (a : Nat) (l : List Nat) : ∀ idx, loop idx (some a) none l = (some a, (firstHit l).map (· + idx)) := by
  induction l with
  | nil => intro idx; rfl
  | cons v l ih =>
    intro idx
    unfold loop firstHit
    rw [List.findIdx?_cons]
    by_cases h : 0 < v
    · simp [h, loop_full]
    · simp only [h, if_false, decide_false, Bool.false_eq_true, ih, firstHit, Option.map_map]
      congr 2; funext x; simp only [Function.comp]; omega

theorem loop_zero (l : List Nat) : ∀ idx, loop idx none none l =
    match firstHit l with
    | none => (none, none)
    | some k => (some (k + idx), (firstHit (l.drop (k + 1))).map (· + (k + idx + 1))) := by
  induction l with
  | nil => intro idx; rfl
  | cons v l ih =>
    intro idx
    unfold loop firstHit
    rw [List.findIdx?_cons]
    by_cases h : 0 < v
    · simp only [h, if_true, decide_true, loop_one, Nat.zero_add, List.drop_succ_cons, List.drop_zero]
      rfl
    · simp only [h, if_false, decide_false, Bool.false_eq_true, ih]
      show _ = match (firstHit l).map (· + 1) with
        | none => _
        | some k => _
      cases firstHit l with
      | none => rfl
      | some k =>
        simp only [Option.map_some, List.drop_succ_cons]
        rw [show k + (idx + 1) = k + 1 + idx by omega]
        rfl

/-! ### The decision -/

theorem viaInt_small {x : Nat} (h : x < 2 ^ 31) : viaInt x = x := by
  unfold viaInt
  rw [Nat.mod_eq_of_lt (by omega), if_pos h]

theorem hit_lt {l : List Nat} {i : Nat} (h : Spec.Hit l i) : i < l.length := by
  obtain ⟨v, h1, -⟩ := h
  exact (List.getElem?_eq_some_iff.1 h1).1

theorem hit_drop {l : List Nat} {a k : Nat} : Spec.Hit (l.drop a) k ↔ Spec.Hit l (a + k) := by
  unfold Spec.Hit; simp [List.getElem?_drop]

/-- **The decision is exact**: no check fails, and an item is reinserted exactly if its key is in the index, it is not expired, and its last
two accesses, as tracked, are recent enough; for windows below 2^31 ticks. -/
theorem decision_exact {size thr : Nat} {l : List Nat} (hs : 0 < size) (hw : size * l.length < 2 ^ 31) (found expired : Bool) :
    ∃ b, Reuse.decide size thr found expired l = some b ∧ (b = true ↔ found = true ∧ expired = false ∧ Spec.Recent size thr l) := by
  unfold Reuse.decide
  cases found with
  | false => exact ⟨false, rfl, by simp⟩
  | true =>
    cases expired with
    | true => exact ⟨false, rfl, by simp⟩
    | false =>
      have bound : ∀ k, k ≤ l.length → size * k < 2 ^ 31 := fun k hk => Nat.lt_of_le_of_lt (Nat.mul_le_mul_left size hk) hw
      unfold reuseTime prevBuckets
      rw [loop_zero]
      cases h1 : firstHit l with
      | none =>
        refine ⟨false, by simp, ?_⟩
        simp only [Bool.false_eq_true, true_and, false_iff]
        rintro ⟨i, ⟨hi, -⟩, -⟩
        exact firstHit_none h1 i hi
      | some i =>
        have hL := firstHit_some h1
        have hil := hit_lt hL.1
        have hb := bound (i + 1) (by omega)
        have hpos : 0 < size * (i + 1) := Nat.mul_pos hs (by omega)
        have uniq : ∀ i', Spec.Last l i' → i' = i := by
          rintro i' ⟨a1, a2⟩
          rcases Nat.lt_trichotomy i' i with h | h | h
          · exact absurd a1 (hL.2 i' h)
          · exact h
          · exact absurd hL.1 (a2 i h)
        simp only [Nat.add_zero]
        cases h2 : firstHit (l.drop (i + 1)) with
        | none =>
          simp only [Option.map_none, Nat.max_zero, Option.map_some, Bool.not_true, Bool.false_eq_true, if_false]
          rw [Nat.mod_eq_of_lt (by omega), viaInt_small hb]
          refine ⟨_, rfl, ?_⟩
          simp only [true_and]
          constructor
          · intro h
            refine ⟨i, hL, by split at h <;> simp_all <;> omega, fun j hj hh _ => ?_⟩
            have := firstHit_none h2 (j - (i + 1))
            rw [hit_drop, show i + 1 + (j - (i + 1)) = j by omega] at this
            exact absurd hh this
          · rintro ⟨i', a1, a2, -⟩
            cases uniq i' a1
            rw [if_neg (by omega)]
        | some k =>
          have hK := firstHit_some h2
          have hkl := hit_lt hK.1
          rw [List.length_drop] at hkl
          have hb2 := bound (k + (i + 1) - i) (by omega)
          simp only [Option.map_some, Bool.not_true, Bool.false_eq_true, if_false]
          rw [if_pos (by omega), Nat.mul_comm (k + (i + 1) - i), Nat.mod_eq_of_lt (by omega), Nat.mod_eq_of_lt (by omega), viaInt_small (by omega)]
          refine ⟨_, rfl, ?_⟩
          simp only [true_and]
          have hnext : ∀ j, i < j → Spec.Hit l j → (∀ k, i < k → k < j → ¬ Spec.Hit l k) → j = k + (i + 1) := by
            intro j hj hh hno
            have hkk : Spec.Hit l (i + 1 + k) := hit_drop.1 hK.1
            rcases Nat.lt_trichotomy j (k + (i + 1)) with h | h | h
            · exfalso
              refine hK.2 (j - (i + 1)) (by omega) ?_
              rw [hit_drop, show i + 1 + (j - (i + 1)) = j by omega]; exact hh
            · exact h
            · exact absurd hkk (hno (i + 1 + k) (by omega) (by omega))
          constructor
          · intro h
            have hle : ¬ (max (size * (i + 1)) (size * (k + (i + 1) - i)) = 0 ∨ thr < max (size * (i + 1)) (size * (k + (i + 1) - i))) := by
              intro h'; rw [if_pos h'] at h; cases h
            refine ⟨i, hL, by omega, fun j hj hh hno => ?_⟩
            rw [hnext j hj hh hno]; omega
          · rintro ⟨i', a1, a2, a3⟩
            cases uniq i' a1
            have := a3 (k + (i + 1)) (by omega) (by rw [show k + (i + 1) = i + 1 + k by omega]; exact hit_drop.1 hK.1) (fun m h3 h4 hm => by
              refine hK.2 (m - (i + 1)) (by omega) ?_
              rw [hit_drop, show i + 1 + (m - (i + 1)) = m by omega]; exact hm)
            rw [if_neg (by omega)]

theorem recent_of_two {size thr : Nat} {l : List Nat} {i j : Nat} (hij : i < j) (hi : Spec.Hit l i) (hj : Spec.Hit l j) (h1 : size * (i + 1) ≤ thr)
    (h2 : size * (j - i) ≤ thr) : Spec.Recent size thr l := by
  classical
  have hex : ∃ i', Spec.Last l i' ∧ i' ≤ i := by
    cases h : firstHit l with
    | none => exact absurd hi (firstHit_none h i)
    | some i' =>
      have hL := firstHit_some h
      refine ⟨i', hL, ?_⟩
      rcases Nat.lt_or_ge i i' with hlt | hge
      · exact absurd hi (hL.2 i hlt)
      · exact hge
  obtain ⟨i', hL, hle⟩ := hex
  refine ⟨i', hL, Nat.le_trans (Nat.mul_le_mul_left size (by omega)) h1, fun j' hj' _ hno => ?_⟩
  rcases Nat.eq_or_lt_of_le hle with e | hlt
  · subst e
    have : j' ≤ j := by
      rcases Nat.lt_or_ge j j' with h | h
      · exact absurd hj (hno j hij h)
      · exact h
    exact Nat.le_trans (Nat.mul_le_mul_left size (by omega)) h2
  · have : j' ≤ i := by
      rcases Nat.lt_or_ge i j' with h | h
      · exact absurd hi (hno i hlt h)
      · exact h
    exact Nat.le_trans (Nat.mul_le_mul_left size (by omega)) h1

/-- **A key accessed twice recently is reinserted**: after any timely history of accesses, an item that is in the index and not expired,
whose key was accessed in the periods `i` and `j` before the current one, is reinserted if both the time since period `i` and the time
between the two are at most the threshold, whatever the Bloom filters answer for other keys. -/
theorem twice_recent {c : Trackers.Tracker.Cfg} {s : Trackers.Tracker.St} (hi : Trackers.Tracker.Init c s) (hu : c.useCounts = false) {first : Op} {ops : List Op}
    (hg : Good c first ops) {tick : Nat} (h1 : latest c.ticks (period c.ticks first.tick) ops ≤ period c.ticks tick + 1)
    (h2 : period c.ticks tick ≤ latest c.ticks (period c.ticks first.tick) ops + 1) (hw : c.ticks * c.n < 2 ^ 31) {key i j thr : Nat}
    (hij : i < j) (hj : j < c.n)
    (ki : key ∈ inPeriod (accesses c.ticks (period c.ticks first.tick) (first :: ops)) (max (latest c.ticks (period c.ticks first.tick) ops) (period c.ticks tick)) i)
    (kj : key ∈ inPeriod (accesses c.ticks (period c.ticks first.tick) (first :: ops)) (max (latest c.ticks (period c.ticks first.tick) ops) (period c.ticks tick)) j)
    (t1 : c.ticks * (i + 1) ≤ thr) (t2 : c.ticks * (j - i) ≤ thr) :
    shouldReinsert c thr (run c s (first :: ops)) tick key true false = some true := by
  obtain ⟨hlen, hf⟩ := Trackers.Tracker.tracker_features hi hg h1 h2 key
  unfold shouldReinsert
  generalize (Trackers.Tracker.getAccesses c (run c s (first :: ops)) tick key).2 = l at *
  obtain ⟨vi, a1, a2⟩ := hf i (by omega)
  obtain ⟨vj, b1, b2⟩ := hf j hj
  have e1 := ((a2.2 hu).2 ki)
  have e2 := ((b2.2 hu).2 kj)
  obtain ⟨b, d1, d2⟩ := decision_exact (thr := thr) (l := l) hg.ticks (by rw [hlen]; exact hw) true false
  rw [d1, d2.2 ⟨rfl, rfl, recent_of_two hij ⟨vi, a1, by omega⟩ ⟨vj, b1, by omega⟩ t1 t2⟩]

end Verif.Reuse
