import Verif.Rate.Model
/-
C66: the limiter takes exactly the mean rise of the watched value over the window off what is asked for.
-/
namespace Verif.Rate

/-! ### Specification -/

namespace Spec

/-- How far the value has moved in the watched direction since `k` samples ago, in the history `h`, newest first. -/
def rise (up : Bool) (h : List Int) (k : Nat) : Int :=
  if up then h.getD 0 0 - h.getD k 0 else h.getD k 0 - h.getD 0 0

end Spec

/-- The limiter after the samples `h` (newest first) with a window of `w`. -/
def after (up : Bool) (w : Nat) (h : List Int) : State := h.reverse.foldl State.add ((init up).setWindow w)

/-! ### Proofs -/

theorem trim_eq (w : Nat) (l : List Int) : trim w l = l.drop (l.length - w) := by
  induction l with
  | nil => simp [trim]
  | cons v l ih =>
    unfold trim
    split
    · next h =>
      have : (v :: l).length - w = (l.length - w) + 1 := by simp only [List.length_cons]; omega
      rw [this, List.drop_succ_cons, ih]
    · next h =>
      have : (v :: l).length - w = 0 := by simp only [List.length_cons]; omega
      rw [this, List.drop_zero]

theorem trim_rev (w : Nat) (l : List Int) : trim w l.reverse = (l.take w).reverse := by
  rw [trim_eq, List.reverse_take, List.length_reverse]

theorem after_cons (up : Bool) (w : Nat) (v : Int) (h : List Int) : after up w (v :: h) = (after up w h).add v := by
  simp [after, List.foldl_append]

theorem head_rev (l : List Int) (d : Int) (hl : l ≠ []) : l.reverse.headD d = l.getD (l.length - 1) 0 := by
  have hp : 0 < l.length := List.length_pos_iff.mpr hl
  rw [List.headD_eq_head?_getD, List.head?_reverse, List.getLast?_eq_getElem?, List.getD_eq_getElem?_getD]
  rw [List.getElem?_eq_getElem (by omega)]
  rfl

theorem after_inv (up : Bool) (w : Nat) (hw : 0 < w) (h : List Int) :
    (after up w h).window = w + 1 ∧ (after up w h).up = up ∧ (after up w h).values = (h.take (w + 1)).reverse ∧
    (after up w h).rate = (Spec.rise up h (min (h.length - 1) (w + 1))).tdiv (w + 1 : Nat) := by
  induction h with
  | nil =>
    refine ⟨rfl, rfl, rfl, ?_⟩
    cases up <;> simp [after, init, State.setWindow, Spec.rise]
  | cons v h ih =>
    obtain ⟨i1, i2, i3, -⟩ := ih
    rw [after_cons]
    unfold State.add
    rw [if_neg (by omega)]
    have e : (after up w h).values ++ [v] = (v :: h.take (w + 1)).reverse := by rw [i3]; simp
    have e2 : ((v :: h.take (w + 1)).reverse).headD v = (v :: h).getD (min ((v :: h).length - 1) (w + 1)) 0 := by
      rw [head_rev _ _ (by simp)]
      simp only [List.length_cons, List.length_take, Nat.add_sub_cancel]
      by_cases hl : h.length ≤ w + 1
      · rw [List.take_of_length_le hl, Nat.min_eq_right hl, Nat.min_eq_left hl]
      · rw [Nat.min_eq_left (by omega), Nat.min_eq_right (by omega)]
        simp only [List.getD_eq_getElem?_getD, List.getElem?_cons_succ]
        rw [List.getElem?_take]
        simp
    refine ⟨i1, i2, ?_, ?_⟩
    · dsimp only
      rw [e, i1, trim_rev]
      simp [List.take_take]
    · dsimp only
      rw [e, e2, i1, i2]
      simp [Spec.rise]

/-- Whatever samples came and however the window was changed, between nothing and all of what is asked for is granted. -/
theorem throttle_bounds {s : State} {d : Int} (hd : 0 ≤ d) : 0 ≤ s.throttle d ∧ s.throttle d ≤ d := by
  unfold State.throttle
  split
  · omega
  · split <;> omega

/-- More asked for, more granted. -/
theorem throttle_mono {s : State} {d e : Int} (h : d ≤ e) : s.throttle d ≤ s.throttle e := by
  unfold State.throttle
  split
  · exact h
  · (repeat' split) <;> omega

/-- **Exact**: once more than `w + 1` samples have come, the mean rise per sample over the last `w + 1` samples, rounded towards zero, is
taken off what is asked for. -/
theorem throttle_exact {up : Bool} {w : Nat} {h : List Int} {d : Int} (hw : 0 < w) (hl : w + 1 < h.length) (hd : 0 ≤ d) :
    (after up w h).throttle d = max 0 (d - max 0 ((Spec.rise up h (w + 1)).tdiv (w + 1 : Nat))) := by
  obtain ⟨i1, -, i3, i4⟩ := after_inv up w hw h
  have hv : (after up w h).values.length = w + 1 := by rw [i3, List.length_reverse, List.length_take]; omega
  rw [Nat.min_eq_right (by omega)] at i4
  unfold State.throttle
  rw [hv, i1, i4]
  generalize (Spec.rise up h (w + 1)).tdiv (w + 1 : Nat) = r
  split
  · omega
  · split <;> omega

/-- Until `w + 1` samples have come, all is granted if the value has moved the other way by at least one per sample of the window, and nothing
otherwise. -/
theorem throttle_filling {up : Bool} {w : Nat} {h : List Int} {d : Int} (hw : 0 < w) (hl : h.length < w + 1) :
    (after up w h).throttle d = if Spec.rise up h (h.length - 1) ≤ -(w + 1 : Nat) then d else 0 := by
  obtain ⟨i1, -, i3, i4⟩ := after_inv up w hw h
  have hv : (after up w h).values.length = h.length := by rw [i3, List.length_reverse, List.length_take]; omega
  rw [Nat.min_eq_left (by omega)] at i4
  unfold State.throttle
  rw [hv, i1, i4]
  have hneg : (Spec.rise up h (h.length - 1)).tdiv (w + 1 : Nat) < 0 ↔ Spec.rise up h (h.length - 1) ≤ -(w + 1 : Nat) := by
    generalize Spec.rise up h (h.length - 1) = r
    have h1 := Int.mul_tdiv_add_tmod r (w + 1 : Nat)
    generalize hq : r.tdiv (w + 1 : Nat) = q at h1 ⊢
    generalize hm : r.tmod (w + 1 : Nat) = m at h1
    constructor
    · intro hlt
      have hr : r ≤ 0 := by
        refine Classical.byContradiction fun hc => ?_
        have := Int.tdiv_nonneg (a := r) (b := (w + 1 : Nat)) (by omega) (by omega)
        omega
      have hm0 : m ≤ 0 := by
        have := Int.tmod_nonneg (a := -r) (w + 1 : Nat) (by omega)
        rw [Int.neg_tmod, hm] at this
        omega
      have : (w + 1 : Nat) * q ≤ (w + 1 : Nat) * (-1 : Int) := Int.mul_le_mul_of_nonneg_left (by omega) (by omega)
      omega
    · intro hle
      refine Classical.byContradiction fun hc => ?_
      have : 0 ≤ (w + 1 : Nat) * q := Int.mul_nonneg (by omega) (by omega)
      have hm0 : -(w + 1 : Nat) < m := by
        have := Int.tmod_lt_of_pos (-r) (b := (w + 1 : Nat)) (by omega)
        rw [Int.neg_tmod, hm] at this
        omega
      omega
  by_cases hc : Spec.rise up h (h.length - 1) ≤ -(w + 1 : Nat)
  · rw [if_pos (.inl (hneg.mpr hc)), if_pos hc]
  · rw [if_neg hc, if_neg (by rw [hneg]; omega), if_pos (.inl (by omega))]

/-- A window of 0 turns the limiter off. -/
theorem throttle_off {up : Bool} {h : List Int} {d : Int} : (after up 0 h).throttle d = d := by
  have : (after up 0 h).window = 1 := by
    induction h with
    | nil => rfl
    | cons v h ih => rw [after_cons]; unfold State.add; rw [if_pos (by omega)]; exact ih
  unfold State.throttle
  rw [if_pos (.inr (by omega))]

/-- **Full stop**: if the value rose by at least what is asked for per sample, over the last `w + 1` samples, nothing is granted. -/
theorem throttle_stop {up : Bool} {w : Nat} {h : List Int} {d : Int} (hw : 0 < w) (hl : w + 1 < h.length) (hd : 0 ≤ d)
    (hr : d * (w + 1 : Nat) ≤ Spec.rise up h (w + 1)) : (after up w h).throttle d = 0 := by
  rw [throttle_exact hw hl hd]
  have h0 : (0 : Int) ≤ Spec.rise up h (w + 1) := Int.le_trans (Int.mul_nonneg hd (by omega)) hr
  have : d ≤ (Spec.rise up h (w + 1)).tdiv (w + 1 : Nat) := by
    rw [Int.tdiv_eq_ediv_of_nonneg h0]
    exact (Int.le_ediv_iff_mul_le (by omega)).mpr hr
  omega

/-- **No brake**: if the value did not rise over the last `w + 1` samples, all is granted. -/
theorem throttle_free {up : Bool} {w : Nat} {h : List Int} {d : Int} (hw : 0 < w) (hl : w + 1 < h.length) (hd : 0 ≤ d)
    (hr : Spec.rise up h (w + 1) ≤ 0) : (after up w h).throttle d = d := by
  rw [throttle_exact hw hl hd]
  have : (Spec.rise up h (w + 1)).tdiv (w + 1 : Nat) ≤ 0 := by
    have := Int.tdiv_nonneg (a := -Spec.rise up h (w + 1)) (b := (w + 1 : Nat)) (by omega) (by omega)
    rw [Int.neg_tdiv] at this
    omega
  omega

end Verif.Rate
