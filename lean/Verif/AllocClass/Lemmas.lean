import Verif.AllocClass.Inv
import Mathlib.Tactic.Ring
namespace Verif.AllocClass
open Verif

theorem swapRemove_perm {l : List Nat} {x : Nat} (h : x ∈ l) : (swapRemove l x).Perm (l.erase x) := by
  rcases List.eq_nil_or_concat l with rfl | ⟨i, y, rfl⟩
  · simp at h
  simp only [swapRemove, List.concat_eq_append, List.getLast?_concat] at h ⊢
  by_cases hx : x ∈ i
  · have hlt : i.idxOf x < i.length := List.idxOf_lt_length_iff.2 hx
    rw [List.idxOf_append_of_mem hx, List.set_append_left _ _ hlt, List.dropLast_concat, List.erase_append_left _ hx]
    refine (List.set_perm_cons_eraseIdx hlt y).trans ?_
    rw [List.erase_eq_eraseIdx_of_idxOf rfl]
    exact (List.perm_append_singleton _ _).symm
  · have hxy : x = y := by grind
    subst hxy
    rw [List.idxOf_append_of_notMem hx, List.erase_append_right _ hx, List.set_append_right _ _ (by simp)]
    simp

theorem mem_swapRemove {l : List Nat} {x y : Nat} (hn : l.Nodup) (h : x ∈ l) : y ∈ swapRemove l x ↔ y ∈ l ∧ y ≠ x := by
  rw [(swapRemove_perm h).mem_iff, hn.mem_erase_iff]; tauto

theorem nodup_swapRemove {l : List Nat} {x : Nat} (hn : l.Nodup) (h : x ∈ l) : (swapRemove l x).Nodup :=
  (swapRemove_perm h).nodup_iff.2 (hn.erase _)

theorem chunk_le {n : Nat} {a : Addr} (h : chunk n a) : a.2 + n ≤ KS := by
  obtain ⟨h1, h2⟩ := h
  have h3 : (a.2 / n + 1) * n ≤ KS := Nat.le_trans (Nat.mul_le_mul_right n h2) (Nat.div_mul_le_self _ _)
  have h4 := Nat.div_add_mod a.2 n
  rw [h1] at h4
  have : (a.2 / n + 1) * n = n * (a.2 / n) + n := by ring
  omega

theorem chunk_of_le {n : Nat} {a : Addr} (h0 : 0 < n) (h : a.2 % n = 0) (h2 : a.2 + n ≤ KS) : chunk n a := by
  refine ⟨h, ?_⟩
  have h4 := Nat.div_add_mod a.2 n
  have : (a.2 / n + 1) * n ≤ KS := by
    have : (a.2 / n + 1) * n = n * (a.2 / n) + n := by ring
    omega
  exact (Nat.le_div_iff_mul_le h0).2 this

theorem chunk_mul {n i sl : Nat} (h0 : 0 < n) : chunk n (sl, i * n) ↔ i < KS / n := by
  simp [chunk, Nat.mul_div_cancel _ h0]

theorem chunk_eq {n : Nat} {a : Addr} (h : chunk n a) : a = (a.1, a.2 / n * n) := by
  obtain ⟨h1, _⟩ := h
  have h4 := Nat.div_add_mod a.2 n
  have : a.2 / n * n = n * (a.2 / n) := by ring
  ext <;> simp; omega

theorem chunk_inj {n : Nat} {a b : Addr} (h : chunk n a) (h' : chunk n b) (h1 : a.1 = b.1) (h2 : a.2 / n = b.2 / n) : a = b := by
  rw [chunk_eq h, chunk_eq h', h1, h2]

/-- multiples of n: the next one is n away -/
theorem mul_gap {n x y : Nat} (hx : x % n = 0) (hy : y % n = 0) (h : x < y) : x + n ≤ y := by
  have a := Nat.div_add_mod x n
  have b := Nat.div_add_mod y n
  rw [hx] at a; rw [hy] at b
  by_contra hc
  have h1 : y / n ≤ x / n := by
    by_contra h2
    have : n * (x / n + 1) ≤ n * (y / n) := Nat.mul_le_mul_left _ (by omega)
    rw [Nat.mul_add] at this; omega
  have : n * (y / n) ≤ n * (x / n) := Nat.mul_le_mul_left _ h1
  omega

end Verif.AllocClass
