import Verif.MultiDList.Lemmas
/-!
Property C46: lists that share the nodes of one multi-list, and its iterator.

Specification: a sequence per queue; the operations are those of C05, applied to one of the queues.
-/
namespace Verif.MultiDList
open Verif

variable {N : Type} [DecidableEq N]

/-- Running the code: each operation names its list. -/
def run (m : MState N) (ops : List (Nat × DList.Op N)) : MState N := ops.foldl (fun m o => onList m o.1 o.2) m

/-- Specification: only the named sequence changes. -/
def specRun (seq : Nat → List N) (ops : List (Nat × DList.Op N)) : Nat → List N :=
  ops.foldl (fun seq o q => if q = o.1 then DList.specStep (seq q) o.2 else seq q) seq

/-- Every operation names one of the `num` lists, is legal there (C05), and a node it inserts is in no other list. -/
def LegalRun (num : Nat) (seq : Nat → List N) : List (Nat × DList.Op N) → Prop
  | [] => True
  | o :: ops => o.1 < num ∧ DList.Legal (seq o.1) o.2 ∧ (∀ x ∈ o.2.inserted, ∀ q, q ≠ o.1 → x ∉ seq q) ∧
      LegalRun num (specRun seq [o]) ops

/-- the concatenation of the first `k` sequences, from the last to the first, each from its tail. -/
def drain (seq : Nat → List N) (k : Nat) : List N := ((List.range k).reverse.map fun q => (seq q).reverse).flatten

theorem drain_order (seq : Nat → List N) (i : Nat) : drain seq (i + 1) = order seq i := by
  induction i with
  | zero => simp [drain, order]
  | succ i ih =>
    rw [order, ← ih]
    simp [drain, List.range_succ (n := i + 1)]

theorem run_num (m : MState N) (ops : List (Nat × DList.Op N)) : (run m ops).num = m.num := by
  induction ops generalizing m with
  | nil => rfl
  | cons o ops ih => exact ih (onList m o.1 o.2)

theorem run_rep {m : MState N} {seq : Nat → List N} (h : MRep m seq) (ops : List (Nat × DList.Op N))
    (hl : LegalRun m.num seq ops) : MRep (run m ops) (specRun seq ops) := by
  induction ops generalizing m seq with
  | nil => exact h
  | cons o ops ih =>
    have := onList_rep h o.1 o.2 hl.2.1 hl.2.2.1
    have e : upd seq o.1 (DList.specStep (seq o.1) o.2) = specRun seq [o] := by
      funext q
      simp only [specRun, List.foldl_cons, List.foldl_nil, upd]
      split
      · rename_i e; rw [e]
      · rfl
    rw [e] at this
    exact ih this hl.2.2.2

/-- C46: after any legal history every list behaves as its own sequence, no node is in two lists, and the size of
the whole is the sum. -/
theorem lists_refine (num : Nat) (hooks : DList.Hooks N) (ops : List (Nat × DList.Op N))
    (hl : LegalRun num (fun _ => []) ops) :
    (∀ q, DList.Observes ((run (new num hooks) ops).hooks, (run (new num hooks) ops).lists q)
      (specRun (fun _ => []) ops q)) ∧
    (∀ p q, p ≠ q → ∀ x ∈ specRun (fun _ => []) ops p, x ∉ specRun (fun _ => []) ops q) ∧
    size (run (new num hooks) ops) = ((List.range num).map fun q => (specRun (fun _ => []) ops q).length).sum := by
  have h := run_rep (mrep_new num hooks) ops hl
  refine ⟨fun q => DList.observes_of_rep (h.rep q), h.disj, ?_⟩
  rw [size, size_eq h, run_num]
  show total _ num = _
  generalize specRun (fun _ => []) ops = seq
  clear h hl
  induction num with
  | zero => rfl
  | succ k ih => simp [total, ih, List.range_succ]

/-- C46: the iterator visits every node of every list exactly once, from the tail of the last list to the head of
the first, and then stops; started at list `i` it visits lists `i`, `i-1`, …, 0. -/
theorem iterator_order (num : Nat) (hooks : DList.Hooks N) (ops : List (Nat × DList.Op N)) (hn : 0 < num)
    (hl : LegalRun num (fun _ => []) ops) :
    (∀ k, (drain (specRun (fun _ => []) ops) num).length ≤ k →
      visit (run (new num hooks) ops) k (rbegin (run (new num hooks) ops)) = drain (specRun (fun _ => []) ops) num) ∧
    ∀ i < num, ∀ k, (drain (specRun (fun _ => []) ops) (i + 1)).length ≤ k →
      visit (run (new num hooks) ops) k (rbeginFrom (run (new num hooks) ops) i) =
        drain (specRun (fun _ => []) ops) (i + 1) := by
  have h := run_rep (mrep_new num hooks) ops hl
  have key : ∀ i, ∀ k, (drain (specRun (fun _ => []) ops) (i + 1)).length ≤ k →
      visit (run (new num hooks) ops) k (rbeginFrom (run (new num hooks) ops) i) =
        drain (specRun (fun _ => []) ops) (i + 1) := by
    intro i k hk
    rw [drain_order] at hk ⊢
    exact visit_at h k (rbeginFrom_at h i) hk
  refine ⟨?_, fun i _ => key i⟩
  obtain ⟨n, rfl⟩ : ∃ n, num = n + 1 := ⟨num - 1, by omega⟩
  intro k hk
  have := key n k hk
  rw [rbegin, run_num]
  exact this

theorem run_beyond (m : MState N) (ops : List (Nat × DList.Op N)) (seq : Nat → List N) (hl : LegalRun m.num seq ops)
    (i : Nat) (hi : m.num ≤ i) : (run m ops).lists i = m.lists i := by
  induction ops generalizing m seq with
  | nil => rfl
  | cons o ops ih =>
    have := ih (onList m o.1 o.2) _ hl.2.2.2 hi
    refine this.trans ?_
    have := hl.1
    simp only [onList]
    rw [upd_ne]
    intro e
    omega

/-- C46: the saved lists restore to the same lists. -/
theorem save_restore (num : Nat) (hooks : DList.Hooks N) (ops : List (Nat × DList.Op N))
    (hl : LegalRun num (fun _ => []) ops) :
    restore (saveState (run (new num hooks) ops)) (run (new num hooks) ops).hooks = run (new num hooks) ops := by
  apply saveRestore
  intro i hi
  rw [run_num] at hi
  exact run_beyond (new num hooks) ops _ hl i hi

/-- Going backward is not the inverse of going forward: the loop of goBackward passes over a list with one node.
Three lists `[1]`, `[2]`, `[3]`: from 1 forward order is 3, 2, 1, but `--` from 1 runs to the end of the index
range without stopping at 2 or 3. -/
theorem goBackward_skips_singleton :
    let m := run (new 3 ⟨fun _ => none, fun _ => none⟩)
      ([(0, .linkAtHead 1), (1, .linkAtHead 2), (2, .linkAtHead 3)] : List (Nat × DList.Op Nat))
    (goForward m (goForward m (rbegin m))).cur = some 1 ∧
    (goForward m (rbegin m)).cur = some 2 ∧
    (goBackward m (goForward m (goForward m (rbegin m)))).idx = some 3 := by
  refine ⟨rfl, rfl, rfl⟩

/-- a legal history that uses several lists. -/
example : LegalRun 3 (fun _ => ([] : List Nat))
    [(0, .linkAtHead 1), (0, .linkAtHead 2), (2, .linkAtTail 3), (0, .remove 1), (2, .linkAtHead 1), (2, .replace 3 4)] ∧
    drain (specRun (fun _ => ([] : List Nat)) [(0, .linkAtHead 1), (0, .linkAtHead 2), (2, .linkAtTail 3), (0, .remove 1),
      (2, .linkAtHead 1), (2, .replace 3 4)]) 3 = [4, 1, 2] := by
  refine ⟨?_, by decide⟩
  simp [LegalRun, DList.Legal, specRun, DList.specStep, DList.Op.inserted]
  refine ⟨?_, ?_, ?_⟩ <;> intro q hq <;> (first | (split <;> simp_all) | simp_all)

end Verif.MultiDList
