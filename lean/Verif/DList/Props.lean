import Verif.DList.Lemmas
/-!
Property C05: the intrusive doubly linked list behaves like a sequence.

Specification: a plain `List N` without duplicates, and the six operations on it (`specStep`).  The
observations are those of the public API: `getHead`, `getTail`, `size`, forward traversal `begin..end` and
backward traversal `rbegin..rend`, and stepping an iterator.
-/
namespace Verif.DList
open Verif

variable {N : Type} [DecidableEq N]

/-- The public mutators. -/
inductive Op (N : Type) where
  | linkAtHead (x : N)
  | linkAtTail (x : N)
  | insertBefore (y x : N)
  | remove (x : N)
  | replace (x y : N)
  | moveToHead (x : N)

/-- Running the code. -/
def step (s : Hooks N × DList N) : Op N → Hooks N × DList N
  | .linkAtHead x => linkAtHead s.1 s.2 x
  | .linkAtTail x => linkAtTail s.1 s.2 x
  | .insertBefore y x => insertBefore s.1 s.2 y x
  | .remove x => remove s.1 s.2 x
  | .replace x y => replace s.1 s.2 x y
  | .moveToHead x => moveToHead s.1 s.2 x

/-- Specification of each mutator on the abstract sequence. -/
def specStep (l : List N) : Op N → List N
  | .linkAtHead x => x :: l
  | .linkAtTail x => l ++ [x]
  | .insertBefore y x => l.flatMap (fun z => if z = y then [x, z] else [z])
  | .remove x => l.filter (· ≠ x)
  | .replace x y => l.map (fun z => if z = x then y else z)
  | .moveToHead x => x :: l.filter (· ≠ x)

/-- Preconditions documented in DList.h:147-174: inserted nodes are not members, others are. -/
def Legal (l : List N) : Op N → Prop
  | .linkAtHead x => x ∉ l
  | .linkAtTail x => x ∉ l
  | .insertBefore y x => y ∈ l ∧ x ∉ l
  | .remove x => x ∈ l
  | .replace x y => x ∈ l ∧ y ∉ l
  | .moveToHead x => x ∈ l

/-- A whole history is legal if each operation is legal at the sequence reached so far. -/
def LegalRun (l : List N) : List (Op N) → Prop
  | [] => True
  | op :: ops => Legal l op ∧ LegalRun (specStep l op) ops

/-- Everything a client of the list can observe. -/
structure Observes (s : Hooks N × DList N) (l : List N) : Prop where
  head : s.2.head = l.head?
  tail : s.2.tail = l.getLast?
  size : s.2.size = l.length
  /-- full forward traversal, any fuel that is at least the size: the loop terminates by itself -/
  forward : ∀ k, l.length ≤ k → visit s.1 .fromHead k (iterBegin s.2 .fromHead) = l
  backward : ∀ k, l.length ≤ k → visit s.1 .fromTail k (iterBegin s.2 .fromTail) = l.reverse
  noDup : l.Nodup

private theorem visit_eq_walk (h : Hooks N) (dir : Direction) (k : Nat) (s : Option N) :
    visit h dir k s = walk (fun x => iterNext h dir (some x)) k s := by
  induction k generalizing s with
  | zero => cases s <;> simp [visit, walk]
  | succ k ih => cases s with
    | none => simp [visit, walk]
    | some x => simp [visit, walk, ih]

theorem observes_of_rep {s : Hooks N × DList N} {l : List N} (r : Rep s.1 s.2 l) : Observes s l where
  head := r.head
  tail := r.tail
  size := r.size
  noDup := r.nodup
  forward k hk := by
    rw [visit_eq_walk]; simp only [iterBegin, r.head]; exact walk_chain r.next k hk
  backward k hk := by
    rw [visit_eq_walk]; simp only [iterBegin, r.tail]
    rw [show l.getLast? = l.reverse.head? by simp]
    exact walk_chain r.prev k (by simpa using hk)

private theorem filter_mid {a b : List N} {x : N} (h : (a ++ x :: b).Nodup) :
    (a ++ x :: b).filter (· ≠ x) = a ++ b := by
  obtain ⟨hxa, hxb, _⟩ := nodup_mid h
  have ha : a.filter (· ≠ x) = a := by rw [List.filter_eq_self]; intro y hy; simp; exact fun e => hxa (e ▸ hy)
  have hb : b.filter (· ≠ x) = b := by rw [List.filter_eq_self]; intro y hy; simp; exact fun e => hxb (e ▸ hy)
  rw [List.filter_append, List.filter_cons]; simp only [ne_eq, not_true, decide_false]
  rw [ha]; simp only [Bool.false_eq_true, if_false]; rw [hb]

private theorem map_not_mem {a : List N} {x y : N} (h : x ∉ a) : a.map (fun z => if z = x then y else z) = a := by
  induction a with
  | nil => rfl
  | cons z zs ih =>
    simp only [List.mem_cons, not_or] at h
    simp [ih h.2, Ne.symm h.1]

private theorem flatMap_not_mem {a : List N} {x y : N} (h : y ∉ a) :
    a.flatMap (fun z => if z = y then [x, z] else [z]) = a := by
  induction a with
  | nil => rfl
  | cons z zs ih =>
    simp only [List.mem_cons, not_or] at h
    simp [List.flatMap_cons, ih h.2, Ne.symm h.1]

/-- One step: the representation follows the specification. -/
theorem step_rep {s : Hooks N × DList N} {l : List N} (r : Rep s.1 s.2 l) {op : Op N} (hl : Legal l op) :
    Rep (step s op).1 (step s op).2 (specStep l op) := by
  cases op with
  | linkAtHead x => exact linkAtHead_rep r hl
  | linkAtTail x => exact linkAtTail_rep r hl
  | insertBefore y x =>
    obtain ⟨a, b, rfl⟩ := List.append_of_mem hl.1
    obtain ⟨hya, hyb, _⟩ := nodup_mid r.nodup
    have := insertBefore_rep r hl.2
    simp only [step, specStep, List.flatMap_append, List.flatMap_cons, flatMap_not_mem hya, flatMap_not_mem hyb]
    simpa using this
  | remove x =>
    obtain ⟨a, b, rfl⟩ := List.append_of_mem hl
    simp only [specStep]; rw [filter_mid r.nodup]; exact (remove_rep r).1
  | replace x y =>
    obtain ⟨a, b, rfl⟩ := List.append_of_mem hl.1
    obtain ⟨hxa, hxb, _⟩ := nodup_mid r.nodup
    have := (replace_rep r hl.2).1
    simp only [step, specStep, List.map_append, List.map_cons, map_not_mem hxa, map_not_mem hxb]
    simpa using this
  | moveToHead x =>
    obtain ⟨a, b, rfl⟩ := List.append_of_mem hl
    simp only [specStep]; rw [filter_mid r.nodup]; exact moveToHead_rep r

theorem run_rep {s : Hooks N × DList N} {l : List N} (r : Rep s.1 s.2 l) (ops : List (Op N)) (hl : LegalRun l ops) :
    Rep (ops.foldl step s).1 (ops.foldl step s).2 (ops.foldl specStep l) := by
  induction ops generalizing s l with
  | nil => exact r
  | cons op ops ih => exact ih (step_rep r hl.1) hl.2

/-- C05 (a): after any legal history on an initially empty list (with arbitrary garbage in the node hooks), every
observation agrees with the abstract sequence. -/
theorem dlist_refines_sequence (h : Hooks N) (ops : List (Op N)) (hl : LegalRun [] ops) :
    Observes (ops.foldl step (h, DList.empty)) (ops.foldl specStep []) :=
  observes_of_rep (run_rep (s := (h, DList.empty)) (rep_empty h) ops hl)

/-- C05 (b): stepping an iterator that stands on a member goes to the neighbour in the abstract sequence, in either
direction, and `--` undoes `++`. -/
theorem iterator_steps (h : Hooks N) (ops : List (Op N)) (hl : LegalRun [] ops) (a b : List N) (x : N)
    (hs : ops.foldl specStep [] = a ++ x :: b) :
    let s := ops.foldl step (h, DList.empty)
    iterNext s.1 .fromHead (some x) = b.head? ∧ iterPrev s.1 .fromHead (some x) = a.getLast? ∧
    iterNext s.1 .fromTail (some x) = a.getLast? ∧ iterPrev s.1 .fromTail (some x) = b.head? := by
  have r := run_rep (s := (h, DList.empty)) (rep_empty h) ops hl
  rw [hs] at r
  exact ⟨rep_next r, rep_prev r, rep_prev r, rep_next r⟩

/-- Nodes whose hook an operation may write. -/
def Op.inserted : Op N → List N
  | .linkAtHead x => [x]
  | .linkAtTail x => [x]
  | .insertBefore _ x => [x]
  | .remove _ => []
  | .replace _ y => [y]
  | .moveToHead _ => []

private theorem setNext_frame (h : Hooks N) {x z : N} (v) (hz : z ≠ x) :
    (setNext h x v).next z = h.next z ∧ (setNext h x v).prev z = h.prev z := ⟨upd_ne _ _ hz, rfl⟩
private theorem setPrev_frame (h : Hooks N) {x z : N} (v) (hz : z ≠ x) :
    (setPrev h x v).next z = h.next z ∧ (setPrev h x v).prev z = h.prev z := ⟨rfl, upd_ne _ _ hz⟩
private theorem setNext?_frame (h : Hooks N) {p : Option N} {z : N} (v) (hz : ∀ x, p = some x → z ≠ x) :
    (setNext? h p v).next z = h.next z ∧ (setNext? h p v).prev z = h.prev z := by
  cases p with
  | none => exact ⟨rfl, rfl⟩
  | some x => exact setNext_frame h v (hz x rfl)
private theorem setPrev?_frame (h : Hooks N) {p : Option N} {z : N} (v) (hz : ∀ x, p = some x → z ≠ x) :
    (setPrev? h p v).next z = h.next z ∧ (setPrev? h p v).prev z = h.prev z := by
  cases p with
  | none => exact ⟨rfl, rfl⟩
  | some x => exact setPrev_frame h v (hz x rfl)

private theorem unlink_frame {h : Hooks N} {d : DList N} {a b : List N} {x z : N} (r : Rep h d (a ++ x :: b))
    (hz : z ∉ a ++ x :: b) : (unlink h d x).1.next z = h.next z ∧ (unlink h d x).1.prev z = h.prev z := by
  have hp := rep_prev r
  have hn := rep_next r
  have h1 : ∀ y, h.prev x = some y → z ≠ y := by
    intro y hy e; rw [hp] at hy; exact hz (by subst e; simp [List.mem_of_getLast? hy])
  have h2 : ∀ y, h.next x = some y → z ≠ y := by
    intro y hy e; rw [hn] at hy; exact hz (by subst e; simp [List.mem_of_head? hy])
  simp only [unlink]
  have f2 := setPrev?_frame (setNext? h (h.prev x) (h.next x)) (p := h.next x) ((setNext? h (h.prev x) (h.next x)).prev x) h2
  have f1 := setNext?_frame h (p := h.prev x) (h.next x) h1
  exact ⟨f2.1.trans f1.1, f2.2.trans f1.2⟩

private theorem linkAtHead_frame {h : Hooks N} {d : DList N} {l : List N} {x z : N} (r : Rep h d l)
    (hz : z ∉ l) (hx : z ≠ x) : (linkAtHead h d x).1.next z = h.next z ∧ (linkAtHead h d x).1.prev z = h.prev z := by
  have h1 : ∀ y, d.head = some y → z ≠ y := by
    intro y hy e; rw [r.head] at hy; exact hz (by subst e; exact List.mem_of_head? hy)
  simp only [linkAtHead]
  have f3 := setPrev?_frame (setPrev (setNext h x d.head) x none) (p := d.head) (some x) h1
  have f2 := setPrev_frame (setNext h x d.head) none hx
  have f1 := setNext_frame h d.head hx
  exact ⟨f3.1.trans (f2.1.trans f1.1), f3.2.trans (f2.2.trans f1.2)⟩

/-- The hooks of nodes that are neither members nor being inserted are never written. -/
theorem step_frame {s : Hooks N × DList N} {l : List N} (r : Rep s.1 s.2 l) {op : Op N} (hl : Legal l op) {z : N}
    (hz : z ∉ l) (hi : z ∉ op.inserted) :
    (step s op).1.next z = s.1.next z ∧ (step s op).1.prev z = s.1.prev z := by
  obtain ⟨h, d⟩ := s
  simp only at r ⊢
  cases op with
  | linkAtHead x => exact linkAtHead_frame r hz (by simpa [Op.inserted] using hi)
  | linkAtTail x =>
    have hx : z ≠ x := by simpa [Op.inserted] using hi
    have h1 : ∀ y, d.tail = some y → z ≠ y := by
      intro y hy e; rw [r.tail] at hy; exact hz (by subst e; exact List.mem_of_getLast? hy)
    simp only [step, linkAtTail]
    have f3 := setNext?_frame (setPrev (setNext h x none) x d.tail) (p := d.tail) (some x) h1
    have f2 := setPrev_frame (setNext h x none) d.tail hx
    have f1 := setNext_frame h none hx
    exact ⟨f3.1.trans (f2.1.trans f1.1), f3.2.trans (f2.2.trans f1.2)⟩
  | insertBefore y x =>
    have hx : z ≠ x := by simpa [Op.inserted] using hi
    obtain ⟨a, b, rfl⟩ := List.append_of_mem hl.1
    have hy : z ≠ y := fun e => hz (by simp [e])
    have hp := rep_prev r
    simp only [step, insertBefore, hp]
    cases ha : a.getLast? with
    | none => simp [setNext, setPrev, upd_ne _ _ hx, upd_ne _ _ hy]
    | some p =>
      have hzp : z ≠ p := fun e => hz (by subst e; simp [List.mem_of_getLast? ha])
      simp [setNext, setPrev, upd_ne _ _ hx, upd_ne _ _ hy, upd_ne _ _ hzp]
  | remove x =>
    obtain ⟨a, b, rfl⟩ := List.append_of_mem hl
    have hx : z ≠ x := fun e => hz (by simp [e])
    have f := unlink_frame r hz
    exact ⟨(upd_ne _ _ hx).trans f.1, (upd_ne _ _ hx).trans f.2⟩
  | replace x y =>
    have hy : z ≠ y := by simpa [Op.inserted] using hi
    obtain ⟨a, b, rfl⟩ := List.append_of_mem hl.1
    have hx : z ≠ x := fun e => hz (by simp [e])
    have hp := rep_prev r
    have hn := rep_next r
    have h1 : ∀ y, a.getLast? = some y → z ≠ y := by
      intro y hy e; exact hz (by subst e; simp [List.mem_of_getLast? hy])
    have h2 : ∀ y, b.head? = some y → z ≠ y := by
      intro y hy e; exact hz (by subst e; simp [List.mem_of_head? hy])
    simp only [step, replace, hp, hn]
    have f1 := setNext?_frame h (p := a.getLast?) (some y) h1
    have f2 := setPrev?_frame (setNext? h a.getLast? (some y)) (p := b.head?) (some y) h2
    simp [setNext, setPrev, upd_ne _ _ hx, upd_ne _ _ hy, f2.1, f2.2, f1.1, f1.2]
  | moveToHead x =>
    obtain ⟨a, b, rfl⟩ := List.append_of_mem hl
    have hx : z ≠ x := fun e => hz (by simp [e])
    simp only [step, moveToHead]
    split
    · exact ⟨rfl, rfl⟩
    · have f1 := unlink_frame r hz
      have f2 := linkAtHead_frame (x := x) (unlink_rep r) (z := z) (by
        intro e; apply hz; simp at e ⊢; rcases e with e | e <;> simp [e]) hx
      exact ⟨f2.1.trans f1.1, f2.2.trans f1.2⟩

/-- C05 (c): several lists may share the node hooks (2Q, multi-queue): an operation on one list leaves every disjoint
list's observations unchanged. -/
theorem disjoint_list_unaffected {h : Hooks N} {d1 d2 : DList N} {l1 l2 : List N} (r1 : Rep h d1 l1) (r2 : Rep h d2 l2)
    (hd : ∀ z ∈ l2, z ∉ l1) {op : Op N} (hl : Legal l1 op) (hi : ∀ z ∈ l2, z ∉ op.inserted) :
    Observes ((step (h, d1) op).1, d2) l2 := by
  refine observes_of_rep ⟨r2.nodup, ?_, ?_, r2.head, r2.tail, r2.size⟩
  · exact (chain_congr (fun z hz => (step_frame (s := (h, d1)) r1 hl (hd z hz) (hi z hz)).1)).mpr r2.next
  · refine (chain_congr (fun z hz => ?_)).mpr r2.prev
    have hz : z ∈ l2 := by simpa using hz
    exact (step_frame (s := (h, d1)) r1 hl (hd z hz) (hi z hz)).2

/-- C05 (d): a node taken out of the list (by `remove` or `replace`) carries no stale links. -/
theorem removed_node_clean (h : Hooks N) (ops : List (Op N)) (hl : LegalRun [] ops) (x y : N) :
    let s := ops.foldl step (h, DList.empty)
    let l := ops.foldl specStep []
    (Legal l (.remove x) → (step s (.remove x)).1.next x = none ∧ (step s (.remove x)).1.prev x = none) ∧
    (Legal l (.replace x y) → (step s (.replace x y)).1.next x = none ∧ (step s (.replace x y)).1.prev x = none) := by
  intro s l
  have r : Rep s.1 s.2 l := run_rep (s := (h, DList.empty)) (rep_empty h) ops hl
  constructor
  · intro hx
    obtain ⟨a, b, e⟩ := List.append_of_mem (show x ∈ l from hx)
    rw [e] at r; exact (remove_rep r).2
  · intro hx
    obtain ⟨a, b, e⟩ := List.append_of_mem hx.1
    have := hx.2
    rw [e] at r this; exact (replace_rep r this).2

/-- C05 (e): saving and restoring the header preserves every observation. -/
theorem save_restore (h : Hooks N) (ops : List (Op N)) (hl : LegalRun [] ops) :
    let s := ops.foldl step (h, DList.empty)
    Observes (s.1, restore (saveState s.2)) (ops.foldl specStep []) := by
  intro s; exact dlist_refines_sequence h ops hl

/-- The hypotheses are met by a history using every operation. -/
example : LegalRun ([] : List Nat)
    [.linkAtHead 1, .linkAtTail 2, .insertBefore 2 3, .moveToHead 2, .replace 1 7, .remove 3, .linkAtHead 3] ∧
    [Op.linkAtHead 1, .linkAtTail 2, .insertBefore 2 3, .moveToHead 2, .replace 1 7, .remove 3, .linkAtHead 3].foldl
      specStep ([] : List Nat) = [3, 2, 7] := by
  constructor
  · simp [LegalRun, Legal, specStep]
  · decide

/-- And for two disjoint lists sharing hooks. -/
example : ∃ (h : Hooks Nat) (d1 d2 : DList Nat), Rep h d1 [1, 2] ∧ Rep h d2 [5] ∧ Legal [1, 2] (.remove 1) :=
  ⟨⟨fun x => if x = 1 then some 2 else none, fun x => if x = 2 then some 1 else none⟩, ⟨some 1, some 2, 2⟩,
   ⟨some 5, some 5, 1⟩, ⟨by decide, by simp [chain_cons], by simp [chain_cons], rfl, rfl, rfl⟩,
   ⟨by decide, by simp [chain_cons], by simp [chain_cons], rfl, rfl, rfl⟩, by simp [Legal]⟩

end Verif.DList
