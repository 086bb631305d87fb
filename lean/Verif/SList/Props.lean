import Verif.SList.Lemmas
/-!
Property C06: the intrusive singly linked (free) list behaves like a stack with delete-at-position and splice.

Specification: any number of lists, each named by a `Nat`, each a plain sequence; `specStep` is the effect of each operation.
The code side keeps one hook heap shared by all lists plus one header per list.
-/
namespace Verif.SList
open Verif

variable {N : Type} [DecidableEq N]

inductive Op (N : Type) where
  | insert (i : Nat) (x : N)
  | pop (i : Nat)
  | removeAt (i k : Nat)        -- remove(it) with `it` = begin() advanced k times
  | splice (i j : Nat)          -- lists[i].splice(std::move(lists[j]))
  | moveAssign (i j : Nat)      -- lists[i] = std::move(lists[j])
  | saveRestore (i : Nat) (old : Bool)  -- serialize and rebuild list i; `old`: image without a tail

structure Sys (N : Type) where
  nx : N → Option N
  lists : Nat → SList N

/-- Run one operation; the result is the exception or the new state. -/
def step (s : Sys N) : Op N → Except Err (Sys N)
  | .insert i x => let r := insert s.nx (s.lists i) x; .ok ⟨r.1, upd s.lists i r.2⟩
  | .pop i => match pop s.nx (s.lists i) with
    | .error e => .error e
    | .ok r => .ok ⟨r.1, upd s.lists i r.2⟩
  | .removeAt i k => match remove s.nx i (s.lists i) (iterAt s.nx i (s.lists i) k) with
    | .error e => .error e
    | .ok r => .ok ⟨r.1, upd s.lists i r.2.1⟩
  | .splice i j => match splice s.nx (s.lists i) (s.lists j) with
    | .error e => .error e
    | .ok r => .ok ⟨r.1, upd (upd s.lists i r.2.1) j r.2.2⟩
  | .moveAssign i j => let r := moveAssign (s.lists i) (s.lists j); .ok ⟨s.nx, upd (upd s.lists i r.1) j r.2⟩
  | .saveRestore i old =>
    let o := saveState (s.lists i)
    match restore s.nx (if old then (o.1, none, o.2.2) else o) with
    | .error e => .error e
    | .ok l => .ok ⟨s.nx, upd s.lists i l⟩

/-- Specification: the effect on the abstract sequences, or the error. -/
def specStep (A : Nat → List N) : Op N → Except Err (Nat → List N)
  | .insert i x => .ok (upd A i (x :: A i))
  | .pop i => match A i with | [] => .error .popEmpty | _ :: l => .ok (upd A i l)
  | .removeAt i k => if k < (A i).length then .ok (upd A i ((A i).eraseIdx k)) else .error .removeEnd
  | .splice i j => .ok (upd (upd A i (A j ++ A i)) j [])
  | .moveAssign i j => .ok (upd (upd A i (A j)) j [])
  | .saveRestore _ _ => .ok A

/-- Caller obligations: an inserted node is in no list, an iterator is not advanced past the end, splice/move between
two different lists. -/
def Legal (A : Nat → List N) : Op N → Prop
  | .insert _ x => ∀ i, x ∉ A i
  | .removeAt i k => k ≤ (A i).length
  | .splice i j => i ≠ j
  | .moveAssign i j => i ≠ j
  | _ => True

/-- All a client can see of list `i`. -/
structure Observes (s : Sys N) (A : Nat → List N) : Prop where
  head : ∀ i, (s.lists i).getHead = (A i).head?
  size : ∀ i, (s.lists i).size = (A i).length
  empty : ∀ i, (s.lists i).isEmpty = (A i).isEmpty
  /-- iteration: position `k` shows element `k`, and null after the last -/
  iterate : ∀ i k, k ≤ (A i).length → (iterAt s.nx i (s.lists i) k).curr = (A i)[k]?

structure Inv (s : Sys N) (A : Nat → List N) : Prop where
  rep : ∀ i, Rep s.nx (s.lists i) (A i)
  disj : ∀ i j, i ≠ j → ∀ x ∈ A i, x ∉ A j

theorem observes_of_inv {s : Sys N} {A} (h : Inv s A) : Observes s A where
  size i := (h.rep i).size
  empty i := by simp only [SList.isEmpty, (h.rep i).size]; cases A i <;> simp
  head i := by
    simp only [SList.getHead, SList.isEmpty, (h.rep i).size, (h.rep i).head]
    cases A i <;> simp
  iterate i k hk := by
    rw [iterAt_spec (h.rep i) i k hk]
    simp [List.head?_drop]

private theorem upd2_inv {s : Sys N} {A : Nat → List N} {nx' : N → Option N} {i : Nat} {li : SList N} {l' : List N}
    (h : Inv s A) (hr : Rep nx' li l') (hsub : ∀ x ∈ l', ∀ j, j ≠ i → x ∉ A j)
    (hf : ∀ j, j ≠ i → ∀ z ∈ A j, nx' z = s.nx z) : Inv ⟨nx', upd s.lists i li⟩ (upd A i l') := by
  constructor
  · intro j
    by_cases hj : j = i
    · subst hj; simpa using hr
    · simp only [upd_ne _ _ hj]; exact rep_congr (h.rep j) (hf j hj)
  · intro a b hab x hx
    by_cases ha : a = i <;> by_cases hb : b = i
    · subst ha; subst hb; exact absurd rfl hab
    · subst ha; rw [upd_same] at hx; rw [upd_ne _ _ hb]; exact hsub x hx b hb
    · subst hb; rw [upd_ne _ _ ha] at hx; rw [upd_same]; exact fun e => hsub x e a ha hx
    · rw [upd_ne _ _ ha] at hx; rw [upd_ne _ _ hb]; exact h.disj a b hab x hx

/-- One step of the code matches one step of the specification, including the errors. -/
theorem step_refines {s : Sys N} {A : Nat → List N} (h : Inv s A) (op : Op N) (hl : Legal A op) :
    (∀ e, specStep A op = .error e → step s op = .error e) ∧
    (∀ A', specStep A op = .ok A' → ∃ s', step s op = .ok s' ∧ Inv s' A') := by
  cases op with
  | insert i x =>
    refine ⟨fun e he => by simp [specStep] at he, fun A' hA => ?_⟩
    simp only [specStep, Except.ok.injEq] at hA; subst hA
    refine ⟨_, rfl, upd2_inv h (insert_rep (h.rep i) (hl i)) ?_ ?_⟩
    · intro y hy j hj
      rcases List.mem_cons.mp hy with rfl | hy
      · exact hl j
      · exact h.disj i j (Ne.symm hj) y hy
    · intro j _ z hz; exact upd_ne _ _ (by rintro rfl; exact hl j hz)
  | pop i =>
    cases hA : A i with
    | nil =>
      refine ⟨fun e he => ?_, fun A' he => by simp [specStep, hA] at he⟩
      simp only [specStep, hA, Except.error.injEq] at he; subst he
      have : (s.lists i).isEmpty = true := by simp [SList.isEmpty, (h.rep i).size, hA]
      simp [step, pop, this]
    | cons x l =>
      refine ⟨fun e he => by simp [specStep, hA] at he, fun A' he => ?_⟩
      simp only [specStep, hA, Except.ok.injEq] at he; subst he
      obtain ⟨s', hp, hr⟩ := pop_rep (hA ▸ h.rep i)
      refine ⟨_, by simp only [step, hp], upd2_inv h hr ?_ ?_⟩
      · intro y hy j hj; exact h.disj i j (Ne.symm hj) y (by rw [hA]; simp [hy])
      · intro j hj z hz; exact upd_ne _ _ (by rintro rfl; exact h.disj j i hj z hz (by rw [hA]; simp))
  | removeAt i k =>
    have hk : k ≤ (A i).length := hl
    by_cases hlt : k < (A i).length
    · refine ⟨fun e he => by simp [specStep, hlt] at he, fun A' he => ?_⟩
      simp only [specStep, hlt, if_true, Except.ok.injEq] at he; subst he
      have hsplit : A i = (A i).take k ++ (A i)[k] :: (A i).drop (k + 1) := by
        rw [← List.drop_eq_getElem_cons hlt, List.take_append_drop]
      have hit := iterAt_spec (h.rep i) i k hk
      rw [List.drop_eq_getElem_cons hlt, List.head?_cons] at hit
      obtain ⟨nx', s', hrm, hr, _, hf⟩ := remove_rep (self := i) (hsplit ▸ h.rep i)
      have herase : (A i).eraseIdx k = (A i).take k ++ (A i).drop (k + 1) := List.eraseIdx_eq_take_drop_succ _ _
      refine ⟨⟨nx', upd s.lists i s'⟩, by simp only [step, hit, hrm], ?_⟩
      rw [herase]
      refine upd2_inv h hr ?_ ?_
      · intro y hy j hj
        refine h.disj i j (Ne.symm hj) y ?_
        rcases List.mem_append.mp hy with hy | hy
        · exact List.mem_of_mem_take hy
        · exact List.mem_of_mem_drop hy
      · intro j hj z hz
        refine hf z ?_
        rw [← hsplit]; exact h.disj j i hj z hz
    · refine ⟨fun e he => ?_, fun A' he => by simp [specStep, hlt] at he⟩
      simp only [specStep, hlt, if_false, Except.error.injEq] at he; subst he
      have hit := iterAt_spec (h.rep i) i k hk
      have : (A i).drop k = [] := List.drop_eq_nil_of_le (by omega)
      rw [this] at hit
      simp [step, hit, remove]
  | splice i j =>
    have hij : i ≠ j := hl
    refine ⟨fun e he => by simp [specStep] at he, fun A' he => ?_⟩
    simp only [specStep, Except.ok.injEq] at he; subst he
    obtain ⟨nx', s', o', hs, hr, ho, hf⟩ := splice_rep (h.rep i) (h.rep j) (h.disj j i (Ne.symm hij))
    refine ⟨⟨nx', upd (upd s.lists i s') j o'⟩, by simp only [step, hs], ?_, ?_⟩
    · intro a
      by_cases haj : a = j
      · subst haj; simpa using ho
      · simp only [upd_ne _ _ haj]
        by_cases hai : a = i
        · subst hai; simpa using hr
        · simp only [upd_ne _ _ hai]
          exact rep_congr (h.rep a) (fun x hx => hf x (h.disj a j haj x hx))
    · intro a b hab x hx
      by_cases haj : a = j
      · subst haj; simp at hx
      by_cases hbj : b = j
      · subst hbj; simp
      rw [upd_ne _ _ haj] at hx; rw [upd_ne _ _ hbj]
      by_cases hai : a = i <;> by_cases hbi : b = i
      · subst hai; subst hbi; exact absurd rfl hab
      · subst hai; rw [upd_same] at hx; rw [upd_ne _ _ hbi]
        rcases List.mem_append.mp hx with hx | hx
        · exact h.disj j b (Ne.symm hbj) x hx
        · exact h.disj a b hab x hx
      · subst hbi; rw [upd_ne _ _ hai] at hx; rw [upd_same]
        intro e
        rcases List.mem_append.mp e with e | e
        · exact h.disj a j haj x hx e
        · exact h.disj a b hab x hx e
      · rw [upd_ne _ _ hai] at hx; rw [upd_ne _ _ hbi]; exact h.disj a b hab x hx
  | moveAssign i j =>
    have hij : i ≠ j := hl
    refine ⟨fun e he => by simp [specStep] at he, fun A' he => ?_⟩
    simp only [specStep, Except.ok.injEq] at he; subst he
    refine ⟨_, rfl, ?_, ?_⟩
    · intro a
      by_cases haj : a = j
      · subst haj; simpa [moveAssign] using (⟨by simp, by simp, rfl, rfl, rfl⟩ : Rep s.nx ⟨0, none, none⟩ [])
      · simp only [upd_ne _ _ haj]
        by_cases hai : a = i
        · subst hai; simpa [moveAssign] using h.rep j
        · simp only [upd_ne _ _ hai]; exact h.rep a
    · intro a b hab x hx
      by_cases haj : a = j
      · subst haj; simp at hx
      by_cases hbj : b = j
      · subst hbj; simp
      rw [upd_ne _ _ haj] at hx; rw [upd_ne _ _ hbj]
      by_cases hai : a = i <;> by_cases hbi : b = i
      · subst hai; subst hbi; exact absurd rfl hab
      · subst hai; rw [upd_same] at hx; rw [upd_ne _ _ hbi]; exact h.disj j b (Ne.symm hbj) x hx
      · subst hbi; rw [upd_ne _ _ hai] at hx; rw [upd_same]; exact h.disj a j haj x hx
      · rw [upd_ne _ _ hai] at hx; rw [upd_ne _ _ hbi]; exact h.disj a b hab x hx
  | saveRestore i old =>
    refine ⟨fun e he => by simp [specStep] at he, fun A' he => ?_⟩
    simp only [specStep, Except.ok.injEq] at he; subst he
    have r := h.rep i
    have key : ∀ t, t = (A i).getLast? → checkStateOrThrow (⟨(s.lists i).size, (s.lists i).head, t⟩ : SList N) = .ok () :=
      fun t ht => check_ok r.head ht r.size
    have hres : restore s.nx (if old then ((s.lists i).head, none, (s.lists i).size) else saveState (s.lists i))
        = .ok (s.lists i) := by
      cases old
      · simp only [Bool.false_eq_true, if_false, saveState, restore]
        rw [key _ r.tail]
      · simp only [if_true, restore]
        cases hA : A i with
        | nil =>
          have hh : (s.lists i).head = none := by rw [r.head, hA]; rfl
          have ht : (s.lists i).tail = none := by rw [r.tail, hA]; rfl
          have := key _ r.tail
          rw [ht, hh] at this
          simp only [hh, this]
          congr 1
          calc (⟨(s.lists i).size, none, none⟩ : SList N) = ⟨(s.lists i).size, (s.lists i).head, (s.lists i).tail⟩ := by rw [hh, ht]
            _ = s.lists i := rfl
        | cons x l =>
          have hh : (s.lists i).head = some x := by rw [r.head, hA]; rfl
          have hlast : some (lastOf s.nx (s.lists i).size x) = (s.lists i).tail := by
            rw [r.tail, r.size, hA]; exact lastOf_chain (hA ▸ r.next) _ (by simp)
          have := key _ r.tail
          rw [← hlast, hh] at this
          simp only [hh, this]
          rw [← hh, hlast]
    refine ⟨⟨s.nx, upd s.lists i (s.lists i)⟩, ?_, ?_⟩
    · have e : step s (.saveRestore i old) = (match restore s.nx (if old then ((s.lists i).head, none, (s.lists i).size) else saveState (s.lists i)) with
        | .error e => .error e
        | .ok l => .ok ⟨s.nx, upd s.lists i l⟩) := rfl
      rw [e, hres]
    · rw [upd_self]; exact h

/-- Run a history; an exception leaves the state unchanged (strong guarantee, checked below) and the run continues. -/
def run (s : Sys N) : List (Op N) → Sys N
  | [] => s
  | op :: ops => match step s op with | .error _ => run s ops | .ok s' => run s' ops
def specRun (A : Nat → List N) : List (Op N) → (Nat → List N)
  | [] => A
  | op :: ops => match specStep A op with | .error _ => specRun A ops | .ok A' => specRun A' ops
def LegalRun (A : Nat → List N) : List (Op N) → Prop
  | [] => True
  | op :: ops => Legal A op ∧ match specStep A op with | .error _ => LegalRun A ops | .ok A' => LegalRun A' ops

theorem run_inv {s : Sys N} {A} (h : Inv s A) (ops : List (Op N)) (hl : LegalRun A ops) : Inv (run s ops) (specRun A ops) := by
  induction ops generalizing s A with
  | nil => exact h
  | cons op ops ih =>
    have ⟨he, ho⟩ := step_refines h op hl.1
    have h2 := hl.2
    cases hs : specStep A op with
    | error e =>
      rw [hs] at h2
      simp only [run, specRun, hs, he e hs]; exact ih h h2
    | ok A' =>
      obtain ⟨s', e1, h1⟩ := ho A' hs
      rw [hs] at h2
      simp only [run, specRun, hs, e1]; exact ih h1 h2

/-- All lists empty, hooks arbitrary. -/
def Sys.init (nx : N → Option N) : Sys N := ⟨nx, fun _ => SList.new⟩

omit [DecidableEq N] in
theorem inv_init (nx : N → Option N) : Inv (Sys.init nx) (fun _ => []) :=
  ⟨fun _ => rep_new nx, fun _ _ _ x hx => by simp at hx⟩

/-- C06 (a): after any legal history over any number of lists, every observation agrees with the abstract sequences. -/
theorem slist_refines (nx : N → Option N) (ops : List (Op N)) (hl : LegalRun (fun _ => []) ops) :
    Observes (run (Sys.init nx) ops) (specRun (fun _ => []) ops) :=
  observes_of_inv (run_inv (inv_init nx) ops hl)

/-- C06 (b): at any reachable state the next operation raises exactly the error of the specification (pop of an empty
list, removal at the end) and otherwise succeeds: no corrupt-state exception and no null dereference ever occurs. -/
theorem slist_errors_exact (nx : N → Option N) (ops : List (Op N)) (hl : LegalRun (fun _ => []) ops) (op : Op N)
    (hop : Legal (specRun (fun _ => []) ops) op) (e : Err) :
    step (run (Sys.init nx) ops) op = .error e ↔ specStep (specRun (fun _ => []) ops) op = .error e := by
  have ⟨he, ho⟩ := step_refines (run_inv (inv_init nx) ops hl) op hop
  constructor
  · intro h
    cases hs : specStep (specRun (fun _ => []) ops) op with
    | error e' => rw [he e' hs] at h; injection h with h; rw [h]
    | ok A' => obtain ⟨s', h1, _⟩ := ho A' hs; rw [h1] at h; cases h
  · exact he e

/-- C06 (c): an iterator of another list is rejected. -/
theorem foreign_iterator_rejected (nx : N → Option N) (s : SList N) (self : Nat) (it : Iter N) (h : it.list ≠ self) :
    remove nx self s it = .error .wrongList := by simp [remove, h]

/-- C06 (d): the iterator returned by `remove` stands on the element that followed the removed one, so a
remove-while-iterating loop visits every remaining element. -/
theorem remove_returns_next (nx : N → Option N) (ops : List (Op N)) (hl : LegalRun (fun _ => []) ops) (i k : Nat)
    (hk : k < (specRun (fun _ => []) ops i).length) :
    let s := run (Sys.init nx) ops
    ∃ nx' s' it', remove s.nx i (s.lists i) (iterAt s.nx i (s.lists i) k) = .ok (nx', s', it') ∧
      it'.curr = (iterAt nx' i s' k).curr ∧ it'.prev = (iterAt nx' i s' k).prev ∧
      it'.curr = (specRun (fun _ => []) ops i)[k + 1]? := by
  intro s
  have h := run_inv (inv_init nx) ops hl
  generalize hA : specRun (fun _ => []) ops i = l at hk
  have r : Rep s.nx (s.lists i) l := hA ▸ h.rep i
  have hit := iterAt_spec r i k (by omega)
  rw [List.drop_eq_getElem_cons hk, List.head?_cons] at hit
  have hsplit : l = l.take k ++ l[k] :: l.drop (k + 1) := by
    rw [← List.drop_eq_getElem_cons hk, List.take_append_drop]
  obtain ⟨nx', s', hrm, hr, _, _⟩ := remove_rep (self := i) (hsplit ▸ r)
  refine ⟨nx', s', _, by rw [hit, hrm], ?_, ?_, ?_⟩
  · rw [iterAt_spec hr i k (by simp; omega)]
    simp [List.drop_append, List.length_take, Nat.min_eq_left (Nat.le_of_lt hk)]
  · rw [iterAt_spec hr i k (by simp; omega)]
    simp [List.take_append, List.length_take, Nat.min_eq_left (Nat.le_of_lt hk)]
  · simp [List.head?_drop]

/-- A history that uses every operation, with an error in the middle. -/
example : LegalRun (fun _ => ([] : List Nat))
      [.insert 0 1, .insert 0 2, .insert 1 5, .pop 2, .splice 0 1, .removeAt 0 2, .saveRestore 0 true, .moveAssign 1 0, .pop 1] ∧
    specRun (fun _ => ([] : List Nat))
      [.insert 0 1, .insert 0 2, .insert 1 5, .pop 2, .splice 0 1, .removeAt 0 2, .saveRestore 0 true, .moveAssign 1 0, .pop 1] 1
      = [2] := by
  constructor
  · simp [LegalRun, Legal, specStep, upd]
    intro i; split <;> simp_all
  · decide

end Verif.SList
