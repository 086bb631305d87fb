/-
The limit on outstanding operations of an AsyncIoContext (navy/common/Device.cpp:238-303, 849-930).  All fibers that use a context
and the handler of completions run on one thread, so that what happens between two waits is one step.
-/
namespace Verif.NavyDevice.Queue

/-- numOutstanding_, waitList_ (284-297), and the fibers whose baton was posted and that have not run since.  `stuck`: the handler
of completions waits, and with it the thread. -/
structure Q where
  depth : Nat
  outstanding : Nat := 0
  waiting : List Nat := []
  posted : List Nat := []
  stuck : Bool := false
deriving DecidableEq, Repr

/-- AsyncIoContext::submitIo called by fiber `f`, from the test of its loop (899-930). -/
def Q.submit (q : Q) (f : Nat) : Q :=
  if q.outstanding ≥ q.depth then { q with waiting := q.waiting ++ [f] } else { q with outstanding := q.outstanding + 1 }

/-- One completed operation in handleCompletion (856-896); `again`: it is submitted again (869-875). -/
def Q.complete (q : Q) (again : Bool) : Option Q :=
  if q.outstanding = 0 then none
  else
    let q := { q with outstanding := q.outstanding - 1 }
    if again then
      some (if q.outstanding ≥ q.depth then { q with stuck := true } else { q with outstanding := q.outstanding + 1 })
    else
      match q.waiting with
      | [] => some q
      | f :: l => some { q with waiting := l, posted := q.posted ++ [f] }

/-- A fiber that was posted runs: it goes on with the test of the loop (902-911). -/
def Q.resume (q : Q) (f : Nat) : Option Q :=
  if f ∈ q.posted then some (({ q with posted := q.posted.erase f } : Q).submit f) else none

inductive Reach (depth : Nat) : Q → Prop
  | init : Reach depth { depth }
  | submit {q : Q} (f : Nat) (h : Reach depth q) : Reach depth (q.submit f)
  | complete {q q' : Q} (again : Bool) (h : Reach depth q) (he : q.complete again = some q') : Reach depth q'
  | resume {q q' : Q} (f : Nat) (h : Reach depth q) (he : q.resume f = some q') : Reach depth q'

structure Inv (depth : Nat) (q : Q) : Prop where
  dep : q.depth = depth
  le : q.outstanding ≤ depth
  wake : q.waiting ≠ [] → depth ≤ q.outstanding + q.posted.length
  free : q.stuck = false

theorem Inv.submit {depth : Nat} {q : Q} (h : Inv depth q) (f : Nat) : Inv depth (q.submit f) := by
  obtain ⟨h1, h2, h3, h4⟩ := h
  unfold Q.submit
  split
  · exact ⟨h1, h2, fun _ => by dsimp only; omega, h4⟩
  · refine ⟨h1, by dsimp only; omega, fun hw => ?_, h4⟩
    have := h3 hw
    dsimp only; omega

theorem Reach.inv {depth : Nat} {q : Q} (h : Reach depth q) : Inv depth q := by
  induction h with
  | init => exact ⟨rfl, Nat.zero_le _, fun h => absurd rfl h, rfl⟩
  | submit f _ ih => exact ih.submit f
  | @complete q q' again _ he ih =>
    obtain ⟨h1, h2, h3, h4⟩ := ih
    unfold Q.complete at he
    split at he
    · cases he
    · dsimp only at he
      split at he
      · injection he with he; subst he
        split
        · omega
        · exact ⟨h1, by dsimp only; omega, fun hw => by have := h3 hw; dsimp only; omega, h4⟩
      · split at he
        · rename_i hw
          injection he with he; subst he
          exact ⟨h1, by dsimp only; omega, fun h => absurd hw h, h4⟩
        · rename_i f l hw
          injection he with he; subst he
          have := h3 (by rw [hw]; exact List.cons_ne_nil _ _)
          refine ⟨h1, by dsimp only; omega, fun _ => ?_, h4⟩
          dsimp only; rw [List.length_append, List.length_singleton]; omega
  | @resume q q' f _ he ih =>
    obtain ⟨h1, h2, h3, h4⟩ := ih
    unfold Q.resume at he
    split at he
    · rename_i hf
      injection he with he; subst he
      unfold Q.submit
      split
      · exact ⟨h1, h2, fun _ => by dsimp only at *; omega, h4⟩
      · refine ⟨h1, by dsimp only at *; omega, fun hw => ?_, h4⟩
        have := h3 hw
        have hl := List.length_erase_of_mem hf
        have hp := List.length_pos_of_mem hf
        dsimp only; rw [hl]; omega
    · cases he

/-- **C51.** No more operations are outstanding than the queue depth. -/
theorem depth_kept {depth : Nat} {q : Q} (h : Reach depth q) : q.outstanding ≤ depth := h.inv.le

/-- **C51.** A fiber that waits is not forgotten: an operation is outstanding, whose completion wakes one up, or a fiber that was
woken up has yet to run. -/
theorem no_lost_wakeup {depth : Nat} (hd : 0 < depth) {q : Q} (h : Reach depth q) (hw : q.waiting ≠ []) :
    0 < q.outstanding ∨ q.posted ≠ [] := by
  have := h.inv.wake hw
  cases hp : q.posted with
  | nil => left; rw [hp] at this; simp at this; omega
  | cons a l => exact Or.inr (List.cons_ne_nil _ _)

/-- **C51.** Submitting an operation again does not make the handler of completions wait. -/
theorem handler_never_waits {depth : Nat} {q : Q} (h : Reach depth q) : q.stuck = false := h.inv.free

/-- Two operations at a time, three fibers: the third one waits, is woken up, but a fourth one comes first. -/
example : ∃ q, Reach 2 q ∧ q.waiting = [3] ∧ q.outstanding = 2 ∧ q.posted = [] := by
  have h0 : Reach 2 { depth := 2 } := .init
  have h1 := ((h0.submit 1).submit 2).submit 3
  have h2 := Reach.complete false h1 rfl
  have h3 := h2.submit 4
  have h4 := Reach.resume 3 h3 rfl
  exact ⟨_, h4, by decide, by decide, by decide⟩

end Verif.NavyDevice.Queue
