import Verif.Worker.Inv2

namespace Verif.Worker

/-- all cases of a step, with what the helpers of the model do unfolded -/
macro "step_cases " h:ident " with " t:tacticSeq : tactic => `(tactic| (
  cases $h:ident with
  | stop s' i' j f hi hs ht hn => cases hn <;> ($t)
  | begin s' j o hj he =>
    unfold Sys.loopTest at he
    split at he <;> cases he <;> ($t)
  | noSleep s' j o hj hp he =>
    unfold Sys.waited Sys.loopTest at he
    split at he <;> cases he <;> ($t)
  | woken s' j o hj hp he =>
    unfold Sys.waited Sys.loopTest at he
    split at he <;> cases he <;> ($t)
  | timeout s' j n o hj he =>
    unfold Sys.waited Sys.loopTest at he
    split at he <;> cases he <;> ($t)
  | exit s' j hj hn => cases hn <;> ($t)
  | wakeRet s' i' hi hn => cases hn <;> ($t)
  | _ => ($t)))

def isCall (i : Nat) : Option Obs → Bool
  | some (.stopCall i' _) => i' == i
  | _ => false

theorem isCall_iff {i : Nat} {o : Option Obs} : isCall i o = true ↔ ∃ f, o = some (.stopCall i f) := by
  cases o with
  | none => simp [isCall]
  | some x => cases x <;> simp [isCall]

def C.won : C → Bool
  | .joining _ | .returning true => true
  | _ => false

set_option maxHeartbeats 1000000

theorem pend_step' {s s' : Sys} {b : By} {o : Option Obs} {i : Nat} (h : Step s b o s') (hp : (s'.c i).pending = true) :
    isCall i o = true ∨ ((s.c i).pending = true ∧ ∀ b, o ≠ some (.stopRet i b)) := by
  step_cases h with
    (try simp only [upd] at hp) <;> grind [C.pending, isCall]

theorem pend_step {s s' : Sys} {b : By} {o : Option Obs} {i : Nat} (h : Step s b o s') (hp : (s'.c i).pending = true) :
    (∃ f, o = some (.stopCall i f)) ∨ ((s.c i).pending = true ∧ ∀ b, o ≠ some (.stopRet i b)) := by
  rw [← isCall_iff]; exact pend_step' h hp

theorem step_thread {s s' : Sys} {b : By} {o : Option Obs} (h : Step s b o s') :
    s'.thread = s.thread ∨ s'.thread = none ∨ ∃ j, o = some (.started j) := by
  step_cases h with simp

theorem not_gone_step {s s' : Sys} {b : By} {o : Option Obs} {j : Nat} (h : Step s b o s') (hg : ¬ (s'.w j).gone) :
    o = some (.started j) ∨ ¬ (s.w j).gone := by
  step_cases h with
    (try simp only [upd] at hg) <;> grind [W.gone]

theorem not_done_step {s s' : Sys} {b : By} {o : Option Obs} {j : Nat} (h : Step s b o s') (hg : s'.w j ≠ .done) :
    o = some (.started j) ∨ s.w j ≠ .done := by
  step_cases h with
    (try simp only [upd] at hg) <;> grind

theorem won_step {s s' : Sys} {b : By} {o : Option Obs} {i : Nat} (h : Step s b o s') (hw : (s'.c i).won = true) :
    s'.thread = none ∨ ((s.c i).won = true ∧ isCall i o = false) := by
  step_cases h with
    (try simp only [upd] at hw) <;> grind [C.won, isCall]

theorem step_work {s s' : Sys} {b : By} {o : Option Obs} {j : Nat} (hi : Inv s) (h : Step s b o s') :
    (o = some (.workBegin j) → ¬ (s.w j).gone ∧ s.w j ≠ .working ∧ s'.w j = .working) ∧
    (o = some (.workEnd j) → s.w j = .working) ∧
    (s.w j = .working → s'.w j = .working ∨ o = some (.workEnd j)) := by
  have hf := hi.fresh
  step_cases h with
    (try simp only [upd]) <;> grind [W.gone]

theorem not_gone_thread {s : Sys} (hi : Inv s) {j : Nat} (h : ¬ (s.w j).gone) : s.thread = some j :=
  Classical.byContradiction fun hn => h (hi.old j hn)

/-- a thread that has not ended, but is not the worker any more, is being joined -/
def K (s : Sys) : Prop := ∀ j, s.w j ≠ .done → s.thread ≠ some j → ∃ i, s.c i = .joining j

theorem K.step {s s' : Sys} {b : By} {o : Option Obs} (hi : Inv s) (hk : K s) (h : Step s b o s') : K s' := by
  intro j hd ht
  have keep : (s.w j ≠ .done ∧ s.thread ≠ some j) ∨ ∃ i, s'.c i = .joining j := by
    cases h with
    | stopTake i j' f hi hp ht' =>
      by_cases e : j = j'
      · exact .inr ⟨i, by simp only; rw [upd_same, e]⟩
      · exact .inl ⟨hd, by rw [ht']; simp; omega⟩
    | start i hi' ht' =>
      refine .inl ⟨?_, by rw [ht']; simp⟩
      simp only at ht hd
      have : j ≠ s.next := fun e => ht (by rw [e])
      rwa [upd_ne _ _ this] at hd
    | stop s' i' j f hi hs ht hn => left; cases hn <;> simp only [upd] at hd ht <;> grind
    | begin s' j o hj he =>
      left
      unfold Sys.loopTest at he
      split at he <;> cases he <;> simp only [upd] at hd ht <;> grind
    | noSleep s' j o hj hp he =>
      left
      unfold Sys.waited Sys.loopTest at he
      split at he <;> cases he <;> simp only [upd] at hd ht <;> grind
    | woken s' j o hj hp he =>
      left
      unfold Sys.waited Sys.loopTest at he
      split at he <;> cases he <;> simp only [upd] at hd ht <;> grind
    | timeout s' j n o hj he =>
      left
      unfold Sys.waited Sys.loopTest at he
      split at he <;> cases he <;> simp only [upd] at hd ht <;> grind
    | exit s' j hj hn => left; cases hn <;> simp only [upd] at hd ht <;> grind
    | wakeRet s' i' hi hn => left; cases hn <;> (try simp only [upd] at hd ht) <;> grind
    | _ => left; (try simp only [upd] at hd ht) <;> grind
  rcases keep with ⟨h1, h2⟩ | h1
  · obtain ⟨i, hci⟩ := hk j h1 h2
    refine ⟨i, ?_⟩
    have hdone : s.w j = .done → False := h1
    cases h with
    | join i' j' hi' hw =>
      have : i ≠ i' := by
        rintro rfl
        rw [hci] at hi'; injection hi' with e; subst e; exact h1 hw
      simp only; rw [upd_ne _ _ this]; exact hci
    | stop s' i' j f hi hs ht hn => cases hn <;> simp only [upd] <;> grind
    | begin s' j o hj he =>
      unfold Sys.loopTest at he
      split at he <;> cases he <;> exact hci
    | noSleep s' j o hj hp he =>
      unfold Sys.waited Sys.loopTest at he
      split at he <;> cases he <;> exact hci
    | woken s' j o hj hp he =>
      unfold Sys.waited Sys.loopTest at he
      split at he <;> cases he <;> exact hci
    | timeout s' j n o hj he =>
      unfold Sys.waited Sys.loopTest at he
      split at he <;> cases he <;> exact hci
    | exit s' j hj hn => cases hn <;> (try simp only [upd]) <;> grind
    | wakeRet s' i' hi hn => cases hn <;> (try simp only [upd]) <;> grind
    | _ => (try simp only [upd]) <;> grind
  · exact h1

/-- a call of `stop` that gave up leaves a worker that works on -/
def F (s : Sys) : Prop := ∀ i, s.c i = .returning false → s.stop = false ∧ ∃ j, s.thread = some j ∧ ¬ (s.w j).gone

theorem F.step {s s' : Sys} {b : By} {o : Option Obs} (hi : Inv s) (hi2 : Inv2 s) (hf : F s) (h : Step s b o s')
    (hser : ∀ i f, o = some (.stopCall i f) → ∀ i', (s.c i').pending = false) : F s' := by
  intro i hc
  have keep : (∃ j, s.stop = true ∧ s.thread = some j ∧ s'.thread = some j ∧ s'.stop = false ∧ s'.w = s.w) ∨
      s.c i = .returning false := by
    cases h with
    | stopTimeout i' n hi' hs =>
      by_cases e : i = i'
      · obtain ⟨j, hj⟩ := hi.stp i' (by simp [Sys.S, hi', C.isS])
        exact .inl ⟨j, hs, hj, hj, rfl, rfl⟩
      · right; simp only at hc; rwa [upd_ne _ _ e] at hc
    | stopBusy i' f hi' hs =>
      obtain ⟨k, hk⟩ := hi.stopT hs
      have := hser i' f rfl k
      rw [C.isS_pending hk] at this; cases this
    | stop s' i' j f hi hs ht hn => right; cases hn <;> simp only [upd] at hc <;> grind
    | begin s' j o hj he =>
      right
      unfold Sys.loopTest at he
      split at he <;> cases he <;> exact hc
    | noSleep s' j o hj hp he =>
      right
      unfold Sys.waited Sys.loopTest at he
      split at he <;> cases he <;> exact hc
    | woken s' j o hj hp he =>
      right
      unfold Sys.waited Sys.loopTest at he
      split at he <;> cases he <;> exact hc
    | timeout s' j n o hj he =>
      right
      unfold Sys.waited Sys.loopTest at he
      split at he <;> cases he <;> exact hc
    | exit s' j hj hn => right; cases hn <;> (try simp only [upd] at hc) <;> grind
    | wakeRet s' i' hi hn => right; cases hn <;> (try simp only [upd] at hc) <;> grind
    | _ => right; (try simp only [upd] at hc) <;> grind
  rcases keep with ⟨j, h1, h2, h3, h4, h5⟩ | h1
  · exact ⟨h4, j, h3, by rw [h5]; exact hi2.alv h1 j h2⟩
  · obtain ⟨h2, j, h3, h4⟩ := hf i h1
    have hone : ∀ k, (s.c k).pending = true → k = i := fun k hk => hi2.one k i hk (by rw [h1]; rfl)
    have hth : s'.thread = some j ∧ s'.stop = false ∧ ¬ (s'.w j).gone := by
      cases h with
      | stop s' i' j f hi hs ht hn => have := hser i' f rfl i; rw [h1] at this; cases this
      | stopTake i' j' f hi hp ht => have := hone i' (by rw [hi]; rfl); subst this; rw [hi] at h1; cases h1
      | begin s' j o hj he =>
        unfold Sys.loopTest at he
        split at he <;> cases he <;> simp only [upd] <;> grind [W.gone]
      | noSleep s' j o hj hp he =>
        unfold Sys.waited Sys.loopTest at he
        split at he <;> cases he <;> simp only [upd] <;> grind [W.gone]
      | woken s' j o hj hp he =>
        unfold Sys.waited Sys.loopTest at he
        split at he <;> cases he <;> simp only [upd] <;> grind [W.gone]
      | timeout s' j n o hj he =>
        unfold Sys.waited Sys.loopTest at he
        split at he <;> cases he <;> simp only [upd] <;> grind [W.gone]
      | exit s' j hj hn => cases hn <;> (try simp only [upd]) <;> grind [W.gone]
      | wakeRet s' i' hi hn => cases hn <;> (try simp only [upd]) <;> grind [W.gone]
      | _ => (try simp only [upd]) <;> grind [W.gone]
    exact ⟨hth.2.1, j, hth.1, hth.2.2⟩

end Verif.Worker
