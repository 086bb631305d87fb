import Verif.Worker.Props
/-! # Concrete executions of C58, and what goes wrong when calls of `stop` overlap -/

namespace Verif.Worker
open Spec

theorem Run.by {tr tr' : List Obs} {s s' : Sys} (r : Run tr s) {b : By} {o : Option Obs} (h : Step s b o s')
    (he : tr' = o.toList ++ tr) : Run tr' s' := he ▸ Run.step _ _ _ _ _ r h

/-- start, work, sleep, a wake-up -/
theorem run_w1 : ∃ s, Run [.wakeRet 1, .wakeCall 1, .workEnd 0, .workBegin 0, .started 0] s ∧ s.wake = true ∧ s.stop = false ∧
    s.thread = some 0 ∧ s.next = 1 ∧ s.w = upd (fun _ => .done) 0 (.waiting true) ∧ s.c = fun _ => .idle := by
  have r1 := Run.init.by (.start {} 0 rfl rfl) (tr' := [.started 0]) rfl
  have r2 := r1.by (.begin _ _ 0 _ rfl rfl) (tr' := [.workBegin 0, .started 0]) rfl
  have r3 := r2.by (.worked _ 0 rfl) (tr' := [.workEnd 0, .workBegin 0, .started 0]) rfl
  have r4 := r3.by (.sleep _ 0 rfl rfl) rfl
  have r5 := r4.by (.wakeUp _ 1 rfl) (tr' := [.wakeCall 1, .workEnd 0, .workBegin 0, .started 0]) rfl
  have r6 := r5.by (.wakeRet _ _ 1 rfl (.worker 0 rfl)) (tr' := [.wakeRet 1, .wakeCall 1, .workEnd 0, .workBegin 0, .started 0]) rfl
  refine ⟨_, r6, rfl, rfl, rfl, rfl, ?_, ?_⟩
  · funext j; simp only [upd]; split <;> rfl
  · funext j; simp only [upd]; split <;> rfl

/-- the hypotheses of `wake_not_lost` are met: the worker slept and begins to work -/
example : ∃ s, Run [.wakeRet 1, .wakeCall 1, .workEnd 0, .workBegin 0, .started 0] s ∧
    ∀ o s', Step s (.worker 0) o s' → o = some (.workBegin 0) := by
  obtain ⟨s, r, h1, h2, h3, h4, h5, h6⟩ := run_w1
  refine ⟨s, r, fun o s' h => ?_⟩
  rcases (wake_not_lost r (q := [.wakeRet 1]) (p := [.workEnd 0, .workBegin 0, .started 0]) (i := 1) (j := 0) rfl (by simp)
    (by rw [h6]; simp) (by rw [h5]; simp [upd]) (by rw [h5]; simp [upd]) (by rw [h5]; simp [upd])).2 o s' h with h | ⟨h, -⟩
  · exact h
  · rw [h2] at h; cases h

/-- start, work, sleep, a wake-up, work, `stop` during the work, `stop` returns true -/
def tr2 : List Obs := [.stopRet 0 true, .workEnd 0, .stopCall 0 true, .workBegin 0, .wakeRet 1, .wakeCall 1, .workEnd 0,
  .workBegin 0, .started 0]

theorem run_tr2 : ∃ s, Run tr2 s ∧ s.thread = none := by
  obtain ⟨s, r, h1, h2, h3, h4, h5, h6⟩ := run_w1
  obtain ⟨st, wk, th, nx, w, c⟩ := s
  simp only at h1 h2 h3 h4 h5 h6
  subst h1 h2 h3 h4 h5 h6
  have r1 := r.by (.woken _ _ 0 _ rfl rfl rfl) rfl
  have r2 := r1.by (.stop _ _ 0 0 true rfl rfl rfl (.none (fun j => by simp only [upd]; split <;> simp) (fun i f => by simp))) rfl
  have r3 := r2.by (.worked _ 0 rfl) rfl
  have r4 := r3.by (.noSleep _ _ 0 _ rfl rfl rfl) rfl
  have r5 := r4.by (.exit _ _ 0 rfl (.caller 0 true rfl)) rfl
  have r6 := r5.by (.stopTake _ 0 0 true rfl rfl rfl) rfl
  have r7 := r6.by (.join _ 0 0 rfl rfl) rfl
  have r8 := r7.by (.stopRet _ 0 true rfl) rfl
  exact ⟨_, r8, rfl⟩

theorem serial_tr2 : Serial tr2 := by
  intro r i f p he q i' f' p' hq
  subst hq
  have : 2 ≤ tr2.countP (fun o => match o with | .stopCall _ _ => true | _ => false) := by
    rw [he]; simp [List.countP_append]; omega
  have h1 : tr2.countP (fun o => match o with | .stopCall _ _ => true | _ => false) = 1 := by decide
  omega

/-- `stopped_no_work`, `stopped_thread_ended` and `stop_forever_true` apply to it -/
example : ∃ s, Run tr2 s ∧ ∀ j, s.w j = .done := by
  obtain ⟨s, r, -⟩ := run_tr2
  exact ⟨s, r, fun j => stopped_thread_ended r serial_tr2 (a := []) (q := [.workEnd 0]) (i := 0) (f := true) rfl (by simp) (by simp)⟩

/-- Two overlapping calls `stop()`: the second one is made after the worker has answered the first, and before the first
has seen the answer. -/
theorem run_overlap (f : Bool) : ∃ s, Run [.stopCall 1 f, .stopCall 0 true, .started 0] s ∧ s.stop = true ∧ s.thread = some 0 ∧
    s.next = 1 ∧ s.w = (fun _ => .done) ∧ s.c = upd (upd (fun _ => .idle) 1 (.stopping f false)) 0 (.stopping true false) := by
  have r1 := Run.init.by (.start {} 0 rfl rfl) (tr' := [.started 0]) rfl
  have r2 := r1.by (.stop _ _ 0 0 true rfl rfl rfl (.none (fun j => by simp only [upd]; split <;> simp) (fun i f => by simp)))
    (tr' := [.stopCall 0 true, .started 0]) rfl
  have r3 := r2.by (.begin _ _ 0 _ rfl rfl) rfl
  have r4 := r3.by (.exit _ _ 0 rfl (.caller 0 true rfl)) rfl
  have r5 := r4.by (.stop _ _ 1 0 f rfl rfl rfl (.none (fun j => by simp only [upd]; repeat' split
                                                                    all_goals simp)
      (fun i f => by simp only [upd]; repeat' split
                     all_goals simp))) (tr' := [.stopCall 1 f, .stopCall 0 true, .started 0]) rfl
  have r6 := r5.by (.stopAgain _ 0 true rfl rfl) rfl
  refine ⟨_, r6, rfl, rfl, rfl, ?_, ?_⟩
  · funext j; simp only [upd]; repeat' split
    all_goals rfl
  · funext j; simp only [upd]; repeat' split
    all_goals first | rfl | simp_all

/-- Whatever happens from a state on. -/
inductive Reach (s : Sys) : Sys → Prop
  | refl : Reach s s
  | step (s' s'' : Sys) (b : By) (o : Option Obs) (r : Reach s s') (h : Step s' b o s'') : Reach s s''

def Stuck (s : Sys) : Prop := s.stop = true ∧ s.thread = some 0 ∧ (∀ j, s.w j = .done) ∧
  (∀ i, (s.c i).isS = true ↔ (i = 0 ∨ i = 1)) ∧ ∀ i n, s.c i ≠ .stopping false n

theorem Stuck.upd {s s' : Sys} (h : Stuck s) {i : Nat} {x : C} (h1 : s'.stop = s.stop) (h2 : s'.thread = s.thread)
    (h3 : s'.w = s.w) (hc : s'.c = upd s.c i x) (hS : x.isS = (s.c i).isS) (hf : ∀ n, x ≠ .stopping false n) : Stuck s' := by
  obtain ⟨g1, g2, g3, g4, g5⟩ := h
  refine ⟨h1.trans g1, h2.trans g2, by rw [h3]; exact g3, ?_, ?_⟩
  · intro k; rw [hc, S_keep hS]; exact g4 k
  · intro k n
    rw [hc]; unfold Worker.upd; split
    · exact hf n
    · exact g5 k n

theorem Stuck.step {s s' : Sys} {b : By} {o : Option Obs} (h : Stuck s) (hst : Step s b o s') : Stuck s' := by
  obtain ⟨h1, h2, h3, h4, h5⟩ := id h
  have tt : ∀ {f n i}, s.c i = .stopping f n → f = true := by
    intro f n i hi; cases f
    · exact absurd hi (h5 i n)
    · rfl
  cases hst with
  | wakeRet s' i hi hn =>
    cases hn with
    | worker j h => rw [h3 j] at h; cases h
    | caller i' f h' =>
      have := tt h'
      subst this
      have hne : i ≠ i' := by rintro rfl; rw [hi] at h'; cases h'
      have g : Stuck { s with c := Worker.upd s.c i' (.stopping true true) } := h.upd rfl rfl rfl rfl (by rw [h']; rfl) (by simp)
      exact g.upd rfl rfl rfl rfl (by simp only; rw [upd_ne _ _ hne, hi]; rfl) (by simp)
    | none _ _ => exact h.upd rfl rfl rfl rfl (by rw [hi]; rfl) (by simp)
  | startNop i hi => exact h
  | start i hi ht => rw [h2] at ht; cases ht
  | stopNone i f hi hs ht => rw [h1] at hs; cases hs
  | stop s' i j f hi hs ht hn => rw [h1] at hs; cases hs
  | stopTake i j f hi hp ht => simp [Sys.stopped, h1] at hp
  | stopTakeNone i f hi hp ht => simp [Sys.stopped, h1] at hp
  | stopTimeout i n hi hs => exact absurd hi (h5 i n)
  | «begin» s' j o hj he => rw [h3 j] at hj; cases hj
  | worked j hj => rw [h3 j] at hj; cases hj
  | sleep j hj hp => rw [h3 j] at hj; cases hj
  | noSleep s' j o hj hp he => rw [h3 j] at hj; cases hj
  | sleepAgain j hj hp => rw [h3 j] at hj; cases hj
  | woken s' j o hj hp he => rw [h3 j] at hj; cases hj
  | spurious j hj => rw [h3 j] at hj; cases hj
  | timeout s' j n o hj he => rw [h3 j] at hj; cases hj
  | exit s' j hj hn => rw [h3 j] at hj; cases hj
  | stopAgain i f hi hp => have := tt hi; subst this; exact h.upd rfl rfl rfl rfl (by rw [hi]; rfl) (by simp)
  | stopSpurious i f hi => have := tt hi; subst this; exact h.upd rfl rfl rfl rfl (by rw [hi]; rfl) (by simp)
  | stopBusy i f hi hs => exact h.upd rfl rfl rfl rfl (by rw [hi]; rfl) (by simp)
  | join i j hi hw => exact h.upd rfl rfl rfl rfl (by rw [hi]; rfl) (by simp)
  | stopRet i b hi => exact h.upd rfl rfl rfl rfl (by rw [hi]; rfl) (by simp)
  | wakeUp i hi => exact h.upd rfl rfl rfl rfl (by rw [hi]; rfl) (by simp)

/-- Two overlapping calls of `stop()` can both wait for ever, whatever happens, although the worker has ended: the second
call sets `shouldStopWork_` again when there is no worker left to reset it. -/
theorem violated_overlapping_stop_hangs : ∃ s, Run [.stopCall 1 true, .stopCall 0 true, .started 0] s ∧
    (∀ j, s.w j = .done) ∧ ∀ s', Reach s s' → (∃ f n, s'.c 0 = .stopping f n) ∧ ∃ f n, s'.c 1 = .stopping f n := by
  obtain ⟨s, r, h1, h2, h3, h4, h5⟩ := run_overlap true
  refine ⟨s, r, fun j => by rw [h4], fun s' hr => ?_⟩
  have : Stuck s' := by
    induction hr with
    | refl =>
      refine ⟨h1, h2, fun j => by rw [h4], fun i => ?_, fun i n => ?_⟩
      · rw [h5]; simp only [upd]; repeat' split
        all_goals simp [C.isS] <;> omega
      · rw [h5]; simp only [upd]; repeat' split
        all_goals simp
    | step s' s'' b o r h ih => exact ih.step h
  exact ⟨C.isS_iff.mp ((this.2.2.2.1 0).mpr (.inl rfl)), C.isS_iff.mp ((this.2.2.2.1 1).mpr (.inr rfl))⟩

/-- With a time limit, the second call returns false, although the worker has ended; `start` then starts nothing, since
`workerThread_` is still joinable. -/
theorem violated_overlapping_stop_false : ∃ s, Run [.stopRet 1 false, .stopCall 1 false, .stopCall 0 true, .started 0] s ∧
    (∀ j, s.w j = .done) ∧ s.thread = some 0 ∧ ∀ i s' j, ¬ Step s (.caller i) (some (.started j)) s' := by
  obtain ⟨s, r, h1, h2, h3, h4, h5⟩ := run_overlap false
  obtain ⟨st, wk, th, nx, w, c⟩ := s
  simp only at h1 h2 h3 h4 h5
  subst h1 h2 h3 h4 h5
  have r1 := r.by (.stopTimeout _ 1 false rfl rfl) rfl
  have r2 := r1.by (.stopRet _ 1 false rfl) rfl
  refine ⟨_, r2, fun _ => rfl, rfl, ?_⟩
  intro i s' j h
  cases h with
  | start i hi ht => cases ht

end Verif.Worker
