import Verif.Worker.Inv3
/-! # C58: background workers stop when told to, work alone, and do not miss a wake-up

Traces have the newest observation first. -/

namespace Verif.Worker

namespace Spec

/-- Calls of `stop` do not overlap: when one is made, all earlier ones have returned. -/
def Serial (tr : List Obs) : Prop :=
  ∀ r i f p, tr = r ++ .stopCall i f :: p → ∀ q i' f' p', p = q ++ .stopCall i' f' :: p' → ∃ b, Obs.stopRet i' b ∈ q

/-- `q` is what happened since the latest call of `stop` by thread `i`, made with or without a time limit. -/
def SinceStop (tr : List Obs) (i : Nat) (forever : Bool) (q : List Obs) : Prop :=
  (∃ p, tr = q ++ .stopCall i forever :: p) ∧ ∀ f, Obs.stopCall i f ∉ q

/-- A call of `stop` by thread `i` has not returned. -/
def InStop (tr : List Obs) (i : Nat) : Prop := ∃ q f p, tr = q ++ .stopCall i f :: p ∧ ∀ b, Obs.stopRet i b ∉ q

end Spec
open Spec

theorem Spec.Serial.tail {o : Option Obs} {tr : List Obs} (h : Serial (o.toList ++ tr)) : Serial tr := by
  intro r i f p he
  exact h (o.toList ++ r) i f p (by rw [he, List.append_assoc])

theorem Run.inv {tr : List Obs} {s : Sys} (r : Run tr s) : Inv s := by
  induction r with
  | init => exact Inv.init
  | step tr s s' b o r h ih => exact ih.step h

theorem Run.k {tr : List Obs} {s : Sys} (r : Run tr s) : K s := by
  induction r with
  | init => intro j h; exact absurd rfl h
  | step tr s s' b o r h ih => exact ih.step r.inv h

theorem Run.pend {tr : List Obs} {s : Sys} (r : Run tr s) (i : Nat) : (s.c i).pending = true → InStop tr i := by
  induction r with
  | init => intro h; cases h
  | step tr s s' b o r h ih =>
    intro hp
    rcases pend_step h hp with ⟨f, rfl⟩ | ⟨h1, h2⟩
    · exact ⟨[], f, tr, rfl, by simp⟩
    · obtain ⟨q, f, p, he, hn⟩ := ih h1
      refine ⟨o.toList ++ q, f, p, by rw [he, List.append_assoc], fun b hb => ?_⟩
      rcases List.mem_append.mp hb with hb | hb
      · cases o with
        | none => cases hb
        | some x => simp at hb; exact h2 b (by rw [hb])
      · exact hn b hb

theorem call_pend {s s' : Sys} {b : By} {i : Nat} {f : Bool} (h : Step s b (some (.stopCall i f)) s') :
    (s'.c i).pending = true := by
  generalize ho : some (Obs.stopCall i f) = o at h
  step_cases h with
    (try simp only [upd]) <;> grind [C.pending]

theorem keep_pend {s s' : Sys} {b : By} {i : Nat} {o : Option Obs} (h : Step s b o s') (hp : (s.c i).pending = true)
    (hr : ∀ b, o ≠ some (.stopRet i b)) : (s'.c i).pending = true := by
  step_cases h with
    (try simp only [upd]) <;> grind [C.pending]

theorem Run.inStop {tr : List Obs} {s : Sys} (r : Run tr s) (i : Nat) : InStop tr i → (s.c i).pending = true := by
  induction r with
  | init => rintro ⟨q, f, p, h, -⟩; simp at h
  | step tr s s' b o r h ih =>
    rintro ⟨q, f, p, he, hn⟩
    cases o with
    | none => exact keep_pend h (ih ⟨q, f, p, he, hn⟩) (by simp)
    | some x =>
      cases q with
      | nil => simp at he; obtain ⟨rfl, rfl⟩ := he; exact call_pend h
      | cons y q =>
        simp at he
        obtain ⟨rfl, rfl⟩ := he
        exact keep_pend h (ih ⟨q, f, p, rfl, fun b hb => hn b (List.mem_cons_of_mem _ hb)⟩)
          (fun b hb => hn b (by injection hb with hb; rw [hb]; exact List.mem_cons_self))

theorem Run.ser {tr : List Obs} {s : Sys} (r : Run tr s) {o : Option Obs} (hs : Serial (o.toList ++ tr)) (i : Nat) (f : Bool)
    (ho : o = some (.stopCall i f)) (i' : Nat) : (s.c i').pending = false := by
  subst ho
  cases hp : (s.c i').pending with
  | false => rfl
  | true =>
    obtain ⟨q, f', p, he, hn⟩ := r.pend i' hp
    obtain ⟨b, hb⟩ := hs [] i f tr rfl q i' f' p he
    exact absurd hb (hn b)

theorem Run.inv2 {tr : List Obs} {s : Sys} (r : Run tr s) : Serial tr → Inv2 s := by
  induction r with
  | init => intro _; exact Inv2.init
  | step tr s s' b o r h ih => intro hs; exact Inv2.step r.inv (ih hs.tail) h (r.ser hs)

theorem Run.f {tr : List Obs} {s : Sys} (r : Run tr s) : Serial tr → F s := by
  induction r with
  | init => intro _ i h; cases h
  | step tr s s' b o r h ih => intro hs; exact F.step r.inv (r.inv2 hs.tail) (ih hs.tail) h (r.ser hs)

/-- the latest call, one step earlier -/
theorem Spec.SinceStop.back {o : Option Obs} {tr : List Obs} {i : Nat} {f : Bool} {q : List Obs}
    (h : SinceStop (o.toList ++ tr) i f q) :
    (o = some (.stopCall i f) ∧ q = []) ∨ (isCall i o = false ∧ ∃ q', q = o.toList ++ q' ∧ SinceStop tr i f q') := by
  obtain ⟨⟨p, he⟩, hn⟩ := h
  cases o with
  | none => exact .inr ⟨rfl, q, rfl, ⟨p, he⟩, hn⟩
  | some x =>
    cases q with
    | nil => simp at he; obtain ⟨rfl, rfl⟩ := he; exact .inl ⟨rfl, rfl⟩
    | cons y q =>
      simp at he
      obtain ⟨rfl, rfl⟩ := he
      refine .inr ⟨?_, q, rfl, ⟨p, rfl⟩, fun f hf => hn f (List.mem_cons_of_mem _ hf)⟩
      cases hc : isCall i (some x) with
      | false => rfl
      | true =>
        obtain ⟨f', hf'⟩ := isCall_iff.mp hc
        injection hf' with hf'
        exact absurd (by rw [hf']; exact List.mem_cons_self) (hn f')

theorem mem_toList {α} {o : Option α} {x : α} (h : o = some x) (q : List α) : x ∈ o.toList ++ q := by
  subst h; exact List.mem_cons_self

/-- **C58.** At any time at most one worker thread is in `work()`, whatever calls are made by whatever threads. -/
theorem work_alone {tr : List Obs} {s : Sys} (r : Run tr s) {j j' : Nat} (h : s.w j = .working) (h' : s.w j' = .working) :
    j = j' := by
  have h1 := not_gone_thread r.inv (j := j) (by rw [h]; simp [W.gone])
  have h2 := not_gone_thread r.inv (j := j') (by rw [h']; simp [W.gone])
  rw [h1] at h2; injection h2

theorem Run.working {tr : List Obs} {s : Sys} (r : Run tr s) (j : Nat) : ∀ q p, tr = q ++ .workBegin j :: p →
    .workEnd j ∉ q → s.w j = .working := by
  induction r with
  | init => intro q p h; simp at h
  | step tr s s' b o r h ih =>
    intro q p he hn
    have hw := step_work (j := j) r.inv h
    cases o with
    | none => rcases hw.2.2 (ih q p he hn) with h | h; exact h; cases h
    | some x =>
      cases q with
      | nil => simp at he; obtain ⟨rfl, rfl⟩ := he; exact (hw.1 rfl).2.2
      | cons y q =>
        simp at he
        obtain ⟨rfl, rfl⟩ := he
        rcases hw.2.2 (ih q p rfl fun hb => hn (List.mem_cons_of_mem _ hb)) with h | h
        · exact h
        · injection h with h; exact absurd (by rw [h]; exact List.mem_cons_self) hn

/-- **C58.** Runs of `work()` do not overlap: before one begins, every earlier one has ended. -/
theorem work_serial {tr : List Obs} {s : Sys} (r : Run tr s) {a q p : List Obs} {j j' : Nat}
    (he : tr = a ++ .workBegin j' :: (q ++ .workBegin j :: p)) : Obs.workEnd j ∈ q := by
  revert a
  induction r with
  | init => intro a h; simp at h
  | step tr s s' b o r h ih =>
    intro a he
    cases o with
    | none => exact ih he
    | some x =>
      cases a with
      | nil =>
        simp at he
        obtain ⟨rfl, he⟩ := he
        refine Classical.byContradiction fun hn => ?_
        have h1 := r.working j q p he hn
        have h2 := (step_work (j := j') r.inv h).1 rfl
        have h3 := not_gone_thread r.inv h2.1
        have h4 := not_gone_thread r.inv (j := j) (by rw [h1]; simp [W.gone])
        rw [h3] at h4; injection h4 with h4
        subst h4
        exact h2.2.1 h1
      | cons y a => simp at he; exact ih he.2

theorem won_started {tr : List Obs} {s : Sys} (r : Run tr s) {i : Nat} {f : Bool} : ∀ {q : List Obs},
    SinceStop tr i f q → (s.c i).won = true → ∀ j, ¬ (s.w j).gone → .started j ∈ q := by
  induction r with
  | init => rintro q ⟨⟨p, h⟩, -⟩; simp at h
  | step tr s s' b o r h ih =>
    intro q hs hw j hg
    rcases won_step h hw with hn | ⟨h1, h2⟩
    · have := not_gone_thread (r.inv.step h) hg
      rw [hn] at this; cases this
    · rcases hs.back with ⟨ho, -⟩ | ⟨-, q', rfl, hs'⟩
      · rw [isCall_iff.mpr ⟨f, ho⟩] at h2; cases h2
      · rcases not_gone_step h hg with ho | hg'
        · exact mem_toList ho _
        · exact List.mem_append_right _ (ih hs' h1 j hg')

theorem ret_won {s s' : Sys} {b : By} {i : Nat} {r : Bool} (h : Step s b (some (.stopRet i r)) s') :
    s.c i = .returning r ∧ s'.w = s.w := by
  generalize ho : some (Obs.stopRet i r) = o at h
  step_cases h with grind

/-- **C58.** After a call of `stop` has returned true, no worker does any work, except one that was started after `stop`
was called. This holds for any calls of any threads, overlapping or not. -/
theorem stopped_no_work {tr : List Obs} {s : Sys} (r : Run tr s) {a q p : List Obs} {i j : Nat} {f : Bool}
    (he : tr = a ++ .stopRet i true :: (q ++ .stopCall i f :: p)) (hq : ∀ f, Obs.stopCall i f ∉ q)
    (hj : Obs.started j ∉ a ++ q) : (Obs.workBegin j ∉ a ∧ Obs.workEnd j ∉ a) ∧ s.w j ≠ .working := by
  suffices h : (Obs.workBegin j ∉ a ∧ Obs.workEnd j ∉ a) ∧ (s.w j).gone by
    refine ⟨h.1, fun hw => ?_⟩
    have := h.2; rw [hw] at this; simp [W.gone] at this
  revert a
  induction r with
  | init => intro a h; simp at h
  | step tr s s' b o r h ih =>
    intro a he hj
    cases o with
    | none =>
      obtain ⟨h1, h2⟩ := ih he hj
      refine ⟨h1, Classical.byContradiction fun hg => ?_⟩
      rcases not_gone_step h hg with ho | ho
      · cases ho
      · exact ho h2
    | some x =>
      cases a with
      | nil =>
        simp at he
        obtain ⟨rfl, rfl⟩ := he
        obtain ⟨h1, h2⟩ := ret_won h
        refine ⟨by simp, Classical.byContradiction fun hg => ?_⟩
        rw [h2] at hg
        exact hj (won_started r ⟨⟨p, rfl⟩, hq⟩ (by rw [h1]; rfl) j hg)
      | cons y a =>
        simp at he
        obtain ⟨rfl, rfl⟩ := he
        obtain ⟨h1, h2⟩ := ih rfl fun hb => hj (List.mem_cons_of_mem _ hb)
        have hw := step_work (j := j) r.inv h
        refine ⟨⟨?_, ?_⟩, Classical.byContradiction fun hg => ?_⟩
        · intro hm
          rcases List.mem_cons.mp hm with e | hm
          · exact (hw.1 (by rw [e])).1 h2
          · exact h1.1 hm
        · intro hm
          rcases List.mem_cons.mp hm with e | hm
          · have := hw.2.1 (by rw [e]); rw [this] at h2; simp [W.gone] at h2
          · exact h1.2 hm
        · rcases not_gone_step h hg with ho | ho
          · injection ho with ho
            exact hj (by rw [ho]; exact List.mem_cons_self)
          · exact ho h2

theorem rt_step {s s' : Sys} {b : By} {o : Option Obs} {i : Nat} (h : Step s b o s') (hw : s'.c i = .returning true) :
    s'.w = s.w ∧ ((isCall i o = true ∧ s.thread = none) ∨ ((s.c i).isS = true ∧ s.thread = none) ∨
      ∃ j, s.c i = .joining j ∧ s.w j = .done ∧ s'.thread = s.thread) ∨ (s.c i = .returning true ∧ isCall i o = false) := by
  cases h with
  | join i' j hi hw' =>
    by_cases e : i = i'
    · left; exact ⟨rfl, .inr (.inr ⟨j, by rw [e]; exact hi, hw', rfl⟩)⟩
    · right; simp only at hw; rw [upd_ne _ _ e] at hw; exact ⟨hw, rfl⟩
  | stopNone i' f hi hs ht =>
    by_cases e : i = i'
    · left; exact ⟨rfl, .inl ⟨by simp [isCall, e], ht⟩⟩
    · right; simp only at hw; rw [upd_ne _ _ e] at hw; exact ⟨hw, by simp [isCall]; omega⟩
  | stopTakeNone i' f hi hp ht =>
    by_cases e : i = i'
    · left; exact ⟨rfl, .inr (.inl ⟨by rw [e, hi]; rfl, ht⟩)⟩
    · right; simp only at hw; rw [upd_ne _ _ e] at hw; exact ⟨hw, rfl⟩
  | stop s' i' j f hi hs ht hn => right; cases hn <;> simp only [upd] at hw <;> grind [isCall]
  | begin s' j o hj he =>
    right
    unfold Sys.loopTest at he
    split at he <;> cases he <;> exact ⟨hw, rfl⟩
  | noSleep s' j o hj hp he =>
    right
    unfold Sys.waited Sys.loopTest at he
    split at he <;> cases he <;> exact ⟨hw, rfl⟩
  | woken s' j o hj hp he =>
    right
    unfold Sys.waited Sys.loopTest at he
    split at he <;> cases he <;> exact ⟨hw, rfl⟩
  | timeout s' j n o hj he =>
    right
    unfold Sys.waited Sys.loopTest at he
    split at he <;> cases he <;> exact ⟨hw, rfl⟩
  | exit s' j hj hn => right; cases hn <;> (try simp only [upd] at hw) <;> grind [isCall]
  | wakeRet s' i' hi hn => right; cases hn <;> (try simp only [upd] at hw) <;> grind [isCall]
  | _ => right; (try simp only [upd] at hw) <;> grind [isCall]

theorem rt_done {tr : List Obs} {s : Sys} (r : Run tr s) {i : Nat} {f : Bool} : ∀ {q : List Obs}, Serial tr →
    SinceStop tr i f q → s.c i = .returning true → ∀ j, s.w j ≠ .done → .started j ∈ q := by
  induction r with
  | init => rintro q - ⟨⟨p, h⟩, -⟩; simp at h
  | step tr s s' b o r h ih =>
    intro q hser hs hw j hd
    rcases rt_step h hw with ⟨hw', hc⟩ | ⟨h1, h2⟩
    · rw [hw'] at hd
      rcases hc with ⟨hc, ht⟩ | ⟨hc, ht⟩ | ⟨j', hc, hdone, ht⟩
      · obtain ⟨f', ho⟩ := isCall_iff.mp hc
        obtain ⟨k, hk⟩ := r.k j hd (by rw [ht]; simp)
        have := r.ser hser i f' ho k
        rw [hk] at this; cases this
      · obtain ⟨k, hk⟩ := r.inv.stp i hc
        rw [ht] at hk; cases hk
      · rcases hs.back with ⟨ho, -⟩ | ⟨-, q', rfl, hs'⟩
        · have := r.ser hser i f ho i
          rw [hc] at this; cases this
        · refine List.mem_append_right _ ?_
          by_cases hth : s.thread = some j
          · refine won_started r hs' (by rw [hc]; rfl) j fun hg => ?_
            obtain ⟨k, hk⟩ := r.inv.live j hth hg
            have := (r.inv2 hser.tail).one k i (C.isS_pending hk) (by rw [hc]; rfl)
            subst this
            simp [Sys.S, hc, C.isS] at hk
          · obtain ⟨k, hk⟩ := r.k j hd hth
            have := (r.inv2 hser.tail).one k i (by rw [hk]; rfl) (by rw [hc]; rfl)
            subst this
            rw [hc] at hk; injection hk with hk
            subst hk
            exact absurd hdone hd
    · rcases hs.back with ⟨ho, -⟩ | ⟨-, q', rfl, hs'⟩
      · rw [isCall_iff.mpr ⟨f, ho⟩] at h2; cases h2
      · rcases not_done_step h hd with ho | hd'
        · exact mem_toList ho _
        · exact List.mem_append_right _ (ih hser.tail hs' h1 j hd')

/-- **C58.** When calls of `stop` do not overlap and one has returned true, every worker thread has ended (so that the
worker object may be destroyed), except one that was started after `stop` was called. -/
theorem stopped_thread_ended {tr : List Obs} {s : Sys} (r : Run tr s) (hser : Serial tr) {a q p : List Obs} {i j : Nat}
    {f : Bool} (he : tr = a ++ .stopRet i true :: (q ++ .stopCall i f :: p)) (hq : ∀ f, Obs.stopCall i f ∉ q)
    (hj : Obs.started j ∉ a ++ q) : s.w j = .done := by
  revert a
  induction r with
  | init => intro a h; simp at h
  | step tr s s' b o r h ih =>
    intro a he hj
    refine Classical.byContradiction fun hd => ?_
    cases o with
    | none =>
      rcases not_done_step h hd with ho | ho
      · cases ho
      · exact ho (ih hser.tail he hj)
    | some x =>
      cases a with
      | nil =>
        simp at he
        obtain ⟨rfl, rfl⟩ := he
        obtain ⟨h1, h2⟩ := ret_won h
        rw [h2] at hd
        exact hj (rt_done r hser.tail ⟨⟨p, rfl⟩, hq⟩ h1 j hd)
      | cons y a =>
        simp at he
        obtain ⟨rfl, rfl⟩ := he
        rcases not_done_step h hd with ho | ho
        · injection ho with ho
          exact hj (by rw [ho]; exact List.mem_cons_self)
        · exact ho (ih hser.tail rfl fun hb => hj (List.mem_cons_of_mem _ hb))

theorem no_give_up_step {s s' : Sys} {b : By} {o : Option Obs} {i : Nat} (h : Step s b o s') :
    (∀ n, s'.c i = .stopping false n → o = some (.stopCall i false) ∨ ∃ n', s.c i = .stopping false n') := by
  intro n hn'
  cases h with
  | stopAgain i' f hi hp => right; simp only [upd] at hn'; split at hn' <;> simp_all
  | stopSpurious i' f hi => right; simp only [upd] at hn'; split at hn' <;> simp_all
  | stop s' i' j f hi hs ht hn =>
    cases hn with
    | caller i'' f' h =>
      simp only [upd] at hn'
      split at hn'
      · next e => left; cases hn'; rw [e]
      · split at hn'
        · next e => right; cases hn'; exact ⟨false, by rw [e]; exact h⟩
        · exact .inr ⟨n, hn'⟩
    | worker j' h =>
      simp only [upd] at hn'
      split at hn'
      · next e => left; cases hn'; rw [e]
      · exact .inr ⟨n, hn'⟩
    | none =>
      simp only [upd] at hn'
      split at hn'
      · next e => left; cases hn'; rw [e]
      · exact .inr ⟨n, hn'⟩
  | begin s' j o hj he =>
    right
    unfold Sys.loopTest at he
    split at he <;> cases he <;> exact ⟨n, hn'⟩
  | noSleep s' j o hj hp he =>
    right
    unfold Sys.waited Sys.loopTest at he
    split at he <;> cases he <;> exact ⟨n, hn'⟩
  | woken s' j o hj hp he =>
    right
    unfold Sys.waited Sys.loopTest at he
    split at he <;> cases he <;> exact ⟨n, hn'⟩
  | timeout s' j n o hj he =>
    right
    unfold Sys.waited Sys.loopTest at he
    split at he <;> cases he <;> exact ⟨_, hn'⟩
  | exit s' j hj hn =>
    right
    cases hn with
    | caller i'' f' h =>
      simp only [upd] at hn'
      split at hn'
      · next e => cases hn'; exact ⟨false, by rw [e]; exact h⟩
      · exact ⟨n, hn'⟩
    | _ => exact ⟨n, hn'⟩
  | wakeRet s' i' hi hn =>
    right
    cases hn with
    | caller i'' f' h =>
      simp only [upd] at hn'
      split at hn'
      · cases hn'
      · split at hn'
        · next e => cases hn'; exact ⟨false, by rw [e]; exact h⟩
        · exact ⟨n, hn'⟩
    | _ =>
      simp only [upd] at hn'
      split at hn'
      · cases hn'
      · exact ⟨n, hn'⟩
  | _ =>
    right
    (try simp only [upd] at hn') <;> (try split at hn') <;> first | exact ⟨n, hn'⟩ | cases hn'

theorem Run.forever {tr : List Obs} {s : Sys} (r : Run tr s) {i : Nat} : ∀ {q : List Obs}, Serial tr →
    SinceStop tr i true q → s.c i ≠ .returning false ∧ ∀ n, s.c i ≠ .stopping false n := by
  induction r with
  | init => rintro q - ⟨⟨p, h⟩, -⟩; simp at h
  | step tr s s' b o r h ih =>
    intro q hser hs
    have hb : isCall i o = false → s.c i ≠ .returning false ∧ ∀ n, s.c i ≠ .stopping false n := by
      intro hc
      rcases hs.back with ⟨ho, -⟩ | ⟨-, q', rfl, hs'⟩
      · rw [isCall_iff.mpr ⟨_, ho⟩] at hc; cases hc
      · exact ih hser.tail hs'
    have hb' : ∀ f, o = some (.stopCall i f) → f = true := by
      rintro f rfl
      rcases hs.back with ⟨ho, -⟩ | ⟨hc, -⟩
      · injection ho with ho; injection ho
      · simp [isCall] at hc
    have hbusy : ∀ i' f, o = some (.stopCall i' f) → s.stop = false := by
      intro i' f ho
      cases hst : s.stop with
      | false => rfl
      | true =>
        obtain ⟨k, hk⟩ := r.inv.stopT hst
        have := r.ser hser i' f ho k
        rw [C.isS_pending hk] at this; cases this
    constructor
    · intro hc
      step_cases h with
        (try simp only [upd] at hc) <;> grind [isCall]
    · intro n hn
      rcases no_give_up_step h n hn with ho | ⟨n', hn'⟩
      · cases hb' false ho
      · cases hc : isCall i o with
        | false => exact (hb hc).2 n' hn'
        | true =>
          obtain ⟨f, ho⟩ := isCall_iff.mp hc
          have := r.ser hser i f ho i
          rw [hn'] at this; cases this

/-- **C58.** A call of `stop` without a time limit never gives up, when calls of `stop` do not overlap. -/
theorem stop_forever_true {tr : List Obs} {s : Sys} (r : Run tr s) (hser : Serial tr) {a q p : List Obs} {i : Nat} {b : Bool}
    (he : tr = a ++ .stopRet i b :: (q ++ .stopCall i true :: p)) (hq : ∀ f, Obs.stopCall i f ∉ q) : b = true := by
  revert a
  induction r with
  | init => intro a h; simp at h
  | step tr s s' by' o r h ih =>
    intro a he
    cases o with
    | none => exact ih hser.tail he
    | some x =>
      cases a with
      | nil =>
        simp at he
        obtain ⟨rfl, rfl⟩ := he
        have h1 := (ret_won h).1
        have h2 := r.forever hser.tail (q := q) ⟨⟨p, rfl⟩, hq⟩
        cases b
        · exact absurd h1 h2.1
        · rfl
      | cons y a => simp at he; exact ih hser.tail he.2

/-- **C58.** When a call of `stop` returns false (which, if calls of `stop` do not overlap, means that its time was up),
there still is a worker thread, and it has not been told to stop. -/
theorem stop_false_running {tr : List Obs} {s s' : Sys} {b : By} {i : Nat} (r : Run tr s) (hser : Serial tr)
    (h : Step s b (some (.stopRet i false)) s') :
    s'.stop = false ∧ ∃ j, s'.thread = some j ∧ s'.w j ≠ .exiting ∧ s'.w j ≠ .done := by
  have r' := Run.step _ _ _ _ _ r h
  obtain ⟨h1, j, h2, h3⟩ := r.f hser i (ret_won h).1
  have hs : s'.stop = s.stop ∧ s'.thread = s.thread := by
    generalize ho : some (Obs.stopRet i false) = o at h
    step_cases h with grind
  refine ⟨hs.1.trans h1, j, hs.2.trans h2, ?_, ?_⟩ <;> rw [(ret_won h).2] <;> intro hw <;> exact h3 (by rw [hw]; simp [W.gone])

/-- how far a call of `stop` is from its end -/
def rank (i : Nat) (s : Sys) : Nat :=
  match s.c i with
  | .stopping _ _ =>
    match s.thread with
    | some j =>
      match s.w j with
      | .done => 3
      | .exiting => 4
      | .working => 7
      | _ => 6
    | none => 0
  | .joining j => if s.w j = .done then 1 else 2
  | _ => 0

theorem rank_le (i : Nat) (s : Sys) : rank i s ≤ 7 := by
  unfold rank; repeat' split
  all_goals omega

theorem rank_stopping {i : Nat} {s : Sys} {f n : Bool} {j : Nat} (hc : s.c i = .stopping f n) (ht : s.thread = some j) :
    rank i s = match s.w j with | .done => 3 | .exiting => 4 | .working => 7 | _ => 6 := by
  unfold rank; simp only [hc, ht]

theorem rank_joining {i : Nat} {s : Sys} {j : Nat} (hc : s.c i = .joining j) :
    rank i s = if s.w j = .done then 1 else 2 := by
  unfold rank; simp only [hc]

/-- a worker that was told to stop goes only forwards -/
def W.rank : W → Nat
  | .done => 3
  | .exiting => 4
  | .working => 7
  | _ => 6

theorem w_step {s s' : Sys} {b : By} {o : Option Obs} {j : Nat} (hi : Inv s) (h : Step s b o s')
    (hj : s.thread = some j) (hs : s.stop = true ∨ (s.w j).gone) (hd : j < s.next) :
    (s'.w j).rank ≤ (s.w j).rank ∧ (b = .worker j → (s'.w j).rank < (s.w j).rank) := by
  step_cases h with
    (try simp only [upd]) <;> grind [W.rank, W.gone, Sys.breakOut]

theorem gone_step {s s' : Sys} {b : By} {o : Option Obs} {j : Nat} (h : Step s b o s') (hj : (s.w j).gone) (hd : j < s.next) :
    (s.w j = .done → s'.w j = .done) ∧ (b = .worker j → s'.w j = .done) := by
  step_cases h with
    (try simp only [upd]) <;> grind [W.gone]

theorem c_step {s s' : Sys} {b : By} {o : Option Obs} {i : Nat} (h : Step s b o s') (hp : (s.c i).isS = true) :
    ((s'.c i).isS = true ∧ (s'.thread = s.thread ∨ s.thread = none ∨ s'.thread = none) ∧ (b = .caller i → s.stop = true)) ∨
      s'.c i = .returning true ∨ s'.c i = .returning false ∨ ∃ j, s.thread = some j ∧ s'.c i = .joining j := by
  cases h with
  | stopTake i' j f hi hp' ht =>
    by_cases e : i = i'
    · right; right; right; exact ⟨j, ht, by simp only; rw [e, upd_same]⟩
    · left; simp only [upd, if_neg e]; refine ⟨hp, .inr (.inr trivial), fun h => ?_⟩; injection h with h; exact absurd h.symm e
  | stop s' i' j f hi hs ht hn => left; cases hn <;> simp only [upd] <;> grind [C.isS]
  | begin s' j o hj he =>
    left
    unfold Sys.loopTest at he
    split at he <;> cases he <;> exact ⟨hp, .inl rfl, fun h => by cases h⟩
  | noSleep s' j o hj hp' he =>
    left
    unfold Sys.waited Sys.loopTest at he
    split at he <;> cases he <;> exact ⟨hp, .inl rfl, fun h => by cases h⟩
  | woken s' j o hj hp' he =>
    left
    unfold Sys.waited Sys.loopTest at he
    split at he <;> cases he <;> exact ⟨hp, .inl rfl, fun h => by cases h⟩
  | timeout s' j n o hj he =>
    left
    unfold Sys.waited Sys.loopTest at he
    split at he <;> cases he <;> exact ⟨hp, .inl rfl, fun h => by cases h⟩
  | exit s' j hj hn => left; cases hn <;> (try simp only [upd]) <;> grind [C.isS]
  | wakeRet s' i' hi hn => left; cases hn <;> (try simp only [upd]) <;> grind [C.isS]
  | stopTimeout i' n hi hs =>
    by_cases e : i = i'
    · right; right; left; simp only; rw [e, upd_same]
    · left; simp only [upd, if_neg e]; exact ⟨hp, .inl trivial, fun h => by cases h⟩
  | stopTakeNone i' f hi hp' ht =>
    by_cases e : i = i'
    · right; left; simp only; rw [e, upd_same]
    · left; simp only [upd, if_neg e]; refine ⟨hp, .inl trivial, fun h => ?_⟩; injection h with h; exact absurd h.symm e
  | stopAgain i' f hi hp' => left; simp only [upd]; grind [C.isS, Sys.stopped]
  | _ => left; (try simp only [upd]) <;> grind [C.isS]

theorem j_step {s s' : Sys} {b : By} {o : Option Obs} {i j : Nat} (h : Step s b o s') (hp : s.c i = .joining j) :
    (s'.c i = .joining j ∧ b ≠ .caller i) ∨ s'.c i = .returning true := by
  step_cases h with
    (try simp only [upd]) <;> grind

theorem r_step {s s' : Sys} {b : By} {o : Option Obs} {i : Nat} {x : Bool} (h : Step s b o s') (hp : s.c i = .returning x) :
    (s'.c i = .returning x ∧ b ≠ .caller i) ∨ s'.c i = .idle := by
  step_cases h with
    (try simp only [upd]) <;> grind

theorem ex_notify (s : Sys) : ∃ s', Notify s s' := by
  by_cases h1 : ∃ j, s.w j = .waiting false
  · obtain ⟨j, h⟩ := h1; exact ⟨_, .worker j h⟩
  · by_cases h2 : ∃ i f, s.c i = .stopping f false
    · obtain ⟨i, f, h⟩ := h2; exact ⟨_, .caller i f h⟩
    · exact ⟨_, .none (fun j h => h1 ⟨j, h⟩) (fun i f h => h2 ⟨i, f, h⟩)⟩

theorem worker_can {s : Sys} {j : Nat} (h1 : s.w j ≠ .done) (h2 : s.w j ≠ .waiting false) : ∃ o s', Step s (.worker j) o s' := by
  rcases W.all (s.w j) with h | h | h | h | h | h | h
  · exact ⟨_, _, .begin s _ j _ h rfl⟩
  · exact ⟨_, _, .worked s j h⟩
  · cases hb : s.breakOut
    · exact ⟨_, _, .sleep s j h hb⟩
    · exact ⟨_, _, .noSleep s _ j _ h hb rfl⟩
  · exact absurd h h2
  · cases hb : s.breakOut
    · exact ⟨_, _, .sleepAgain s j h hb⟩
    · exact ⟨_, _, .woken s _ j _ h hb rfl⟩
  · obtain ⟨s1, hn⟩ := ex_notify s
    exact ⟨_, _, .exit s s1 j h hn⟩
  · exact absurd h h1

/-- a waiting `stop`, one step later -/
theorem stopping_step {s s' : Sys} {b : By} {o : Option Obs} {i j : Nat} (hi : Inv s) (h : Step s b o s')
    (hi' : Inv s')
    (hp : (s.c i).isS = true) (ht : s.thread = some j) :
    rank i s' ≤ rank i s ∧ ((b = .worker j ∨ (b = .caller i ∧ s.stop = false)) → rank i s' < rank i s) := by
  have hj := hi.thr j ht
  have hsg : s.stop = true ∨ (s.w j).gone := by
    cases hs : s.stop with
    | true => exact .inl rfl
    | false => exact .inr (hi.sf hs i j hp ht)
  obtain ⟨hw1, hw2⟩ := w_step hi h ht hsg hj
  obtain ⟨f, n, hc⟩ := C.isS_iff.mp hp
  have hr : rank i s = (s.w j).rank := by rw [rank_stopping hc ht]; rfl
  have h3 : 3 ≤ (s.w j).rank := by cases s.w j <;> simp [W.rank]
  rcases c_step h hp with ⟨h1, h2, h4⟩ | h1 | h1 | ⟨k, h1, h2⟩
  · obtain ⟨j', hj'⟩ := hi'.stp i h1
    have : s'.thread = some j := by
      rcases h2 with h2 | h2 | h2
      · rw [h2, ht]
      · rw [ht] at h2; cases h2
      · rw [hj'] at h2; cases h2
    obtain ⟨f', n', hc'⟩ := C.isS_iff.mp h1
    have hr' : rank i s' = (s'.w j).rank := by rw [rank_stopping hc' this]; rfl
    rw [hr, hr']
    refine ⟨hw1, ?_⟩
    rintro (hb | ⟨hb, hs⟩)
    · exact hw2 hb
    · rw [h4 hb] at hs; cases hs
  · have : rank i s' = 0 := by unfold rank; rw [h1]
    omega
  · have : rank i s' = 0 := by unfold rank; rw [h1]
    omega
  · have : rank i s' ≤ 2 := by rw [rank_joining h2]; split <;> omega
    omega

/-- **C58.** A call of `stop` always returns, when calls of `stop` do not overlap: as long as it has not returned, some
thread that does not wait for the clock (the caller, or the worker, perhaps in `work()`) can make a step, every step of
that thread brings the call nearer to its end, and no step of any thread or of the clock brings it farther away. The
distance is at most 8. -/
theorem stop_returns : ∃ dist : Nat → Sys → Nat, (∀ i s, dist i s ≤ 8) ∧
    ∀ tr s, Run tr s → Serial tr → ∀ i, InStop tr i →
      (∃ b, b ≠ By.timer ∧ (∃ o s', Step s b o s') ∧
        ∀ o s', Step s b o s' → (∃ x, o = some (.stopRet i x)) ∨ dist i s' < dist i s) ∧
      ∀ b o s', Step s b o s' → Serial (o.toList ++ tr) → dist i s' ≤ dist i s := by
  refine ⟨rank, fun i s => Nat.le_succ_of_le (rank_le i s), ?_⟩
  intro tr s r hser i hin
  have hp := r.inStop i hin
  have hi := r.inv
  have hi2 := r.inv2 hser
  cases hc : s.c i with
  | idle => rw [hc] at hp; cases hp
  | waking => rw [hc] at hp; cases hp
  | stopping f n =>
    have hS : (s.c i).isS = true := by rw [hc]; rfl
    obtain ⟨j, ht⟩ := hi.stp i hS
    refine ⟨?_, fun b o s' h _ => (stopping_step hi h (hi.step h) hS ht).1⟩
    by_cases hd : s.w j = .done
    · have hs : s.stop = false := by
        cases hs : s.stop with
        | false => rfl
        | true => exact absurd (.inr hd) (hi2.alv hs j ht)
      have := hi2.ntf hs i f n j hc ht hd
      subst this
      exact ⟨.caller i, by simp, ⟨_, _, .stopTake s i j f hc (by simp [Sys.stopped, hs]) ht⟩,
        fun o s' h => .inr ((stopping_step hi h (hi.step h) hS ht).2 (.inr ⟨rfl, hs⟩))⟩
    · refine ⟨.worker j, by simp, worker_can hd fun hw => ?_,
        fun o s' h => .inr ((stopping_step hi h (hi.step h) hS ht).2 (.inl rfl))⟩
      cases hs : s.stop with
      | true => exact hi.st hs j ht hw
      | false => have := hi.sf hs i j hS ht; rw [hw] at this; simp [W.gone] at this
  | joining j =>
    obtain ⟨h1, h2, h3⟩ := hi.jn i j hc
    have hr := rank_joining hc
    have hgo : ∀ b o s', Step s b o s' → rank i s' ≤ rank i s ∧ ((b = .caller i ∨ (b = .worker j ∧ s.w j ≠ .done)) →
        rank i s' < rank i s) := by
      intro b o s' h
      have hg := gone_step h h3 h1
      rcases j_step h hc with ⟨hc', hb⟩ | hc'
      · rw [hr, rank_joining hc']
        refine ⟨?_, ?_⟩
        · by_cases hd : s.w j = .done
          · rw [if_pos hd, if_pos (hg.1 hd)]; omega
          · rw [if_neg hd]; split <;> omega
        · rintro (e | ⟨e, hd⟩)
          · exact absurd e hb
          · rw [if_neg hd, if_pos (hg.2 e)]; omega
      · have : rank i s' = 0 := by unfold rank; rw [hc']
        rw [this, hr]; split <;> omega
    refine ⟨?_, fun b o s' h _ => (hgo b o s' h).1⟩
    by_cases hd : s.w j = .done
    · exact ⟨.caller i, by simp, ⟨_, _, .join s i j hc hd⟩, fun o s' h => .inr ((hgo _ o s' h).2 (.inl rfl))⟩
    · refine ⟨.worker j, by simp, worker_can hd fun hw => ?_, fun o s' h => .inr ((hgo _ o s' h).2 (.inr ⟨rfl, hd⟩))⟩
      rw [hw] at h3; simp [W.gone] at h3
  | returning x =>
    have hr : rank i s = 0 := by unfold rank; rw [hc]
    refine ⟨⟨.caller i, by simp, ⟨_, _, .stopRet s i x hc⟩, ?_⟩, ?_⟩
    · intro o s' h
      left
      refine Classical.byContradiction fun hn => ?_
      have := keep_pend h hp fun b hb => hn ⟨b, hb⟩
      rcases r_step h hc with ⟨-, h1⟩ | h1
      · exact h1 rfl
      · rw [h1] at this; cases this
    · intro b o s' h _
      have : rank i s' = 0 := by
        unfold rank
        rcases r_step h hc with ⟨h1, -⟩ | h1 <;> rw [h1]
      omega

/-- a wake-up that has not led to work yet -/
theorem Run.wakeInv {tr : List Obs} {s : Sys} (r : Run tr s) {i : Nat} : ∀ q p, tr = q ++ .wakeCall i :: p →
    (∀ j, Obs.workBegin j ∉ q) → ∀ j, (s.w j).gone ∨ s.w j = .starting ∨ s.wake = true := by
  induction r with
  | init => intro q p h; simp at h
  | step tr s s' b o r h ih =>
    intro q p he hn
    have key : o = some (.wakeCall i) ∨ ((∀ j, o ≠ some (.workBegin j)) ∧
        (∀ j, (s.w j).gone ∨ s.w j = .starting ∨ s.wake = true)) := by
      cases o with
      | none => exact .inr ⟨by simp, ih q p he hn⟩
      | some x =>
        cases q with
        | nil => simp at he; left; rw [he.1]
        | cons y q =>
          simp at he
          obtain ⟨rfl, rfl⟩ := he
          exact .inr ⟨fun j hj => hn j (by injection hj with hj; rw [hj]; exact List.mem_cons_self),
            ih q p rfl fun j hj => hn j (List.mem_cons_of_mem _ hj)⟩
    have hf := r.inv.fresh
    have hu : ∀ j k, ¬ (s.w j).gone → ¬ (s.w k).gone → j = k := by
      intro j k h1 h2
      have h3 := not_gone_thread r.inv h1
      have h4 := not_gone_thread r.inv h2
      rw [h3] at h4; injection h4
    intro j0
    step_cases h with
      (try simp only [upd]) <;> grind [W.gone]

/-- **C58.** A wake-up is not lost: when `wakeUp` was called and no work has begun since, and no call of `wakeUp` is still
under way, a live worker that is not in `work()` can go on without waiting for the clock, and what it does next is to begin
to work, unless it was told to stop. (If it is in `work()`, the same holds when that work has ended.) -/
theorem wake_not_lost {tr : List Obs} {s : Sys} (r : Run tr s) {q p : List Obs} {i j : Nat} (he : tr = q ++ .wakeCall i :: p)
    (hq : ∀ j, Obs.workBegin j ∉ q) (hc : ∀ k, s.c k ≠ .waking) (hw : s.w j ≠ .working) (hx : s.w j ≠ .exiting)
    (hd : s.w j ≠ .done) :
    (∃ o s', Step s (.worker j) o s') ∧
      ∀ o s', Step s (.worker j) o s' → o = some (.workBegin j) ∨ (s.stop = true ∧ s'.w j = .exiting) := by
  have hg : ¬ (s.w j).gone := by rintro (h | h); exact hx h; exact hd h
  have ht := not_gone_thread r.inv hg
  have hs : s.wake = true ∨ s.w j = .starting := by
    rcases r.wakeInv q p he hq j with h | h | h
    · exact absurd h hg
    · exact .inr h
    · exact .inl h
  refine ⟨worker_can hd fun hwt => ?_, ?_⟩
  · rcases hs with hs | hs
    · obtain ⟨k, hk⟩ := r.inv.wk hs j ht hwt
      exact hc k hk
    · rw [hs] at hwt; cases hwt
  · intro o s' h
    generalize hb : By.worker j = b at h
    step_cases h with
      (try simp only [upd]) <;> grind [Sys.breakOut]

end Verif.Worker
