import Verif.Sched.NavyInv
/-!
# Property C32 for the fiber-based scheduler

As for the thread pool: `key_order`, `one_at_a_time`, `runs_after_earlier`, `executed_once`,
`no_stuck`.  In addition:
* `dispatch_fifo`: a dispatcher starts requests in the order it was given them, each once;
* `outstanding_bounded`: never more than the configured number of requests outstanding;
* `finish_waits_partial`: what `finish()` guarantees (a spooled request is not waited for:
  `finish_misses_spooled`, nor one behind another submitter's first request:
  `finish_misses_racing`).
-/
namespace Verif.Sched.Navy
open Verif

/-- The body of request `j` may be running. -/
def Running (s : St) (j : Job) : Prop := ∃ d, (j, Ph.exec) ∈ (s.disp d).out

/-- C32.  The requests of a key that completed are the first ones submitted, in order. -/
theorem key_order {c : Cfg} {s : St} (h : Reach c s) (k : Nat) :
    s.done.filter (fun j => j.key = k) <+: s.submitted.filter (fun j => j.key = k) := by
  obtain ⟨cur, h⟩ := h.core
  have heq := congrArg (List.filter (fun j : Job => decide (j.key = k))) (h.i_eq (c.shard k))
  rw [List.filter_append, List.filter_filter, List.filter_filter] at heq
  have hff : ∀ l : List Job, l.filter (fun j => decide (j.key = k) && decide (c.shard j.key = c.shard k)) =
      l.filter (fun j => decide (j.key = k)) := by
    intro l
    apply List.filter_congr
    intro j _
    by_cases hk : j.key = k <;> simp [hk]
  rw [hff, hff] at heq
  exact ⟨_, heq.symm⟩

/-- C32.  At most one request of a key runs at any time, in one fiber. -/
theorem one_at_a_time {c : Cfg} {s : St} (h : Reach c s) {j j' : Job} {d d' : DId}
    (hj : (j, Ph.exec) ∈ (s.disp d).out) (hj' : (j', Ph.exec) ∈ (s.disp d').out) (hk : j.key = j'.key) :
    j = j' ∧ d = d' ∧ ((s.disp d).out.map Prod.fst).count j = 1 := by
  obtain ⟨cur, h⟩ := h.core
  obtain ⟨h1, h2, _⟩ := h.i_in _ _ (.inr (.inr hj))
  obtain ⟨h1', h2', _⟩ := h.i_in _ _ (.inr (.inr hj'))
  rw [hk, h2'] at h2
  cases h2
  refine ⟨rfl, h1.symm.trans h1', ?_⟩
  exact List.count_eq_one_of_mem (h.i_disp d).l_outn (List.mem_map.2 ⟨_, hj, rfl⟩)

/-- C32.  While a request runs, exactly the earlier requests of its key have completed. -/
theorem runs_after_earlier {c : Cfg} {s : St} (h : Reach c s) {j : Job} (hj : Running s j) :
    j ∈ s.submitted ∧ ∀ j' ∈ s.submitted, j'.key = j.key → (j' ∈ s.done ↔ j'.id < j.id) := by
  obtain ⟨cur, h⟩ := h.core
  obtain ⟨d, hj⟩ := hj
  obtain ⟨h1, h2, h3, _⟩ := h.i_in _ _ (.inr (.inr hj))
  refine ⟨h.cur_sub h2, fun j' hs hk => ?_⟩
  have heq := h.i_eq (c.shard j.key)
  have hp : (s.submitted.filter (fun x => c.shard x.key = c.shard j.key)).Pairwise (fun a b => a.id < b.id) := by
    apply List.Pairwise.filter
    rw [List.pairwise_iff_getElem]
    intro a b ha hb hab
    have e1 := h.i_id a _ (List.getElem?_eq_getElem ha)
    have e2 := h.i_id b _ (List.getElem?_eq_getElem hb)
    omega
  rw [heq, h2] at hp
  simp only [rest, h3, if_false, List.cons_append, List.nil_append] at hp
  rw [List.pairwise_append] at hp
  obtain ⟨_, p2, p3⟩ := hp
  constructor
  · intro hd
    exact p3 j' (by simp [hd, hk]) j (by simp)
  · intro hlt
    rcases (h.mem_eq j').1 hs with hd | hr | hpd
    · exact hd
    · rw [hk, h2] at hr
      simp [rest, h3] at hr
      subst hr; omega
    · rw [hk] at hpd
      have := (List.pairwise_cons.1 p2).1 j' hpd
      omega

/-- C32.  No request completes twice, and only submitted requests complete. -/
theorem executed_once {c : Cfg} {s : St} (h : Reach c s) :
    s.done.Nodup ∧ ∀ j ∈ s.done, j ∈ s.submitted := by
  obtain ⟨cur, h⟩ := h.core
  exact ⟨h.nodup_done, fun j hj => h.done_sub hj⟩

/-- A dispatcher starts the requests it was given in order and each at most once. -/
theorem dispatch_fifo {c : Cfg} {s : St} (h : Reach c s) (d : DId) :
    (s.disp d).started <+: (s.disp d).given ∧ (s.disp d).given.Nodup := by
  obtain ⟨cur, h⟩ := h.core
  exact ⟨⟨_, (h.i_disp d).l_given.symm⟩, (h.i_disp d).l_nodup⟩

/-- The limit of a dispatcher is at least one request. -/
theorem maxOut_pos {c : Cfg} (hr : 0 < c.readers) (hw : 0 < c.writers) (d : DId) : 0 < c.maxOut d := by
  unfold Cfg.maxOut
  split
  · exact Nat.div_pos (Nat.le_max_right _ _) hw
  · exact Nat.div_pos (Nat.le_max_right _ _) hr

/-- The fibers of a dispatcher never exceed its share of the configured maximum; summed over the
threads of a kind they do not exceed the maximum (or the number of threads). -/
theorem outstanding_bounded {c : Cfg} {s : St} (h : Reach c s) (d : DId) :
    (s.disp d).out.length ≤ c.maxOut d ∧
    c.readers * c.maxOut (false, d.2) ≤ max c.maxReads c.readers ∧
    c.writers * c.maxOut (true, d.2) ≤ max c.maxWrites c.writers := by
  obtain ⟨cur, h⟩ := h.core
  refine ⟨?_, Nat.mul_div_le _ _, Nat.mul_div_le _ _⟩
  have h1 := (h.i_disp d).l_out
  have h2 := (h.i_disp d).l_max
  omega

/-- Dispatchers of submitted requests are among those `finish` visits. -/
theorem dispOf_mem {c : Cfg} (hr : 0 < c.readers) (hw : 0 < c.writers) (j : Job) :
    c.dispOf j ∈ c.disps := by
  unfold Cfg.dispOf Cfg.disps
  split
  · simp; exact Nat.mod_lt _ hw
  · simp; exact Nat.mod_lt _ hr

/-- The actions of a dispatcher's thread and of submitters in the middle of a call. -/
def Internal (d : DId) : Act → Prop
  | .addTask d' | .begin d' | .loop d' _ | .retDone d' _ | .notify d' _ | .dec d' _ => d' = d
  | _ => False

/-- C32.  Unless a request was thrown away after `stopped_`, a state in which no dispatcher can
move has completed everything that was submitted. -/
theorem no_stuck {c : Cfg} {s : St} (h : Reach c s) (hr : 0 < c.readers) (hw : 0 < c.writers)
    (hlost : s.lost = [])
    (hq : ∀ d ∈ c.disps, ∀ a, Internal d a → exec c s a = none) :
    ∀ j ∈ s.submitted, j ∈ s.done := by
  obtain ⟨cur, h⟩ := h.core
  have hempty : ∀ d ∈ c.disps, ∀ j, ¬ InD (s.disp d) j ∧ ¬ FinD (s.disp d) j := by
    intro d hd
    have hi := h.i_disp d
    have hadd : (s.disp d).toAdd = 0 := by
      have := hq d hd (.addTask d) rfl
      simp only [exec] at this
      split at this
      · assumption
      · simp at this
    have htask : (s.disp d).tasks = 0 := by
      have := hq d hd (.begin d) rfl
      simp only [exec] at this
      split at this
      · assumption
      · simp at this
    have hout : (s.disp d).out = [] := by
      cases ho : (s.disp d).out with
      | nil => rfl
      | cons x l =>
        obtain ⟨j, p⟩ := x
        cases p with
        | exec =>
          have := hq d hd (.retDone d j) rfl
          simp [exec, ho] at this
        | finished =>
          have := hq d hd (.notify d j) rfl
          simp [exec, ho] at this
        | notified =>
          have := hq d hd (.dec d j) rfl
          simp [exec, ho] at this
    have hloop : (s.disp d).loops = [] := by
      cases hl : (s.disp d).loops with
      | nil => rfl
      | cons l ls =>
        have hne := hq d hd (.loop d 0) rfl
        simp only [exec, hl, List.getElem?_cons_zero] at hne
        cases hs : (s.disp d).loopStep (c.maxOut d) 0 l with
        | some d' => simp [hs] at hne
        | none =>
          unfold Disp.loopStep at hs
          split at hs
          · simp at hs
          · split at hs <;> simp at hs
          · split at hs <;> simp at hs
          · rename_i j p
            split at hs
            · simp at hs
            · rename_i hb
              have hwt := hi.l_wait j p (by simp [hl])
              simp only [hb] at hwt
              have := maxOut_pos hr hw d
              have hlo := hi.l_out
              rw [hout] at hlo
              simp at hlo hwt
              omega
    have hone := hi.l_one
    rw [hadd, htask, hloop] at hone
    have hinc : (s.disp d).inc = [] := by
      split at hone
      · rename_i hh; exact hh.1
      · simp at hone
    intro j
    simp [InD, FinD, hout, hinc, hloop]
  have hc : ∀ sh, cur sh = none := by
    intro sh
    cases hcs : cur sh with
    | none => rfl
    | some j =>
      obtain ⟨_, hh⟩ := h.i_cur sh j hcs
      have := hempty _ (dispOf_mem hr hw j) j
      rw [hlost] at hh
      simp [this] at hh
  intro j hj
  rcases (h.mem_eq j).1 hj with hh | hh | hh
  · exact hh
  · rw [hc] at hh; simp [rest] at hh
  · rw [h.i_pend] at hh
    · simp at hh
    · rw [h.i_spool, hc]; rfl

/-! ## finish() -/

/-- What holds for a caller in `finish()`. -/
def FinInv (c : Cfg) (s : St) (todo : List DId) (base : List Job) : Prop :=
  ∀ j ∈ base, j ∈ s.done ∨ (c.dispOf j ∈ todo ∧ InD (s.disp (c.dispOf j)) j ∧
    (j ∈ (s.disp (c.dispOf j)).inc → (s.disp (c.dispOf j)).toAdd = 0))

/-- A request that is still in a dispatcher keeps the thread running. -/
theorem running_pos {m : Nat} {d : Disp} (h : DInv m d) {j : Job} (hj : InD d j) (ha : j ∈ d.inc → d.toAdd = 0) :
    0 < d.running := by
  rw [h.l_run]
  rcases hj with hj | hj | hj
  · cases hl : d.loops with
    | nil => simp [hl] at hj
    | cons _ _ => simp; omega
  · have h1 := h.l_one
    rw [ha hj, if_neg (by rintro ⟨h, _⟩; simp [h] at hj)] at h1
    omega
  · have := List.length_pos_of_mem hj
    omega

/-- A step keeps a request in its dispatcher until it is done, and no submitter gets between it and
the dispatch loop. -/
theorem stay_step {c : Cfg} {s s' : St} {cur} (h : Core c s cur) {a} (he : exec c s a = some s') (j : Job) :
    (j ∈ s.done → j ∈ s'.done) ∧
    (InD (s.disp (c.dispOf j)) j → (j ∈ (s.disp (c.dispOf j)).inc → (s.disp (c.dispOf j)).toAdd = 0) →
      j ∈ s'.done ∨ (InD (s'.disp (c.dispOf j)) j ∧
        (j ∈ (s'.disp (c.dispOf j)).inc → (s'.disp (c.dispOf j)).toAdd = 0))) := by
  have hgive : ∀ (D : DId → Disp) (j' : Job), (D = s.disp ∨ D (c.dispOf j) = s.disp (c.dispOf j) ∨
        (InD (D (c.dispOf j)) j ↔ InD (s.disp (c.dispOf j)) j) ∧ (D (c.dispOf j)).inc = (s.disp (c.dispOf j)).inc ∧
          (D (c.dispOf j)).toAdd = (s.disp (c.dispOf j)).toAdd) → j ≠ j' →
      InD (s.disp (c.dispOf j)) j → (j ∈ (s.disp (c.dispOf j)).inc → (s.disp (c.dispOf j)).toAdd = 0) →
      InD (upd D (c.dispOf j') ((D (c.dispOf j')).give j') (c.dispOf j)) j ∧
        (j ∈ (upd D (c.dispOf j') ((D (c.dispOf j')).give j') (c.dispOf j)).inc →
          (upd D (c.dispOf j') ((D (c.dispOf j')).give j') (c.dispOf j)).toAdd = 0) := by
    intro D j' hD hjj hin hadd
    have hD' : (InD (D (c.dispOf j)) j ↔ InD (s.disp (c.dispOf j)) j) ∧ (D (c.dispOf j)).inc = (s.disp (c.dispOf j)).inc ∧
          (D (c.dispOf j)).toAdd = (s.disp (c.dispOf j)).toAdd := by
      rcases hD with hD | hD | hD
      · subst hD; simp
      · rw [hD]; simp
      · exact hD
    obtain ⟨e1, e2, e3⟩ := hD'
    by_cases hdd : c.dispOf j = c.dispOf j'
    · rw [← hdd, upd_same, give_in, e1]
      refine ⟨.inl hin, ?_⟩
      intro hi
      have hji : j ∈ (s.disp (c.dispOf j)).inc := by
        simp only [Disp.give, List.mem_cons] at hi
        rw [← e2]
        exact hi.resolve_left hjj
      simp only [Disp.give, e2, e3]
      rw [if_neg (by rintro ⟨hh, _⟩; simp [hh] at hji)]
      exact hadd hji
    · rw [upd_ne _ _ hdd, e1, e2, e3]
      exact ⟨hin, hadd⟩
  have hloc : ∀ (d : DId) (D : Disp), (InD D j ↔ InD (s.disp d) j) → (j ∈ D.inc → j ∈ (s.disp d).inc) →
      (D.toAdd ≤ (s.disp d).toAdd) →
      InD (s.disp (c.dispOf j)) j → (j ∈ (s.disp (c.dispOf j)).inc → (s.disp (c.dispOf j)).toAdd = 0) →
      InD (upd s.disp d D (c.dispOf j)) j ∧
        (j ∈ (upd s.disp d D (c.dispOf j)).inc → (upd s.disp d D (c.dispOf j)).toAdd = 0) := by
    intro d D h1 h2 h3 hin hadd
    by_cases hd : c.dispOf j = d
    · subst hd; rw [upd_same, h1]; refine ⟨hin, fun hh => ?_⟩; have := hadd (h2 hh); omega
    · rw [upd_ne _ _ hd]; exact ⟨hin, hadd⟩
  cases a with
  | submit key w =>
    simp only [exec, Option.some.injEq] at he; subst he
    have hd : (submit c s key w).done = s.done := by
      unfold submit; dsimp only; split <;> rfl
    rw [hd]
    refine ⟨id, fun hin hadd => .inr ?_⟩
    have hne : j ≠ ⟨s.submitted.length, key, w⟩ := by
      rintro rfl; exact h.fresh key w (h.cur_sub (h.i_in _ _ hin).2.1)
    unfold submit; dsimp only
    split
    · exact ⟨hin, hadd⟩
    · exact hgive s.disp _ (.inl rfl) hne hin hadd
  | addTask d =>
    simp only [exec] at he
    split at he
    · simp at he
    · simp only [Option.some.injEq] at he; subst he
      refine ⟨id, fun hin hadd => .inr ?_⟩
      exact hloc d _ Iff.rfl id (Nat.sub_le _ _) hin hadd
  | begin d =>
    simp only [exec] at he
    split at he
    · simp at he
    · simp only [Option.some.injEq] at he; subst he
      refine ⟨id, fun hin hadd => .inr ?_⟩
      refine hloc d _ (by simp [InD, Loop.jobs]) id (Nat.le_refl _) hin hadd
  | loop d i =>
    simp only [exec] at he
    split at he
    · simp at he
    · rename_i l hl
      split at he
      · rename_i d' hd'
        simp only [Option.some.injEq] at he; subst he
        obtain ⟨q1, q2, q3, q4, q5⟩ := loop_in (h.i_disp d) hl hd' j
        refine ⟨id, fun hin hadd => .inr ?_⟩
        exact hloc d d' q1 q5 (Nat.le_of_eq q4) hin hadd
      · simp at he
  | retDone d j' =>
    simp only [exec] at he
    split at he
    · rename_i hm
      simp only [Option.some.injEq] at he; subst he
      refine ⟨fun hd => by simp [hd], fun hin hadd => ?_⟩
      by_cases hjj : j = j'
      · subst hjj; left; simp
      · right
        have hx := erase_fst (h.i_disp d).l_outn hm
        refine hloc d _ ?_ id (Nat.le_refl _) hin hadd
        simp only [InD, List.mem_cons, hx]; grind
    · simp at he
  | notify d j' =>
    simp only [exec] at he
    split at he
    · rename_i hm
      simp only [Option.some.injEq] at he; subst he
      have hd : ∀ s1 : St, (notify c s1 j'.key).done = s1.done := by
        intro s1; unfold notify; split
        · rfl
        · split <;> rfl
      rw [hd]
      refine ⟨id, fun hin hadd => .inr ?_⟩
      have hx := erase_fst (h.i_disp d).l_outn hm
      have hjd := (h.i_in _ _ hin).2.2.1
      have hjj : j ≠ j' := by rintro rfl; exact hjd (h.i_fin _ _ hm).2.2
      have hbase := hloc d { s.disp d with
          out := (j', .notified) :: (s.disp d).out.erase (j', .finished) }
          (by simp only [InD, List.mem_cons, hx]; grind) id (Nat.le_refl _)
      unfold notify
      split
      · exact hbase hin hadd
      · rename_i j1 rst hp
        dsimp only at hp
        split
        · exact hbase hin hadd
        · refine hgive _ j1 ?_ ?_ hin hadd
          · right; right; dsimp only
            by_cases hdd : c.dispOf j = d
            · subst hdd; rw [upd_same]
              refine ⟨?_, rfl, rfl⟩
              simp only [InD, List.mem_cons, hx]; grind
            · rw [upd_ne _ _ hdd]; simp
          · rintro rfl
            have := h.pend_shard (sh := c.shard j'.key) (j := j) (by rw [hp]; simp)
            exact this.2.2 (this.1 ▸ (h.i_in _ _ hin).2.1)
    · simp at he
  | dec d j' =>
    simp only [exec] at he
    split at he
    · rename_i hm
      simp only [Option.some.injEq] at he; subst he
      refine ⟨id, fun hin hadd => .inr ?_⟩
      have hx := erase_fst (h.i_disp d).l_outn hm
      have hln := (h.i_disp d).l_outn
      refine hloc d _ ?_ id (Nat.le_refl _) hin hadd
      have : (j, Ph.exec) ∈ (s.disp d).out → j ≠ j' := by
        rintro h1 rfl
        have := List.inj_on_of_nodup_map hln h1 hm rfl
        simp at this
      simp only [InD, hx]; grind
    · simp at he
  | leave d =>
    simp only [exec] at he
    split at he
    · simp at he
    · simp only [Option.some.injEq] at he; subst he
      refine ⟨id, fun hin hadd => .inr ?_⟩
      exact hloc d _ Iff.rfl id (Nat.le_refl _) hin hadd
  | stop =>
    simp only [exec, Option.some.injEq] at he; subst he
    exact ⟨id, fun hin hadd => .inr ⟨hin, hadd⟩⟩
  | finBegin =>
    simp only [exec, Option.some.injEq] at he; subst he
    exact ⟨id, fun hin hadd => .inr ⟨hin, hadd⟩⟩
  | fin i =>
    simp only [exec] at he
    repeat' split at he
    all_goals simp only [Option.some.injEq, reduceCtorEq] at he
    all_goals (subst he; exact ⟨id, fun hin hadd => .inr ⟨hin, hadd⟩⟩)

theorem fin_step {c : Cfg} {s s' : St} {cur} (h : Core c s cur) {a} (he : exec c s a = some s')
    {todo base} (hf : FinInv c s todo base) : FinInv c s' todo base := by
  intro j hj
  obtain ⟨h1, h2⟩ := stay_step h he j
  rcases hf j hj with hd | ⟨ht, hin, hadd⟩
  · exact .inl (h1 hd)
  · rcases h2 hin hadd with hd | hh
    · exact .inl hd
    · exact .inr ⟨ht, hh⟩

theorem fins_other {c : Cfg} {s s' : St} {a} (he : exec c s a = some s') (h1 : a ≠ .finBegin) (h2 : ∀ i, a ≠ .fin i) :
    s'.fins = s.fins ∧ s'.returned = s.returned := by
  cases a with
  | fin i => exact absurd rfl (h2 i)
  | finBegin => exact absurd rfl h1
  | submit key w =>
    simp only [exec, Option.some.injEq] at he; subst he
    unfold submit; dsimp only; split <;> exact ⟨rfl, rfl⟩
  | notify d j =>
    simp only [exec] at he
    split at he
    · simp only [Option.some.injEq] at he; subst he
      unfold notify; split
      · exact ⟨rfl, rfl⟩
      · split <;> exact ⟨rfl, rfl⟩
    · simp at he
  | stop => simp only [exec, Option.some.injEq] at he; subst he; exact ⟨rfl, rfl⟩
  | _ =>
    simp only [exec] at he
    repeat' split at he
    all_goals simp only [Option.some.injEq, reduceCtorEq] at he
    all_goals (subst he; exact ⟨rfl, rfl⟩)

/-- C32 (partial).  When `finish()` has returned, every request that was not spooled behind another
one of its shard when it was called, and whose dispatcher had no submitter in the middle of a call,
has completed. -/
theorem finish_waits_partial {c : Cfg} (hr : 0 < c.readers) (hw : 0 < c.writers) {s : St} (h : Reach c s)
    (hlost : s.lost = []) : ∀ b ∈ s.returned, ∀ j ∈ b, j ∈ s.done := by
  have key : s.lost = [] → (∀ f ∈ s.fins, FinInv c s f.todo f.base) ∧ ∀ b ∈ s.returned, FinInv c s [] b := by
    clear hlost
    induction h with
    | init => simp [init]
    | step a hreach he ih =>
      rename_i s1 s2
      intro hl2
      obtain ⟨cur, hc⟩ := Reach.core hreach
      have hl1 : s1.lost = [] := by
        cases a with
        | submit key w =>
          simp only [exec, Option.some.injEq] at he; subst he
          revert hl2; unfold submit; dsimp only; split <;> exact id
        | notify d j =>
          simp only [exec] at he
          split at he
          · simp only [Option.some.injEq] at he; subst he
            revert hl2; unfold notify; split
            · exact id
            · split
              · intro hh; simp at hh
              · exact id
          · simp at he
        | _ =>
          simp only [exec] at he
          repeat' split at he
          all_goals simp only [Option.some.injEq, reduceCtorEq] at he
          all_goals (subst he; exact hl2)
      obtain ⟨ih1, ih2⟩ := ih hl1
      have ih1' : ∀ f ∈ s1.fins, FinInv c s2 f.todo f.base := fun f hf => fin_step hc he (ih1 f hf)
      have ih2' : ∀ b ∈ s1.returned, FinInv c s2 [] b := fun b hb => fin_step hc he (ih2 b hb)
      by_cases hf1 : a = .finBegin
      · subst hf1
        simp only [exec, Option.some.injEq] at he
        subst he
        refine ⟨?_, ih2'⟩
        intro f hf
        rcases List.mem_append.1 hf with hf | hf
        · exact ih1' f hf
        · simp only [List.mem_singleton] at hf
          subst hf
          intro j hj
          simp only [List.mem_filter, decide_eq_true_eq] at hj
          obtain ⟨hsub, hnp, hadd⟩ := hj
          rcases (hc.mem_eq j).1 hsub with hh | hh | hh
          · exact .inl hh
          · right
            refine ⟨dispOf_mem hr hw j, ?_, fun _ => hadd⟩
            have hcj : cur (c.shard j.key) = some j ∧ j ∉ s1.done := by
              cases hcc : cur (c.shard j.key) with
              | none => simp [hcc, rest] at hh
              | some j' =>
                simp only [hcc, rest] at hh
                split at hh
                · simp at hh
                · simp at hh; subst hh; exact ⟨rfl, by assumption⟩
            rcases (hc.i_cur _ _ hcj.1).2 with h3 | h3 | h3
            · exact h3
            · exact absurd (hc.i_fin _ _ h3).2.2 hcj.2
            · rw [hl1] at h3; simp at h3
          · exact absurd hh hnp
      · by_cases hf2 : ∃ i, a = .fin i
        · obtain ⟨i, rfl⟩ := hf2
          simp only [exec] at he
          split at he
          · rename_i f hfi
            have hfm := List.mem_of_getElem? hfi
            split at he
            · rename_i d rst htodo
              split at he
              · rename_i hrun
                simp only [Option.some.injEq] at he
                subst he
                refine ⟨?_, ih2'⟩
                intro g hg
                rcases List.mem_or_eq_of_mem_set hg with hg | rfl
                · exact ih1' g hg
                · intro j hj
                  rcases ih1 f hfm j hj with hd | ⟨ht, hin, hadd⟩
                  · exact .inl hd
                  · have hp := running_pos (hc.i_disp _) hin hadd
                    rw [htodo] at ht
                    rcases List.mem_cons.1 ht with rfl | ht
                    · omega
                    · exact .inr ⟨ht, hin, hadd⟩
              · simp at he
            · rename_i htodo
              simp only [Option.some.injEq] at he
              subst he
              refine ⟨fun g hg => ih1' g (List.mem_of_mem_eraseIdx hg), ?_⟩
              intro b hb
              rcases List.mem_cons.1 hb with rfl | hb
              · have := ih1 f hfm
                rw [htodo] at this
                exact this
              · exact ih2' b hb
          · simp at he
        · obtain ⟨e1, e2⟩ := fins_other he hf1 (fun i hi => hf2 ⟨i, hi⟩)
          rw [e1, e2]
          exact ⟨ih1', ih2'⟩
  intro b hb j hj
  rcases (key hlost).2 b hb j hj with hh | hh
  · exact hh
  · simp at hh

/-! ## Non-vacuity, and what `finish()` does not guarantee -/

def exCfg : Cfg := ⟨2, 1, 2, 4, 1⟩

/-- A write and a read of key 5, a read of key 3 (same shard as key 5), a write of key 2; the
writer's loop is claimed while the second write arrives. -/
def exActs : List Act :=
  [.submit 5 true, .addTask (true, 0), .begin (true, 0), .loop (true, 0) 0, .submit 5 false, .submit 3 false,
   .submit 2 true, .loop (true, 0) 0, .loop (true, 0) 0, .loop (true, 0) 0, .loop (true, 0) 0, .loop (true, 0) 0,
   .retDone (true, 0) ⟨0, 5, true⟩, .notify (true, 0) ⟨0, 5, true⟩, .addTask (false, 1), .begin (false, 1),
   .loop (false, 1) 0, .loop (false, 1) 0]

example : (runs exCfg init exActs).map (fun s => ((s.disp (false, 1)).out, (s.disp (true, 0)).out,
    (s.disp (true, 0)).loops)) =
    some ([(⟨1, 5, false⟩, .exec)], [(⟨0, 5, true⟩, .notified), (⟨3, 2, true⟩, .exec)], []) := by
  decide +kernel

example : (runs exCfg init exActs).map (fun s => (s.done.map (·.id), s.submitted.map (·.id), s.lost)) =
    some ([0], [0, 1, 2, 3], []) := by
  decide +kernel

/-- The reader of key 5 reaches its limit (one request) with key 3 in hand and waits. -/
example : (runs exCfg init (exActs ++ [.submit 1 false, .submit 7 false, .retDone (false, 1) ⟨1, 5, false⟩,
    .notify (false, 1) ⟨1, 5, false⟩, .loop (false, 1) 0, .loop (false, 1) 0, .loop (false, 1) 0])).map
      (fun s => ((s.disp (false, 1)).loops, (s.disp (false, 1)).outst, (s.disp (false, 1)).baton)) =
    some ([.wait ⟨2, 3, false⟩ []], 1, false) := by decide +kernel

/-- A call of `finish()` that waited for the request it could count on. -/
example : (runs exCfg init [.submit 5 true, .addTask (true, 0), .finBegin, .begin (true, 0), .fin 0, .fin 0,
    .loop (true, 0) 0, .loop (true, 0) 0, .loop (true, 0) 0, .leave (true, 0), .retDone (true, 0) ⟨0, 5, true⟩,
    .notify (true, 0) ⟨0, 5, true⟩, .dec (true, 0) ⟨0, 5, true⟩, .leave (true, 0), .fin 0, .fin 0]).map
      (fun s => (s.returned.map (·.map (·.id)), s.done.map (·.id), s.fins)) = some ([[0]], [0], []) := by decide +kernel

/-- An idle dispatcher has no internal action (the hypothesis of `no_stuck`)... -/
theorem idle_quiet {c : Cfg} {s : St} {d : DId} (h1 : (s.disp d).toAdd = 0) (h2 : (s.disp d).tasks = 0)
    (h3 : (s.disp d).loops = []) (h4 : (s.disp d).out = []) {a : Act} (ha : Internal d a) : exec c s a = none := by
  cases a <;> simp only [Internal] at ha <;> subst ha <;> simp [exec, h1, h2, h3, h4]

/-- ... and is reached by a run that completed a request. -/
example : (runs exCfg init [.submit 5 true, .addTask (true, 0), .begin (true, 0),
    .loop (true, 0) 0, .loop (true, 0) 0, .loop (true, 0) 0, .leave (true, 0), .retDone (true, 0) ⟨0, 5, true⟩,
    .notify (true, 0) ⟨0, 5, true⟩, .dec (true, 0) ⟨0, 5, true⟩]).map
      (fun s => exCfg.disps.all (fun d => (s.disp d).toAdd == 0 && (s.disp d).tasks == 0 &&
        decide ((s.disp d).loops = []) && decide ((s.disp d).out = []))) = some true := by decide +kernel

/-- Finding: `finish()` visits each dispatcher once.  A read spooled behind a write of its key is
submitted to the reader after the reader was found idle: `finish()` returns, the read submitted
before the call has not run. -/
theorem finish_misses_spooled : ∃ s, Reach exCfg s ∧ s.returned ≠ [] ∧ s.fins = [] ∧
    ⟨1, 5, false⟩ ∈ s.submitted ∧ ⟨1, 5, false⟩ ∉ s.done ∧ s.stopped = false := by
  let acts : List Act := [.submit 5 true, .addTask (true, 0), .submit 5 false, .finBegin, .fin 0, .fin 0,
    .begin (true, 0), .loop (true, 0) 0, .loop (true, 0) 0, .loop (true, 0) 0, .leave (true, 0),
    .retDone (true, 0) ⟨0, 5, true⟩, .notify (true, 0) ⟨0, 5, true⟩, .dec (true, 0) ⟨0, 5, true⟩, .leave (true, 0),
    .fin 0, .fin 0]
  have h : ((runs exCfg init acts).map (fun s => (decide (s.returned ≠ []) && decide (s.fins = []) &&
    decide ((⟨1, 5, false⟩ : Job) ∈ s.submitted) && decide ((⟨1, 5, false⟩ : Job) ∉ s.done) && !s.stopped))) = some true := by
    decide +kernel
  cases hr : runs exCfg init acts with
  | none => rw [hr] at h; simp at h
  | some s =>
    rw [hr] at h
    simp only [Option.map_some, Option.some.injEq, Bool.and_eq_true, decide_eq_true_eq, Bool.not_eq_true'] at h
    exact ⟨s, Reach.runs .init hr, h.1.1.1.1, h.1.1.1.2, h.1.1.2, h.1.2, h.2⟩

/-- Finding: a submitter that found the list empty and has not yet added the dispatch task is not
counted by `drain()`.  A second request behind it, whose submission has returned, is missed. -/
theorem finish_misses_racing : ∃ s, Reach exCfg s ∧ s.returned ≠ [] ∧ s.fins = [] ∧
    ⟨1, 2, true⟩ ∈ s.submitted ∧ ⟨1, 2, true⟩ ∉ s.done ∧ s.stopped = false := by
  let acts : List Act := [.submit 5 true, .submit 2 true, .finBegin, .fin 0, .fin 0, .fin 0, .fin 0]
  have h : ((runs exCfg init acts).map (fun s => (decide (s.returned ≠ []) && decide (s.fins = []) &&
    decide ((⟨1, 2, true⟩ : Job) ∈ s.submitted) && decide ((⟨1, 2, true⟩ : Job) ∉ s.done) && !s.stopped))) = some true := by
    decide +kernel
  cases hr : runs exCfg init acts with
  | none => rw [hr] at h; simp at h
  | some s =>
    rw [hr] at h
    simp only [Option.map_some, Option.some.injEq, Bool.and_eq_true, decide_eq_true_eq, Bool.not_eq_true'] at h
    exact ⟨s, Reach.runs .init hr, h.1.1.1.1, h.1.1.1.2, h.1.1.2, h.1.2, h.2⟩

end Verif.Sched.Navy
