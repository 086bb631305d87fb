import Verif.Sched.PoolInv
/-!
# Property C32 for the ordered thread-pool scheduler

* `key_order`: requests complete in the order of submission, per key (prefix).
* `one_at_a_time`, `runs_after_earlier`: while a request runs, no other of its key runs, and
  all the earlier ones of its key have completed.
* `executed_once`: a request completes at most once, and only if it was submitted.
* `finish_waits`: when `finish()` returns, everything submitted before the call has completed,
  whatever is submitted meanwhile.
* `no_stuck`: if no worker can move, everything submitted has completed (no lost wake-up, no
  request forgotten in a shard).
-/
namespace Verif.Sched.Pool
open Verif

/-- C32.  The requests of a key that completed are the first ones submitted, in order. -/
theorem key_order {c : Cfg} {s : St} (h : Reach c s) (k : Nat) :
    s.done.filter (fun j => j.key = k) <+: s.submitted.filter (fun j => j.key = k) := by
  obtain ⟨cur, h⟩ := h.core
  have heq := congrArg (List.filter (fun j : Job => decide (j.key = k))) (h.i_eq (c.shard k))
  rw [List.filter_append, List.filter_filter, List.filter_filter] at heq
  have hff : ∀ l : List Job, l.filter (fun j => decide (j.key = k) && decide (c.shard j.key = c.shard k)) =
      l.filter (fun j => decide (j.key = k)) := by
    intro l
    apply List.filter_congr
    intro j _
    by_cases hk : j.key = k <;> simp [hk]
  rw [hff, hff] at heq
  exact ⟨_, heq.symm⟩

/-- C32.  At most one request of a key runs at any time. -/
theorem one_at_a_time {c : Cfg} {s : St} (h : Reach c s) {q q' : QId} {j j' : Job}
    (hj : s.worker q = .exec j) (hj' : s.worker q' = .exec j') (hk : j.key = j'.key) :
    q = q' ∧ j = j' := by
  obtain ⟨cur, h⟩ := h.core
  obtain ⟨h1, h2, _⟩ := h.i_exec _ _ (.inl hj)
  obtain ⟨h1', h2', _⟩ := h.i_exec _ _ (.inl hj')
  rw [hk, h2'] at h2
  cases h2
  exact ⟨h1.symm.trans h1', rfl⟩

/-- C32.  While a request runs, every earlier request of its key has completed, itself and the
later ones have not. -/
theorem runs_after_earlier {c : Cfg} {s : St} (h : Reach c s) {q : QId} {j : Job}
    (hj : s.worker q = .exec j) :
    j ∈ s.submitted ∧ ∀ j' ∈ s.submitted, j'.key = j.key → (j' ∈ s.done ↔ j'.id < j.id) := by
  obtain ⟨cur, h⟩ := h.core
  obtain ⟨h1, h2, h3, _⟩ := h.i_exec _ _ (.inl hj)
  refine ⟨h.cur_sub h2, fun j' hs hk => ?_⟩
  have heq := h.i_eq (c.shard j.key)
  have hp : (s.submitted.filter (fun x => c.shard x.key = c.shard j.key)).Pairwise (fun a b => a.id < b.id) := by
    apply List.Pairwise.filter
    rw [List.pairwise_iff_getElem]
    intro a b ha hb hab
    have e1 := h.i_id a _ (List.getElem?_eq_getElem ha)
    have e2 := h.i_id b _ (List.getElem?_eq_getElem hb)
    omega
  rw [heq, h2] at hp
  simp only [rest, h3, if_false, List.cons_append, List.nil_append] at hp
  rw [List.pairwise_append] at hp
  obtain ⟨_, p2, p3⟩ := hp
  constructor
  · intro hd
    exact p3 j' (by simp [hd, hk]) j (by simp)
  · intro hlt
    rcases (h.mem_eq j').1 hs with hd | hr | hpd
    · exact hd
    · rw [hk, h2] at hr
      simp [rest, h3] at hr
      subst hr; omega
    · rw [hk] at hpd
      have := (List.pairwise_cons.1 p2).1 j' hpd
      omega

/-- C32.  No request completes twice, and only submitted requests complete. -/
theorem executed_once {c : Cfg} {s : St} (h : Reach c s) :
    s.done.Nodup ∧ ∀ j ∈ s.done, j ∈ s.submitted := by
  obtain ⟨cur, h⟩ := h.core
  exact ⟨h.nodup_done, fun j hj => h.done_sub hj⟩

/-- Queues of submitted jobs are among those `finish` visits. -/
theorem queueOf_mem {c : Cfg} (hr : 0 < c.readers) (hw : 0 < c.writers) (j : Job) :
    c.queueOf j ∈ c.queues := by
  unfold Cfg.queueOf Cfg.queues
  split
  · simp; exact Nat.mod_lt _ hw
  · simp; exact Nat.mod_lt _ hr

theorem all_done_of_idle {c : Cfg} {s : St} {cur} (h : Core c s cur) (hr : 0 < c.readers) (hw : 0 < c.writers)
    (hd : s.dropped = []) (hi : ∀ q ∈ c.queues, s.queue q = [] ∧ s.processing q = 0) :
    ∀ j ∈ s.submitted, j ∈ s.done := by
  have hc : ∀ sh, cur sh = none := by
    intro sh
    cases hcs : cur sh with
    | none => rfl
    | some j =>
      obtain ⟨_, hh⟩ := h.i_cur sh j hcs
      obtain ⟨hq, hp⟩ := hi _ (queueOf_mem hr hw j)
      rw [h.i_proc] at hp
      rw [hq, hd] at hh
      rcases hh with hh | hh | hh | hh | hh
      · simp at hh
      · rw [hh] at hp; simp [W.busy] at hp
      · rw [hh] at hp; simp [W.busy] at hp
      · rw [hh] at hp; simp [W.busy] at hp
      · simp at hh
  intro j hj
  rcases (h.mem_eq j).1 hj with hh | hh | hh
  · exact hh
  · rw [hc] at hh; simp [rest] at hh
  · rw [h.i_pend] at hh
    · simp at hh
    · rw [h.i_spool, hc]; rfl

/-- C32.  With no queue stopped, a state in which no worker can make a step and no notification
is outstanding has completed everything that was submitted. -/
theorem no_stuck {c : Cfg} {s : St} (h : Reach c s) (hr : 0 < c.readers) (hw : 0 < c.writers)
    (hs : ∀ q ∈ c.queues, s.stop q = false) (hd : s.dropped = [])
    (hq : ∀ q ∈ c.queues, ∀ a ∈ [Act.look q, .notify q, .retDone q, .next q, .relock q], exec c s a = none) :
    ∀ j ∈ s.submitted, j ∈ s.done := by
  obtain ⟨cur, h⟩ := h.core
  apply all_done_of_idle h hr hw hd
  intro q hm
  have h1 := hq q hm (.look q) (by simp)
  have h2 := hq q hm (.notify q) (by simp)
  have h3 := hq q hm (.retDone q) (by simp)
  have h4 := hq q hm (.next q) (by simp)
  have h5 := hq q hm (.relock q) (by simp)
  have hn : s.notifs q = 0 := by
    simp only [exec] at h2
    split at h2
    · assumption
    · simp at h2
  have hwk : s.worker q = .asleep := by
    cases hwq : s.worker q with
    | asleep => rfl
    | idle => simp only [exec, hwq, hs q hm] at h1; cases hqq : s.queue q <;> simp [hqq] at h1
    | exec j => simp [exec, hwq] at h3
    | finished j => simp [exec, hwq] at h4
    | retiring j => simp [exec, hwq] at h5
    | resched j => simp [exec, hwq] at h5
  refine ⟨?_, by rw [h.i_proc, hwk]; rfl⟩
  cases hqq : s.queue q with
  | nil => rfl
  | cons a l => have := h.i_sleep q hwk (by simp [hqq]); omega

/-! ## finish() -/

/-- What `finish()` relies on between the visits of the queues. -/
def FinInv (c : Cfg) (s : St) (f : Fin) : Prop :=
  ∃ (vis : List QId) (P E C : QId → Nat),
    c.queues = vis ++ f.todo ∧ f.prev = (c.queues.map P).sum ∧ f.sum = (vis.map C).sum ∧
    (∀ q ∈ c.queues, P q ≤ E q ∧ E q ≤ s.enq q) ∧
    (∀ q ∈ vis, E q ≤ C q ∧ C q ≤ s.enq q ∧ (s.enq q = C q → s.queue q = [] ∧ s.processing q = 0)) ∧
    ((∀ q ∈ c.queues, E q = P q) → s.dropped ≠ [] ∨ ∀ j ∈ f.base, j ∈ s.done) ∧
    (∀ j ∈ f.base, j ∈ s.submitted)

structure Frame (s s' : St) : Prop where
  enq : ∀ q, s.enq q ≤ s'.enq q
  idle : ∀ q, s.queue q = [] ∧ s.processing q = 0 → s'.enq q = s.enq q → s'.queue q = [] ∧ s'.processing q = 0
  done : ∀ j ∈ s.done, j ∈ s'.done
  sub : ∀ j ∈ s.submitted, j ∈ s'.submitted
  drop : s.dropped ≠ [] → s'.dropped ≠ []

theorem frame_push {c : Cfg} {s : St} {j : Job} : Frame s (push c s j) := by
  unfold push; dsimp only
  constructor
  all_goals
    split <;> split <;> simp (config := { contextual := true }) [upd] <;> grind

theorem Frame.trans {a b c : St} (h : Frame a b) (h' : Frame b c) : Frame a c where
  enq q := Nat.le_trans (h.enq q) (h'.enq q)
  idle q hi he := by
    have := h.enq q; have := h'.enq q
    exact h'.idle q (h.idle q hi (by omega)) (by omega)
  done j hj := h'.done j (h.done j hj)
  sub j hj := h'.sub j (h.sub j hj)
  drop hd := h'.drop (h.drop hd)

/-- A change of fields the frame does not mention. -/
theorem Frame.of_eq {s s' : St} (h1 : s'.enq = s.enq) (h2 : s'.queue = s.queue)
    (h3 : s'.processing = s.processing) (h4 : ∀ j ∈ s.done, j ∈ s'.done)
    (h5 : ∀ j ∈ s.submitted, j ∈ s'.submitted) (h6 : s'.dropped = s.dropped) : Frame s s' := by
  constructor
  · simp [h1]
  · simp (config := { contextual := true }) [h2, h3]
  · exact h4
  · exact h5
  · simp [h6]

theorem frame_submit {c : Cfg} {s : St} {k w} : Frame s (submit c s k w) := by
  unfold submit; dsimp only
  split
  · exact Frame.of_eq rfl rfl rfl (by simp) (by simp (config := { contextual := true })) rfl
  · exact Frame.trans (b := { s with
      submitted := s.submitted ++ [⟨s.submitted.length, k, w⟩]
      spool := upd s.spool (c.shard k) true })
      (Frame.of_eq rfl rfl rfl (by simp) (by simp (config := { contextual := true })) rfl) frame_push

theorem frame_next {c : Cfg} {s : St} {sh} : Frame s (next c s sh) := by
  unfold next
  split
  · exact Frame.of_eq rfl rfl rfl (by simp) (by simp) rfl
  · exact Frame.trans (frame_push (c := c) (s := s)) (Frame.of_eq rfl rfl rfl (by simp) (by simp) rfl)

theorem frame_fin {c : Cfg} {s s' : St} {i f} (he : finStep c s i f = some s') : Frame s s' := by
  unfold finStep at he
  repeat' split at he
  all_goals simp only [Option.some.injEq, reduceCtorEq] at he
  all_goals (subst he; exact Frame.of_eq rfl rfl rfl (by simp) (by simp) rfl)

theorem frame_step {c : Cfg} {s s' : St} {cur} (h : Core c s cur) {a} (he : exec c s a = some s') : Frame s s' := by
  have h11 := h.i_proc
  cases a
  case submit k w => exec_simp he; exact frame_submit
  case next q =>
    exec_simp he
    exact Frame.trans (frame_next (c := c) (s := s)) (Frame.of_eq rfl rfl rfl (by simp) (by simp) rfl)
  case fin i =>
    simp only [exec] at he
    split at he
    · exact frame_fin he
    · simp at he
  case look q =>
    exec_simp he
    · exact Frame.of_eq rfl rfl rfl (by simp) (by simp) rfl
    · constructor <;> dsimp only <;> grind [upd]
  case relock q =>
    exec_simp he
    · constructor <;> dsimp only <;> grind [upd]
    · rename_i j hw
      have := h11 q
      rw [hw] at this
      constructor <;> dsimp only <;> grind [upd, W.busy]
  all_goals exec_simp he
  all_goals exact Frame.of_eq rfl rfl rfl (by simp (config := { contextual := true })) (by simp) rfl

theorem fin_frame {c : Cfg} {s s' : St} {f : Fin} (h : FinInv c s f) (hf : Frame s s') : FinInv c s' f := by
  obtain ⟨vis, P, E, C, h1, h2, h3, h4, h5, h6, h7⟩ := h
  refine ⟨vis, P, E, C, h1, h2, h3, ?_, ?_, ?_, fun j hj => hf.sub j (h7 j hj)⟩
  · intro q hq
    exact ⟨(h4 q hq).1, Nat.le_trans (h4 q hq).2 (hf.enq q)⟩
  · intro q hq
    obtain ⟨a1, a2, a3⟩ := h5 q hq
    have := hf.enq q
    refine ⟨a1, by omega, fun he => ?_⟩
    exact hf.idle q (a3 (by omega)) (by omega)
  · intro he
    rcases h6 he with hd | hd
    · exact .inl (hf.drop hd)
    · exact .inr fun j hj => hf.done j (hd j hj)

theorem sum_le {l : List QId} {f g : QId → Nat} (h : ∀ q ∈ l, f q ≤ g q) : (l.map f).sum ≤ (l.map g).sum := by
  induction l with
  | nil => simp
  | cons a l ih =>
    simp only [List.map_cons, List.sum_cons]
    have := h a (by simp)
    have := ih (fun q hq => h q (by simp [hq]))
    omega

theorem sum_eq_pt {l : List QId} {f g : QId → Nat} (h : ∀ q ∈ l, f q ≤ g q)
    (hs : (l.map f).sum = (l.map g).sum) : ∀ q ∈ l, f q = g q := by
  induction l with
  | nil => simp
  | cons a l ih =>
    simp only [List.map_cons, List.sum_cons] at hs
    have h1 := h a (by simp)
    have h2 := sum_le (l := l) (fun q hq => h q (by simp [hq]))
    have h3 := ih (fun q hq => h q (by simp [hq])) (by omega)
    intro q hq
    rcases List.mem_cons.1 hq with rfl | hq
    · omega
    · exact h3 q hq

structure FinOK (c : Cfg) (s : St) : Prop where
  run : ∀ f ∈ s.fins, FinInv c s f
  ret : ∀ b ∈ s.returned, s.dropped ≠ [] ∨ ∀ j ∈ b, j ∈ s.done

theorem finOK_step {c : Cfg} (hr : 0 < c.readers) (hw : 0 < c.writers) {s s' : St} {cur} (h : Core c s cur)
    (hf : FinOK c s) {a} (he : exec c s a = some s') : FinOK c s' := by
  have hfr := frame_step h he
  have hret : ∀ b ∈ s.returned, s'.dropped ≠ [] ∨ ∀ j ∈ b, j ∈ s'.done := by
    intro b hb
    rcases hf.ret b hb with hd | hd
    · exact .inl (hfr.drop hd)
    · exact .inr fun j hj => hfr.done j (hd j hj)
  have hrun : ∀ f ∈ s.fins, FinInv c s' f := fun f hm => fin_frame (hf.run f hm) hfr
  by_cases hfin : s'.fins = s.fins ∧ s'.returned = s.returned
  · exact ⟨by rw [hfin.1]; exact hrun, by rw [hfin.2]; exact hret⟩
  · cases a
    case finBegin =>
      exec_simp he
      refine ⟨?_, hret⟩
      intro f hm
      rcases List.mem_append.1 hm with hm | hm
      · exact hrun f hm
      · simp at hm; subst hm
        refine ⟨[], fun _ => 0, s.enq, fun _ => 0, rfl, ?_, rfl, ?_, by simp, ?_, ?_⟩
        · simp
        · simp
        · intro hz
          by_cases hdr : s.dropped = []
          · exact .inr (all_done_of_idle h hr hw hdr (fun q hq => h.i_enq q (hz q hq)))
          · exact .inl hdr
        · simp
    case fin i =>
      simp only [exec] at he
      split at he
      · rename_i f hfi
        have hfm : f ∈ s.fins := List.mem_of_getElem? hfi
        obtain ⟨vis, P, E, C, h1, h2, h3, h4, h5, h6, h7⟩ := hf.run f hfm
        unfold finStep at he
        split at he
        · rename_i q todo htodo
          split at he
          · rename_i hidle
            simp only [Option.some.injEq] at he
            subst he
            refine ⟨?_, hret⟩
            intro g hg
            rcases List.mem_or_eq_of_mem_set hg with hg | rfl
            · exact hrun g hg
            · refine ⟨vis ++ [q], P, E, fun x => if x ∈ vis then C x else s.enq x, ?_, h2, ?_, h4, ?_, h6, h7⟩
              · rw [h1, htodo]; simp
              · have hqn : q ∉ vis := by
                  have hn : c.queues.Nodup := by
                    unfold Cfg.queues
                    rw [List.nodup_append]
                    refine ⟨List.nodup_range.map (fun a b h => by simpa using h),
                      List.nodup_range.map (fun a b h => by simpa using h), ?_⟩
                    intro a ha b hb hab
                    simp at ha hb
                    obtain ⟨_, _, rfl⟩ := ha
                    obtain ⟨_, _, rfl⟩ := hb
                    simp at hab
                  rw [h1, htodo, List.nodup_append] at hn
                  intro hqv
                  exact hn.2.2 q hqv q (by simp) rfl
                show f.sum + s.enq q = _
                rw [List.map_append, List.sum_append, h3]
                congr 1
                · congr 1
                  apply List.map_congr_left
                  intro x hx
                  simp [hx]
                · simp [hqn]
              · intro x hx
                by_cases hxv : x ∈ vis
                · simpa [hxv] using h5 x hxv
                · have : x = q := by simpa [hxv] using hx
                  subst this
                  simp only [hxv, if_false]
                  exact ⟨(h4 x (by rw [h1, htodo]; simp)).2, Nat.le_refl _, fun _ => ⟨hidle.2, hidle.1⟩⟩
          · simp at he
        · rename_i htodo
          rw [htodo, List.append_nil] at h1
          split at he
          · rename_i hsum
            simp only [Option.some.injEq] at he
            subst he
            refine ⟨fun g hg => hrun g (List.mem_of_mem_eraseIdx hg), ?_⟩
            intro b hb
            rcases List.mem_cons.1 hb with rfl | hb
            · apply h6
              intro q hq
              have hle : ∀ q ∈ c.queues, P q ≤ C q := fun q hq =>
                Nat.le_trans (h4 q hq).1 (h5 q (h1 ▸ hq)).1
              have := sum_eq_pt hle (by rw [← h2, ← hsum, h3, h1]) q hq
              have := (h4 q hq).1
              have := (h5 q (h1 ▸ hq)).1
              omega
            · exact hret b hb
          · simp only [Option.some.injEq] at he
            subst he
            refine ⟨?_, hret⟩
            intro g hg
            rcases List.mem_or_eq_of_mem_set hg with hg | rfl
            · exact hrun g hg
            · refine ⟨[], C, s.enq, fun _ => 0, rfl, ?_, rfl, ?_, by simp, ?_, h7⟩
              · show f.sum = _; rw [h3, h1]
              · intro q hq; exact ⟨(h5 q (h1 ▸ hq)).2.1, Nat.le_refl _⟩
              · intro hz
                by_cases hdr : s.dropped = []
                · refine .inr fun j hj => ?_
                  exact all_done_of_idle h hr hw hdr
                    (fun q hq => (h5 q (h1 ▸ hq)).2.2 (hz q hq)) j (h7 j hj)
                · exact .inl hdr
      · simp at he
    all_goals exfalso; apply hfin
    all_goals exec_simp he
    all_goals first
      | exact ⟨rfl, rfl⟩
      | (simp only [submit, push]; repeat' split) <;> exact ⟨rfl, rfl⟩
      | (simp only [next, push]; repeat' split) <;> exact ⟨rfl, rfl⟩

/-- C32.  When a call of `finish()` has returned, everything submitted before the call has
completed, unless a queue was stopped and refused work. -/
theorem finish_waits {c : Cfg} (hr : 0 < c.readers) (hw : 0 < c.writers) {s : St} (h : Reach c s)
    (hd : s.dropped = []) : ∀ b ∈ s.returned, ∀ j ∈ b, j ∈ s.done := by
  have : FinOK c s := by
    induction h with
    | init => constructor <;> simp [init]
    | step a hreach he ih =>
      rename_i s1 s2
      obtain ⟨cur, hc⟩ := Reach.core hreach
      have hfr := frame_step hc he
      have hd1 : s1.dropped = [] := by
        cases hdd : s1.dropped with
        | nil => rfl
        | cons a l => exact absurd hd (hfr.drop (by simp [hdd]))
      exact finOK_step hr hw hc (ih hd1) he
  intro b hb
  rcases this.ret b hb with hh | hh
  · exact absurd hd hh
  · exact hh

/-! ## Non-vacuity -/

/-- Two readers, one writer, two shards. -/
def exCfg : Cfg := ⟨2, 1, 1⟩

/-- Three requests of key 5 (a write, a read, a write), one of key 2; the first is rescheduled
once, the worker of the reader had gone to sleep before; `finish()` is called in the middle. -/
def exActs : List Act :=
  [.look (false, 1), .submit 5 true, .submit 5 false, .submit 5 true, .submit 2 true, .finBegin,
   .look (true, 0), .retResched (true, 0), .relock (true, 0),
   .look (true, 0), .retDone (true, 0), .next (true, 0), .relock (true, 0),
   .look (true, 0), .retDone (true, 0), .next (true, 0), .notify (true, 0), .notify (false, 1),
   .look (false, 1)]

def exMore : List Act :=
  [.retDone (false, 1), .next (false, 1), .relock (false, 1), .relock (true, 0), .fin 0, .fin 0,
   .look (true, 0), .retDone (true, 0), .next (true, 0), .relock (true, 0), .fin 0, .fin 0,
   .fin 0, .fin 0, .fin 0, .fin 0]

/-- The read of key 5 runs (on the reader), after the write of key 5. -/
example : (runs exCfg init exActs).map (fun s => (s.worker (false, 1), s.done.map (·.id), s.submitted.map (·.id))) =
    some (.exec ⟨1, 5, false⟩, [3, 0], [0, 1, 2, 3]) := by decide +kernel

/-- `finish()` returned, with its four requests done. -/
example : (runs exCfg init (exActs ++ exMore)).map
    (fun s => (s.returned.map (·.map (·.id)), s.done.map (·.id), s.dropped, s.fins.length)) =
    some ([[0, 1, 2, 3]], [3, 0, 1, 2], [], 0) := by decide +kernel

/-- Before the last step it had not. -/
example : (runs exCfg init (exActs ++ exMore.dropLast)).map (fun s => (s.returned, s.fins.length)) =
    some ([], 1) := by decide +kernel

/-- A state in which nothing can move (`no_stuck`): both workers asleep, all done. -/
example : (runs exCfg init (exActs ++ exMore ++ [.look (true, 0), .look (false, 1), .look (false, 0)])).map
    (fun s => ((exCfg.queues.flatMap fun q => [Act.look q, .notify q, .retDone q, .next q, .relock q]).all
        (fun a => (exec exCfg s a).isNone), s.done.length, s.submitted.length)) = some (true, 4, 4) := by
  decide +kernel

end Verif.Sched.Pool
