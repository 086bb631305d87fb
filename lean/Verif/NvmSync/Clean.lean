import Verif.NvmSync.Ver
/-! Cleanliness: no version below a bound can come back from flash. -/
namespace Verif.NvmSync
variable {n : Nat}

/-- the effect of the request at the head has happened. -/
@[grind] def started : Run → Bool
  | .insDone => true
  | .remDone => true
  | .idle => false
  | .remFailed => false
  | .disabling => false
  | .lkGot _ => false
  | .lkOpen _ => false
  | .lkLocked _ => false
  | .lkChecked _ => false
  | .lkErrTomb => false
  | .lkErrSync => false
  | .lkErr _ => false
  | .lkDone => false

/-- requests whose effect is still to come. -/
def pend (r : Run) (q : List Job) : List Job := if started r then q.tail else q

/-- every insert of a version below `b` is followed by a remove. -/
def Cov (b : Nat) : List Job → Prop
  | [] => True
  | .insert v :: q => (v < b → Job.remove ∈ q) ∧ Cov b q
  | .remove :: q => Cov b q
  | .lookup :: q => Cov b q

theorem cov_tail {b : Nat} {j : Job} {q : List Job} (h : Cov b (j :: q)) : Cov b q := by
  cases j <;> simp only [Cov] at h
  · exact h.2
  · exact h
  · exact h

theorem cov_snoc_other {b : Nat} {j : Job} : ∀ {q : List Job}, Cov b q →
    (∀ v, j = .insert v → b ≤ v) → Cov b (q ++ [j])
  | [], _, hj => by
    cases j <;> simp only [List.nil_append, Cov] <;> try trivial
    rename_i v; have := hj v rfl; exact ⟨fun h => by omega, trivial⟩
  | x :: q, h, hj => by
    have ih := cov_snoc_other (cov_tail h) hj
    cases x <;> simp only [List.cons_append, Cov] at h ⊢
    · exact ⟨fun hv => List.mem_append_left _ (h.1 hv), ih⟩
    · exact ih
    · exact ih

theorem cov_snoc_remove {b : Nat} : ∀ (q : List Job), Cov b (q ++ [.remove])
  | [] => trivial
  | x :: q => by
    have ih := cov_snoc_remove (b := b) q
    cases x <;> simp only [List.cons_append, Cov]
    · exact ⟨fun _ => by simp, ih⟩
    · exact ih
    · exact ih

theorem cov_of_ge {b b' : Nat} : ∀ {q : List Job}, Cov b q → (∀ v, Job.insert v ∈ q → v < b) → Cov b' q
  | [], _, _ => trivial
  | x :: q, h, hj => by
    have ih := cov_of_ge (b' := b') (cov_tail h) (fun v hv => hj v (List.mem_cons_of_mem _ hv))
    cases x <;> simp only [Cov] at h ⊢
    · rename_i v; exact ⟨fun _ => h.1 (hj v (by simp)), ih⟩
    · exact ih
    · exact ih

theorem cov_of_none {b : Nat} : ∀ {q : List Job}, (∀ v, v < b → Job.insert v ∉ q) → Cov b q
  | [], _ => trivial
  | x :: q, hj => by
    have ih := cov_of_none (b := b) (q := q) (fun v hv hm => hj v hv (List.mem_cons_of_mem _ hm))
    cases x <;> simp only [Cov]
    · rename_i v; exact ⟨fun hv => absurd (by simp) (hj v hv), ih⟩
    · exact ih
    · exact ih

/-- a valid put token belongs to an item of version at least `b`. -/
def TokOk (s : State n) (b : Nat) : Prop :=
  ∀ p it, s.token = some p → p.1 = true → evItem (s.pc p.2) = some it → b ≤ it.ver

structure NClean (s : State n) (b : Nat) : Prop where
  c1 : ∀ v, s.navy = some v → v < b → Job.remove ∈ pend s.run s.queue
  c2 : Cov b (pend s.run s.queue)
  c3 : TokOk s b
  c4 : ∀ v, lkV s.run = some v → v < b →
    Job.remove ∈ s.queue ∨ ∀ c, s.fill = some c → c.valid = false
  c5 : ∀ v, s.run = .lkChecked v → b ≤ v

def Fresh (s : State n) (b : Nat) : Prop := ∀ r, s.ram = some r → r.mark ≠ .excl → b ≤ r.ver

theorem fresh_step {s s' : State n} {b : Nat} (h : Fresh s b) (hb : b ≤ s.retBelow) (c0 : InvC0 s)
    (hk : ∀ v, s.run = .lkChecked v → b ≤ v) (hs : Step good s s') : Fresh s' b := by
  have ver := c0.ver
  clear c0
  unfold Fresh at *
  cases hs
  case wRm s1 t lim k r r' hp hr => cases hr <;> simp only [State.setPc] <;> grind
  case lkErrRm s1 r r' hr hs => cases hs <;> grind
  all_goals try have hh := look_hit ‹_›
  all_goals (simp only [State.setPc]; grind)

theorem tokOk_step {s s' : State n} {b : Nat} (B : InvB s) (h : TokOk s b)
    (hf : Fresh s b ∨ ∃ r, s'.ram = some r ∧ r.mark = .free) (hs : Step good s s') : TokOk s' b := by
  have mov := B.mov
  clear B
  unfold Fresh TokOk at *
  cases hs
  case wRm s1 t lim k r r' hp hr => cases hr <;> simp only [State.setPc] <;> grind
  case lkErrRm s1 r r' hr hs => cases hs <;> grind
  all_goals try have hh := look_hit ‹_›
  case evUnlinkDrop t it tk hp => cases tk <;> simp only [State.setPc] at * <;> grind
  all_goals (simp only [State.setPc] at *; grind)

theorem pend_started {r : Run} {q : List Job} (h : started r = true) : pend r q = q.tail := by
  simp [pend, h]
theorem pend_not {r : Run} {q : List Job} (h : started r = false) : pend r q = q := by
  simp [pend, h]
grind_pattern pend_started => pend r q
grind_pattern pend_not => pend r q

@[grind →] theorem mem_of_mem_pend {r : Run} {q : List Job} {j : Job} (h : j ∈ pend r q) : j ∈ q := by
  unfold pend at h; split at h
  · exact List.mem_of_mem_tail h
  · exact h

/-- a step that appends a request leaves the head alone. -/
theorem pend_append {s : State n} (a : InvA s) (j : Job) :
    pend s.run (s.queue ++ [j]) = pend s.run s.queue ++ [j] := by
  unfold pend
  split
  · rename_i h
    have : s.queue ≠ [] := by
      intro he
      cases hr : s.run <;> simp [hr, started] at h
      · obtain ⟨v, q, hq⟩ := a.hI hr; rw [he] at hq; cases hq
      · obtain ⟨q, hq⟩ := a.hR hr; rw [he] at hq; cases hq
    cases hq : s.queue with
    | nil => exact absurd hq this
    | cons x q => rfl
  · rfl

theorem cov_insert {b v : Nat} {q : List Job} (h : Cov b (.insert v :: q)) : v < b → Job.remove ∈ q := h.1
grind_pattern cov_insert => Cov b (.insert v :: q)
grind_pattern cov_tail => Cov b (j :: q)

set_option maxHeartbeats 4000000 in
theorem nclean_step {s s' : State n} {b : Nat} (a : InvA s) (B : InvB s) (C : InvC s)
    (h : NClean s b)
    (h3 : TokOk s' b) (hs : Step good s s') : NClean s' b := by
  have pa := pend_append a
  have nf1 := a.nf1
  have hI := a.hI
  have hR := a.hR
  have hL := a.hL
  have fQ := a.fQ
  have tok := B.tok
  have hrm := cov_snoc_remove (b := b) (pend s.run s.queue)
  have hlk := cov_snoc_other (b := b) (j := .lookup) h.c2 (by simp)
  obtain ⟨c1, c2, c3, c4, c5⟩ := h
  clear a B C
  cases hs
  case putEnq t o it hp ht =>
    have hin : b ≤ it.ver := by
      obtain ⟨p, h1, h2⟩ := tok t (by rw [hp]; rfl)
      exact c3 p it h1 (by rw [ht] at h1; cases h1; rfl) (by rw [h2, hp]; rfl)
    have hcv := cov_snoc_other (b := b) (j := .insert it.ver) c2 (by intro v hv; cases hv; exact hin)
    exact ⟨by simp only [State.setPc]; grind, by simp only [State.setPc]; grind, h3, by simp only [State.setPc]; grind, by simp only [State.setPc]; grind⟩
  case wRm s1 t lim k r r' hp hr => 
    cases hr <;> exact ⟨by simp only [State.setPc]; grind, by simp only [State.setPc]; grind, h3, by simp only [State.setPc]; grind, by simp only [State.setPc]; grind⟩
  case lkErrRm s1 r r' hr hs => 
    cases hs <;> exact ⟨by simp only [afterErr]; grind, by simp only [afterErr]; grind, h3, by simp only [afterErr]; grind, by simp only [afterErr]; grind⟩
  case navyDrop ha => cases ha
  case lkCheck v c hr ht hf hv =>
    have : Job.remove ∉ s.queue := fun hm => ht (Or.inr (Or.inr hm))
    exact ⟨by grind, by grind, h3, by grind, by grind⟩
  all_goals try have hy := fun c => @invalidateFill_some s.fill c
  all_goals exact ⟨by simp only [State.setPc]; grind, by simp only [State.setPc]; grind, h3, by simp only [State.setPc]; grind, by simp only [State.setPc]; grind⟩

end Verif.NvmSync
