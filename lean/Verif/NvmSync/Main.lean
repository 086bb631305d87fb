import Verif.NvmSync.Clean
/-! The main invariant. -/
namespace Verif.NvmSync
variable {n : Nat}

/-- the caller of `remove` / `insertOrReplace` holds a tombstone and has synchronised with fills. -/
@[grind] def synced : WSt → Bool
  | .ins => false
  | .tomb => false
  | .sync => false
  | .ret => false
  | .find => true
  | .impl _ => true
  | .flag _ => true
  | .rm _ => true

/-- NvmCache::remove has passed the token invalidation. -/
@[grind] def pastInval : Rm → Bool
  | .start => false
  | .inval => false
  | .ctx => true
  | .exist => true
  | .enq => true

/-- ghost bound carried by a find in progress. -/
@[grind] def findN : PC → Option Nat
  | .w _ _ _ => none
  | .idle => none
  | .evMoving _ => none
  | .evMovTok _ _ => none
  | .evTok _ _ => none
  | .evPut _ => none
  | .evCtx _ => none
  | .fdRam m => some m
  | .fdNvm m => some m
  | .fdInval m => some m
  | .fdShared m => some m
  | .fdLock m => some m
  | .fdRam2 m => some m
  | .fdFill m => some m
  | .fdEnq m => some m
  | .fdWait m _ => some m
  | .fdRet _ _ _ => none

/-- no insertOrReplace in progress inserts item `i`. -/
def NotOwn (s : State n) (i : Nat) : Prop := ∀ t, insId (s.pc t) ≠ some i

/-- no lookup is between its checks and its insertion into RAM. -/
def NoChk (s : State n) : Prop := ∀ v, s.run ≠ .lkChecked v

/-- what a write operation in progress has achieved so far. -/
def WOb (s : State n) (lim : Nat) (k : Option (Nat × Nat)) : WSt → Prop
  | .ins => True
  | .tomb => True
  | .sync => True
  | .find => NoChk s
  | .impl _ => NoChk s
  | .flag it => NoChk s ∧ Fresh s lim ∧ (it.clean = false → NClean s lim)
  | .rm r => NoChk s ∧ Fresh s lim ∧ (pastInval r = true → TokOk s lim) ∧
      (r = .exist → ∀ v, v < lim → Job.insert v ∉ s.queue)
  | .ret => NClean s lim ∧ (k = none → Fresh s lim)

structure InvW (s : State n) : Prop where
  deadN : NClean s s.deadBelow
  deadR : Fresh s s.deadBelow
  unc : ∀ r, s.ram = some r → r.mark = .free → r.clean = false → NotOwn s r.id → NClean s s.retBelow
  ob : ∀ t lim k st, s.pc t = .w lim k st → WOb s lim k st

structure InvF (s : State n) : Prop where
  fN : ∀ t m, findN (s.pc t) = some m → m ≤ s.deadBelow
  snap : ∀ c, s.fill = some c → c.snap ≤ s.deadBelow
  snapV : ∀ c v, s.fill = some c → c.it = some v → c.snap ≤ v
  fW : ∀ t m c v, s.pc t = .fdWait m none → s.fill = some c → c.it = some v → m ≤ v
  fJ : ∀ t m j, s.pc t = .fdWait m (some j) → j ≤ s.deadBelow
  fWJ : ∀ t m j c v, s.pc t = .fdWait m (some j) → s.fill = some c → c.it = some v → j ≤ v
  fR : ∀ t m v, s.pc t = .fdRet m none (some v) → m ≤ v
  fRJ : ∀ t m j v, s.pc t = .fdRet m (some j) (some v) → j ≤ v
  itD : ∀ c v, s.fill = some c → c.it = some v → s.run = .lkDone

@[grind =] theorem wake_fdWait (o : Option Nat) (p : PC) (m : Nat) (j : Option Nat) :
    (wake o p = .fdWait m j) = False := by
  cases p <;> simp [wake]

theorem wake_fdRet {o : Option Nat} {p : PC} {m : Nat} {j r : Option Nat}
    (h : wake o p = .fdRet m j r) : p = .fdRet m j r ∨ (p = .fdWait m j ∧ r = o) := by
  cases p <;> simp_all [wake]

theorem findN_wake {o : Option Nat} {p : PC} {m : Nat} (h : findN (wake o p) = some m) :
    findN p = some m := by
  cases p <;> simp_all [wake, findN]

theorem invF_init : InvF (init n) := by
  constructor <;> simp [init, findN]

set_option maxHeartbeats 4000000 in
theorem invF_step {s s' : State n} (a : InvA s) (w : InvW s) (h : InvF s) (hs : Step good s s') : InvF s' := by
  have hR := w.deadR
  have c5 := w.deadN.c5
  have oE : s.run = .lkDone → ∀ t m, s.pc t ≠ .fdEnq m := by
    intro hr
    obtain ⟨q, hq⟩ := a.hL (by rw [hr]; rfl)
    exact a.oneE (by rw [hq]; simp)
  clear a w
  unfold Fresh at hR
  obtain ⟨fN, snap, snapV, fW, fJ, fWJ, fR, fRJ, itD⟩ := h
  cases hs
  case wRm s1 t lim k r r' hp hr => 
    cases hr <;> constructor <;> simp only [State.setPc, afterRm] <;> grind
  case lkErrRm s1 r r' hr hs =>
    cases hs <;> constructor <;> simp only [] <;> grind
  case lkDone j q c hq hr hl hf =>
    have w1 := fun t m (h : findN (wake c.it (s.pc t)) = some m) => findN_wake h
    have w2 := fun t m j r (h : wake c.it (s.pc t) = .fdRet m j r) => wake_fdRet h
    constructor <;> simp only [] <;> grind
  all_goals try have hh := look_hit ‹_›
  all_goals try have hy := fun c => @invalidateFill_some s.fill c
  all_goals (constructor <;> simp only [State.setPc] <;> grind)

theorem nclean_enq {s : State n} (a : InvA s) {b : Nat} (ht : TokOk s b)
    (hk : ∀ v, s.run ≠ .lkChecked v) {t : Fin n} {p : PC} (he : evItem (s.pc t) = none)
    (hp : evItem p = none) :
    NClean (({ s with queue := s.queue ++ [.remove] } : State n).setPc t p) b := by
  have pa := pend_append a
  have hrm := cov_snoc_remove (b := b) (pend s.run s.queue)
  refine ⟨?_, ?_, ?_, ?_, ?_⟩ <;> simp only [State.setPc, TokOk] at * <;> grind

theorem nclean_skip {s : State n} (c : InvC s) {b : Nat} (ht : TokOk s b)
    (hq : ∀ v, v < b → Job.insert v ∉ s.queue) (hn : s.navy = none)
    (hk : ∀ v, s.run ≠ .lkChecked v) {t : Fin n} {p : PC} (he : evItem (s.pc t) = none)
    (hp : evItem p = none) :
    NClean (s.setPc t p) b := by
  have hcv := cov_of_none (b := b) (q := pend s.run s.queue) (fun v hv hm => hq v hv (mem_of_mem_pend hm))
  have hN := c.lkN
  refine ⟨?_, ?_, ?_, ?_, ?_⟩ <;> simp only [State.setPc, TokOk] at * <;> grind

theorem nclean_ge {s : State n} (c : InvC s) {b b' rb : Nat} (hb : rb ≤ b) (hrb : s.retBelow = rb)
    (h : NClean s b) : NClean s b' := by
  have hcv := cov_of_ge (b' := b') h.c2 (fun v hv => by
    have := c.q v (mem_of_mem_pend hv); omega)
  have c1 := c.navy
  have c2 := c.lk
  have c3 := c.ev
  have hl : ∀ v, s.run = .lkChecked v → lkV s.run = some v := by intro v h; rw [h]; rfl
  obtain ⟨h1, h2, h3, h4, h5⟩ := h
  refine ⟨?_, hcv, ?_, ?_, ?_⟩
  · grind
  · unfold TokOk at *; grind
  · grind
  · grind

theorem nclean_le {s : State n} {b b' : Nat} (hb : b' ≤ b) (h : NClean s b) : NClean s b' := by
  have hcv : ∀ q, Cov b q → Cov b' q := by
    intro q
    induction q with
    | nil => intro _; trivial
    | cons x q ih =>
      cases x <;> simp only [Cov] <;> grind
  obtain ⟨h1, h2, h3, h4, h5⟩ := h
  refine ⟨?_, hcv _ h2, ?_, ?_, ?_⟩
  · grind
  · unfold TokOk at *; grind
  · grind
  · grind

theorem tokOk_same {s s' : State n} {b : Nat} (h : TokOk s b) (ht : s'.token = s.token)
    (hp : ∀ t, evItem (s'.pc t) = evItem (s.pc t)) : TokOk s' b := by
  unfold TokOk at *
  intro p it h1 h2 h3
  rw [ht] at h1; rw [hp] at h3
  exact h p it h1 h2 h3

theorem invW_init : InvW (init n) := by
  constructor <;> simp [init, Fresh]
  all_goals (constructor <;> simp [pend, started, Cov, TokOk, lkV])

theorem noTok_of_inval {s s' : State n} {b : Nat} (h : s'.token = invalidate s.token) : TokOk s' b := by
  intro p it h1 h2 h3
  obtain ⟨x, y⟩ := p
  simp only at h2
  subst h2
  rw [h, invalidate_eq] at h1
  simp at h1

theorem notTomb {s : State n} (h : ¬ HasTomb s) : ∀ t lim k st, s.pc t = .w lim k st → synced st = false := by
  intro t lim k st hp
  cases hst : synced st with
  | false => rfl
  | true =>
    refine absurd (Or.inl ⟨t, ?_⟩) h
    rw [hp]; cases st <;> simp_all [synced, PC.holdsTomb]

theorem notCtx {s : State n} (h : ¬ HasPutCtx s) : ∀ v, Job.insert v ∉ s.queue :=
  fun v hv => h (Or.inr ⟨v, hv⟩)

/-- facts about one step used for the writer's obligations. -/
structure Stab (s s' : State n) : Prop where
  SN : ∀ b, NClean s b → TokOk s' b → NClean s' b
  STf : ∀ b, TokOk s b → Fresh s b → TokOk s' b
  STr : ∀ b r, TokOk s b → s'.ram = some r → r.mark = .free → TokOk s' b
  SR : ∀ b, b ≤ s.retBelow → Fresh s b → (∀ v, s.run = .lkChecked v → b ≤ v) → Fresh s' b

theorem stab {s s' : State n} (a : InvA s) (B : InvB s) (c0 : InvC0 s) (C : InvC s)
    (hs : Step good s s') : Stab s s' :=
  ⟨fun _ h ht => nclean_step a B C h ht hs, fun _ h hf => tokOk_step B h (Or.inl hf) hs,
    fun _ r h h1 h2 => tokOk_step B h (Or.inr ⟨r, h1, h2⟩) hs,
    fun _ hb h hk => fresh_step h hb c0 hk hs⟩

end Verif.NvmSync
