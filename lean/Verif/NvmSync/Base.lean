import Verif.NvmSync.Model
/-! Structural invariants of the RAM / flash protocol: request queue, fill map, fill lock. -/
namespace Verif.NvmSync
variable {n : Nat}

/-- the configuration in which the property holds. -/
def good : Cfg := ⟨true, true, false⟩

/-- the running request is a lookup. -/
@[grind] def isLk : Run → Bool
  | .lkGot _ => true
  | .lkOpen _ => true
  | .lkLocked _ => true
  | .lkChecked _ => true
  | .lkErrTomb => true
  | .lkErrSync => true
  | .lkErr _ => true
  | .lkDone => true
  | .idle => false
  | .insDone => false
  | .remDone => false
  | .remFailed => false
  | .disabling => false

structure InvA (s : State n) : Prop where
  en : s.enabled = true
  nf1 : s.run ≠ .remFailed
  nf2 : s.run ≠ .disabling
  hI : s.run = .insDone → ∃ v q, s.queue = .insert v :: q
  hR : s.run = .remDone → ∃ q, s.queue = .remove :: q
  hL : isLk s.run = true → ∃ q, s.queue = .lookup :: q
  fQ : Job.lookup ∈ s.queue → s.fill ≠ none
  fE : ∀ t m, s.pc t = .fdEnq m → s.fill ≠ none
  one : s.queue.count .lookup ≤ 1
  oneE : Job.lookup ∈ s.queue → ∀ t m, s.pc t ≠ .fdEnq m
  oneT : ∀ t m t' m', s.pc t = .fdEnq m → s.pc t' = .fdEnq m' → t = t'
  lk1 : ∀ v, s.run = .lkLocked v → s.lock = some .worker
  lk2 : ∀ v, s.run = .lkChecked v → s.lock = some .worker
  lk3 : ∀ t m, s.pc t = .fdRam2 m → s.lock = some (.thr t)
  lk4 : ∀ t m, s.pc t = .fdFill m → s.lock = some (.thr t)

theorem wake_eq_of {it : Option Nat} {p q : PC} (h : wake it p = q) (hq : ∀ m j r, q ≠ .fdRet m j r) :
    p = q := by
  unfold wake at h
  split at h
  · exact absurd h.symm (hq _ _ _)
  · exact h

@[grind =] theorem invalidateFill_none (f : Option Ctx) : (invalidateFill f = none) = (f = none) := by
  cases f <;> simp [invalidateFill]

theorem invalidateFill_some {f : Option Ctx} {c : Ctx} (h : invalidateFill f = some c) :
    c.valid = false ∧ ∃ c', f = some c' ∧ c.it = c'.it ∧ c.snap = c'.snap := by
  cases f <;> simp [invalidateFill] at h ⊢
  subst h; simp

theorem invA_init : InvA (init n) := by
  constructor <;> simp [init, isLk]

set_option maxHeartbeats 1000000 in
theorem invA_step {s s' : State n} (h : InvA s) (hs : Step good s s') : InvA s' := by
  obtain ⟨en, nf1, nf2, hI, hR, hL, fQ, fE, one, oneE, oneT, lk1, lk2, lk3, lk4⟩ := h
  cases hs
  case wRm s1 t lim k r r' hp hr => 
    cases hr <;> constructor <;> simp only [State.setPc, afterRm] <;> grind
  case lkErrRm s1 r r' hr hs =>
    cases hs <;> constructor <;> simp only [afterErr] <;> grind
  case lkDone j q c hq hr hl hf =>
    have w1 := fun t m (h : wake c.it (s.pc t) = .fdEnq m) => wake_eq_of h (by simp)
    have w2 := fun t m (h : wake c.it (s.pc t) = .fdRam2 m) => wake_eq_of h (by simp)
    have w3 := fun t m (h : wake c.it (s.pc t) = .fdFill m) => wake_eq_of h (by simp)
    constructor <;> simp only [] <;> grind
  all_goals (constructor <;> simp only [State.setPc] <;> grind [good])

end Verif.NvmSync
