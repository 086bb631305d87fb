import Verif.NvmSync.Base
/-! Invariants about evictors, item identities, the writer and version bounds. -/
namespace Verif.NvmSync
variable {n : Nat}

/-- the item an evicting thread works on. -/
@[grind] def evItem : PC → Option Item
  | .evMoving it => some it
  | .evMovTok it _ => some it
  | .evTok it _ => some it
  | .evPut it => some it
  | .evCtx it => some it
  | .idle => none
  | .w _ _ _ => none
  | .fdRam _ => none
  | .fdNvm _ => none
  | .fdInval _ => none
  | .fdShared _ => none
  | .fdLock _ => none
  | .fdRam2 _ => none
  | .fdFill _ => none
  | .fdEnq _ => none
  | .fdWait _ _ => none
  | .fdRet _ _ _ => none

/-- the thread owns the put token. -/
@[grind] def ownsTok : PC → Bool
  | .evMovTok _ b => b
  | .evTok _ b => b
  | .evPut _ => true
  | .evCtx _ => true
  | .idle => false
  | .w _ _ _ => false
  | .evMoving _ => false
  | .fdRam _ => false
  | .fdNvm _ => false
  | .fdInval _ => false
  | .fdShared _ => false
  | .fdLock _ => false
  | .fdRam2 _ => false
  | .fdFill _ => false
  | .fdEnq _ => false
  | .fdWait _ _ => false
  | .fdRet _ _ _ => false

/-- the thread is evicting an item still marked moving. -/
@[grind] def isMov : PC → Bool
  | .evMoving _ => true
  | .evMovTok _ _ => true
  | .idle => false
  | .w _ _ _ => false
  | .evTok _ _ => false
  | .evPut _ => false
  | .evCtx _ => false
  | .fdRam _ => false
  | .fdNvm _ => false
  | .fdInval _ => false
  | .fdShared _ => false
  | .fdLock _ => false
  | .fdRam2 _ => false
  | .fdFill _ => false
  | .fdEnq _ => false
  | .fdWait _ _ => false
  | .fdRet _ _ _ => false

@[grind →] theorem isMov_evItem {p : PC} (h : isMov p = true) : ∃ it, evItem p = some it := by
  cases p <;> simp_all [isMov, evItem]

/-- program points only `remove` visits. -/
@[grind] def isDelSt : WSt → Bool
  | .find => true
  | .impl _ => true
  | .flag _ => true
  | .ins => false
  | .tomb => false
  | .sync => false
  | .rm _ => false
  | .ret => false

@[grind =] theorem isWriter_w (lim : Nat) (k : Option (Nat × Nat)) (st : WSt) :
    (PC.w lim k st).isWriter = true := rfl

@[grind →] theorem isWriter_eq {p : PC} (h : p.isWriter = true) : ∃ lim k st, p = .w lim k st := by
  cases p <;> simp_all [PC.isWriter]

structure InvB (s : State n) : Prop where
  tok : ∀ t, ownsTok (s.pc t) = true → ∃ p, s.token = some p ∧ p.2 = t
  mov : ∀ t it, isMov (s.pc t) = true → evItem (s.pc t) = some it →
    ∃ r, s.ram = some r ∧ r.id = it.id ∧ r.ver = it.ver ∧ r.mark = .moving
  movU : ∀ t t', isMov (s.pc t) = true → isMov (s.pc t') = true → t = t'
  evId : ∀ t it r, evItem (s.pc t) = some it → s.ram = some r → r.id = it.id → r.mark ≠ .free
  evLt : ∀ t it, evItem (s.pc t) = some it → it.id < s.nextId
  ramLt : ∀ r, s.ram = some r → r.id < s.nextId
  wLt : ∀ t lim v id st, s.pc t = .w lim (some (v, id)) st → id < s.nextId
  wEv : ∀ t lim v id t' it, s.pc t = .w lim (some (v, id)) .ins → evItem (s.pc t') = some it →
    it.id ≠ id
  wRam : ∀ t lim v id r, s.pc t = .w lim (some (v, id)) .ins → s.ram = some r → r.id ≠ id
  wU : ∀ t t', (s.pc t).isWriter = true → (s.pc t').isWriter = true → t = t'
  wK : ∀ t lim k st, s.pc t = .w lim k st → k.isSome = true → isDelSt st = false
  wN : ∀ t lim, s.pc t ≠ .w lim none .ins
  evU : ∀ t t' it it', evItem (s.pc t) = some it → evItem (s.pc t') = some it' → it.id = it'.id → t = t'
  own : ∀ t lim v id st, s.pc t = .w lim (some (v, id)) st → st ≠ .ins →
    ∃ r, s.ram = some r ∧ r.id = id ∧ r.ver = v ∧ r.clean = false ∧ r.mark = .free
  impl : ∀ t lim it, s.pc t = .w lim none (.impl it) →
    ∃ r, s.ram = some r ∧ r.id = it.id ∧ r.clean = it.clean ∧ r.mark = .free

theorem invB_init : InvB (init n) := by
  constructor <;> simp [init, ownsTok, evItem, isMov, PC.isWriter]

@[grind =] theorem setMark_eq (ram : Option Item) (m : Mark) (r : Item) :
    (setMark ram m = some r) = (∃ x, ram = some x ∧ r = { x with mark := m }) := by
  cases ram <;> simp [setMark, eq_comm]

@[grind =] theorem unlink_eq (ram : Option Item) (i : Nat) (r : Item) :
    (unlink ram i = some r) = (ram = some r ∧ r.id ≠ i) := by
  cases ram <;> simp only [unlink]
  · simp
  · rename_i x; split <;> simp <;> grind

theorem look_hit {ram : Option Item} {it : Item} (h : look ram = .hit it) :
    ram = some it ∧ it.mark = .free := by
  unfold look at h
  split at h
  · cases h
  · split at h <;> simp_all

theorem look_miss {ram : Option Item} (h : look ram = .miss) :
    ∀ it, ram = some it → it.mark = .excl := by
  intro it hi
  subst hi
  unfold look at h
  split at h
  · simp_all
  · split at h <;> simp_all

@[grind =] theorem invalidate_eq (tk : Option (Bool × Fin n)) (b : Bool) (t : Fin n) :
    (invalidate tk = some (b, t)) = (b = false ∧ ∃ b', tk = some (b', t)) := by
  cases tk <;> simp [invalidate]
  rename_i p; obtain ⟨a, c⟩ := p; simp; grind

@[grind =] theorem invalidate_some (p : Bool × Fin n) : invalidate (some p) = some (false, p.2) := rfl
@[grind =] theorem setMark_some (x : Item) (m : Mark) : setMark (some x) m = some { x with mark := m } := rfl
@[grind =] theorem unlink_some (x : Item) (i : Nat) :
    unlink (some x) i = if x.id = i then none else some x := rfl

@[grind =] theorem dropToken_t (tk : Option (Bool × Fin n)) : dropToken tk true = none := rfl
@[grind =] theorem dropToken_f (tk : Option (Bool × Fin n)) : dropToken tk false = tk := rfl

@[grind =] theorem evItem_wake (o : Option Nat) (p : PC) : evItem (wake o p) = evItem p := by
  cases p <;> rfl
@[grind =] theorem ownsTok_wake (o : Option Nat) (p : PC) : ownsTok (wake o p) = ownsTok p := by
  cases p <;> rfl
@[grind =] theorem isMov_wake (o : Option Nat) (p : PC) : isMov (wake o p) = isMov p := by
  cases p <;> rfl
@[grind =] theorem isWriter_wake (o : Option Nat) (p : PC) : (wake o p).isWriter = p.isWriter := by
  cases p <;> rfl
@[grind =] theorem holdsTomb_wake (o : Option Nat) (p : PC) : (wake o p).holdsTomb = p.holdsTomb := by
  cases p <;> rfl
@[grind =] theorem wake_w (o : Option Nat) (p : PC) (lim : Nat) (k : Option (Nat × Nat)) (st : WSt) :
    (wake o p = .w lim k st) = (p = .w lim k st) := by
  cases p <;> simp [wake]

/-- a thread in the middle of a write holds its item. -/
theorem held_of_w {s : State n} {t : Fin n} {lim v id : Nat} {st : WSt}
    (h : s.pc t = .w lim (some (v, id)) st) : Held s id := by
  refine ⟨t, ?_⟩; rw [h]; cases st <;> simp [PC.holds]

theorem held_of_impl {s : State n} {t : Fin n} {lim : Nat} {it : Item}
    (h : s.pc t = .w lim none (.impl it)) : Held s it.id := by
  refine ⟨t, ?_⟩; rw [h]; simp [PC.holds]

theorem notHeld_own {s : State n} {i : Nat} (h : ¬ Held s i) :
    ∀ t lim v id st, s.pc t = .w lim (some (v, id)) st → id ≠ i := by
  intro t lim v id st hp he; subst he; exact h (held_of_w hp)

theorem notHeld_impl {s : State n} {i : Nat} (h : ¬ Held s i) :
    ∀ t lim it, s.pc t = .w lim none (.impl it) → it.id ≠ i := by
  intro t lim it hp he; subst he; exact h (held_of_impl hp)

theorem serial_idle {s : State n} (h : good.serial = true → ∀ x, (s.pc x).isWriter = false) :
    ∀ x, (s.pc x).isWriter = false := h rfl

set_option maxHeartbeats 8000000 in
theorem invB_step {s s' : State n} (h : InvB s) (hs : Step good s s') : InvB s' := by
  obtain ⟨tok, mov, movU, evId, evLt, ramLt, wLt, wEv, wRam, wU, wK, wN, evU, own, impl⟩ := h
  cases hs
  case delImpl t lim k it hp =>
    cases k <;> constructor <;> simp only [State.setPc] <;> grind
  case evUnlinkDrop t it tk hp =>
    cases tk <;> constructor <;> simp only [State.setPc] <;> grind
  case wRm s1 t lim k r r' hp hr => 
    cases hr <;> constructor <;> simp only [State.setPc, afterRm] <;> grind
  case lkErrRm s1 r r' hr hs =>
    cases hs <;> constructor <;> simp only [afterErr] <;> grind
  all_goals try have hh := look_hit ‹_›
  all_goals try have hm := look_miss ‹_›
  all_goals try have ho := notHeld_own ‹_›
  all_goals try have hi := notHeld_impl ‹_›
  all_goals try have hx := serial_idle ‹_›
  all_goals (constructor <;> simp only [State.setPc] <;> grind)

end Verif.NvmSync
