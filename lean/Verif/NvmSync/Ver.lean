import Verif.NvmSync.Ids
/-! Version bounds: everything in or on its way to flash was inserted by a call that returned. -/
namespace Verif.NvmSync
variable {n : Nat}

/-- the value a running lookup has read. -/
@[grind] def lkV : Run → Option Nat
  | .lkGot (.hit v) => some v
  | .lkOpen v => some v
  | .lkLocked v => some v
  | .lkChecked v => some v
  | .idle => none
  | .insDone => none
  | .remDone => none
  | .remFailed => none
  | .disabling => none
  | .lkGot .miss => none
  | .lkGot .err => none
  | .lkErrTomb => none
  | .lkErrSync => none
  | .lkErr _ => none
  | .lkDone => none

@[grind →] theorem lkV_isLk {r : Run} {v : Nat} (h : lkV r = some v) : isLk r = true := by
  unfold lkV at h; split at h <;> simp_all [isLk]

/-- the item an insertOrReplace in progress inserts. -/
@[grind] def insId : PC → Option Nat
  | .w _ k _ => k.map Prod.snd
  | .idle => none
  | .evMoving _ => none
  | .evMovTok _ _ => none
  | .evTok _ _ => none
  | .evPut _ => none
  | .evCtx _ => none
  | .fdRam _ => none
  | .fdNvm _ => none
  | .fdInval _ => none
  | .fdShared _ => none
  | .fdLock _ => none
  | .fdRam2 _ => none
  | .fdFill _ => none
  | .fdEnq _ => none
  | .fdWait _ _ => none
  | .fdRet _ _ _ => none

@[grind →] theorem insId_eq {p : PC} {i : Nat} (h : insId p = some i) :
    ∃ lim v st, p = .w lim (some (v, i)) st := by
  cases p <;> simp only [insId] at h <;> try cases h
  rename_i lim k st
  cases k with
  | none => cases h
  | some q => obtain ⟨v, id⟩ := q; cases h; exact ⟨_, _, _, rfl⟩

theorem insId_nw {p : PC} (h : p.isWriter = false) : insId p = none := by
  cases p <;> simp_all [PC.isWriter, insId]
grind_pattern insId_nw => insId p, p.isWriter

@[grind =] theorem insId_wake (o : Option Nat) (p : PC) : insId (wake o p) = insId p := by
  cases p <;> rfl

structure InvC0 (s : State n) : Prop where
  lim : ∀ t lim k st, s.pc t = .w lim k st → lim = s.retBelow
  ver : ∀ t lim v id st, s.pc t = .w lim (some (v, id)) st → v = s.retBelow
  verS : ∀ t id, insId (s.pc t) = some id → s.nextVer = s.retBelow + 1
  verI : (∀ t, insId (s.pc t) = none) → s.nextVer = s.retBelow
  dead : s.deadBelow ≤ s.retBelow

structure InvC (s : State n) : Prop where
  navy : ∀ v, s.navy = some v → v < s.retBelow
  q : ∀ v, Job.insert v ∈ s.queue → v < s.retBelow
  lk : ∀ v, lkV s.run = some v → v < s.retBelow
  ev : ∀ t it, evItem (s.pc t) = some it → it.ver < s.retBelow
  ram : ∀ r, s.ram = some r → (∀ t, insId (s.pc t) ≠ some r.id) → r.ver < s.retBelow
  lkN : ∀ v c, lkV s.run = some v → s.fill = some c → c.valid = true → s.navy = some v

theorem invC0_init : InvC0 (init n) := by
  constructor <;> simp [init, insId]

theorem invC_init : InvC (init n) := by
  constructor <;> simp [init, lkV, evItem]

theorem retVer_le (rb : Nat) (k : Option (Nat × Nat)) : rb ≤ retVer rb k := by
  unfold retVer; split
  · split <;> omega
  · exact Nat.le_refl _

@[grind =] theorem retVer_none (rb : Nat) : retVer rb none = rb := rfl
@[grind =] theorem retVer_self (rb id : Nat) : retVer rb (some (rb, id)) = rb + 1 := by
  simp [retVer]

@[grind →] theorem isWriter_of_insId {p : PC} {i : Nat} (h : insId p = some i) : p.isWriter = true := by
  obtain ⟨_, _, _, rfl⟩ := insId_eq h; rfl

theorem notHeld_insId {s : State n} {i : Nat} (h : ¬ Held s i) : ∀ t, insId (s.pc t) ≠ some i := by
  intro t he
  obtain ⟨_, _, _, hp⟩ := insId_eq he
  exact h (held_of_w hp)

set_option maxHeartbeats 8000000 in
theorem invC0_step {s s' : State n} (wU : ∀ t t', (s.pc t).isWriter = true → (s.pc t').isWriter = true → t = t')
    (h : InvC0 s) (hs : Step good s s') : InvC0 s' := by
  obtain ⟨lim, ver, verS, verI, dead⟩ := h
  cases hs
  case wRet t lm k hp =>
    cases k with
    | none => constructor <;> simp only [State.setPc, retVer_none] <;> grind
    | some p =>
      obtain ⟨v, id⟩ := p
      have hv := ver _ _ _ _ _ hp
      subst hv
      have hz := verS t id (by rw [hp]; rfl)
      constructor <;> simp only [State.setPc, retVer_self] <;> grind
  case wRm s1 t lim k r r' hp hr => 
    cases hr <;> constructor <;> simp only [State.setPc, afterRm] <;> grind
  case lkErrRm s1 r r' hr hs =>
    cases hs <;> constructor <;> simp only [] <;> grind
  all_goals try have hx := serial_idle ‹_›
  all_goals (constructor <;> simp only [State.setPc] <;> grind)

set_option maxHeartbeats 8000000 in
theorem invC_step {s s' : State n} (a : InvA s) (b : InvB s) (c0 : InvC0 s) (h : InvC s)
    (hs : Step good s s') : InvC s' := by
  obtain ⟨navy, q, lk, ev, ram, lkN⟩ := h
  have hI := a.hI
  have hR := a.hR
  have hL := a.hL
  have fQ := a.fQ
  have wU := b.wU
  have own := b.own
  have mov := b.mov
  have ver := c0.ver
  clear a b
  cases hs
  case evUnlinkDrop t it tk hp =>
    cases tk <;> constructor <;> simp only [State.setPc] <;> grind
  case navyDrop ha => cases ha
  case wRet t lm k hp =>
    cases k with
    | none => constructor <;> simp only [State.setPc, retVer_none] <;> grind
    | some p =>
      obtain ⟨v, id⟩ := p
      have hv := ver _ _ _ _ _ hp
      subst hv
      constructor <;> simp only [State.setPc, retVer_self] <;> grind
  case wRm s1 t lim k r r' hp hr => 
    cases hr <;> constructor <;> simp only [State.setPc, afterRm] <;> grind
  case lkErrRm s1 r r' hr hs =>
    cases hs <;> constructor <;> simp only [afterErr] <;> grind
  all_goals try have hh := look_hit ‹_›
  all_goals try have ho := notHeld_insId ‹_›
  all_goals try have hy := fun c => @invalidateFill_some s.fill c
  all_goals (constructor <;> simp only [State.setPc] <;> grind)

end Verif.NvmSync
