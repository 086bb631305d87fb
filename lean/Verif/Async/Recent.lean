import Verif.Async.Waiters
/-! With at most one mover of the key at a time: what a waiter gets is recent. -/
namespace Verif.Async
open Verif.Destructor (countP_erase countP_set')

variable {c : Cfg} {s s' : State}

/-- The value of the key. -/
def State.value (s : State) : Option Nat := s.index.bind fun a => (s.mem a).map (·.ver)

inductive Run (c : Cfg) : List Act → State → Prop
  | init : Run c [] {}
  | step {l : List Act} {s s' : State} (a : Act) (h : Run c l s) (he : s.exec c a = some s') : Run c (l ++ [a]) s'

theorem Run.reach {l : List Act} (h : Run c l s) : Reach c s := by
  induction h with
  | init => exact .init
  | step a _ he ih => exact .step a ih he

/-- `v` was the value of the key at some time since the call that made `w`. -/
def Seen (c : Cfg) (l : List Act) (w : Waiter) (v : Nat) : Prop :=
  ∃ l1 l2 s0, l = l1 ++ l2 ∧ Run c l1 s0 ∧ w.id ≤ s0.nextW ∧ s0.value = some v

theorem Seen.later {l : List Act} {w : Waiter} {v : Nat} (h : Seen c l w v) (a : Act) : Seen c (l ++ [a]) w v := by
  obtain ⟨l1, l2, s0, rfl, h⟩ := h
  exact ⟨l1, l2 ++ [a], s0, by simp, h⟩

theorem Seen.now {l : List Act} {w : Waiter} {v : Nat} (h : Run c l s) (hw : w.id ≤ s.nextW) (hv : s.value = some v) : Seen c l w v :=
  ⟨l, [], s, by simp, h, hw, hv⟩

/-- What the mover will wake them up with. -/
def target (s : State) : Mover → Nat → Prop
  | .moving a, v => (s.mem a).map (·.ver) = some v
  | .moved _ b, v => (s.mem b).map (·.ver) = some v
  | .unmarked _ b, v => (s.mem b).map (·.ver) = some v
  | _, _ => False

def active' : Mover → Bool
  | .woke _ => false
  | _ => true

structure Inv3 (c : Cfg) (l : List Act) (s : State) : Prop where
  one : s.movers.countP active' ≤ 1
  tgt : ∀ m ∈ s.movers, ∀ v, target s m v → ∀ w ∈ s.waiting, Seen c l w v
  got : ∀ p ∈ s.got, ∀ v, p.2 = some v → Seen c l p.1 v

/-- What a step does to the movers and the history. -/
inductive Mv (c : Cfg) (s s' : State) : Prop
  | keep (h1 : s'.movers.countP active' ≤ s.movers.countP active')
      (h2 : ∀ m ∈ s'.movers, ∀ v, target s' m v → ∃ m' ∈ s.movers, target s m' v)
  | mark (a : Nat) (h0 : c.oneMover = true → s.movers.countP active' = 0)
      (h1 : s'.movers = s.movers ++ [.moving a]) (h2 : s'.map = s.map) (h3 : s'.got = s.got) (h4 : s'.lost = s.lost) (h5 : s'.fill = s.fill)

/-- Same movers; no item of theirs changes. -/
theorem mv_same (hi : Inv s) (h1 : s'.movers = s.movers)
    (h2 : ∀ x (it : Item), s.mem x = some it → 0 < it.refs ∨ 0 < s.movers.countP (Mover.owns x) → (s'.mem x).map (·.ver) = some it.ver) :
    Mv c s s' := by
  refine .keep (by rw [h1]; exact Nat.le_refl _) ?_
  intro m hm v ht
  rw [h1] at hm
  refine ⟨m, hm, ?_⟩
  have own : ∀ x, m.owns x = true → (s.mem x).map (·.ver) = (s'.mem x).map (·.ver) := by
    intro x hx
    have hpos : 0 < s.movers.countP (Mover.owns x) := List.countP_pos_iff.mpr ⟨m, hm, hx⟩
    cases hmx : s.mem x with
    | none => have := ((hi.addr x).free hmx).1; omega
    | some it => rw [h2 x it hmx (.inr hpos)]; rfl
  have hold : ∀ x, m.holds x = true → (s.mem x).map (·.ver) = (s'.mem x).map (·.ver) := by
    intro x hx
    have hpos : 0 < s.movers.countP (Mover.holds x) := List.countP_pos_iff.mpr ⟨m, hm, hx⟩
    cases hmx : s.mem x with
    | none => have := ((hi.addr x).free hmx).2.2.1; omega
    | some it => rw [h2 x it hmx (.inl (by have := ((hi.addr x).used it hmx).2.1; omega))]; rfl
  cases m with
  | moving a => simp only [target] at ht ⊢; rw [own a (by simp [Mover.owns])]; exact ht
  | moved a b => simp only [target] at ht ⊢; rw [hold b (by simp [Mover.holds])]; exact ht
  | unmarked a b => simp only [target] at ht ⊢; rw [hold b (by simp [Mover.holds])]; exact ht
  | _ => exact ht.elim

theorem act_set {l : List Mover} {i : Nat} {m : Mover} (n : Mover) (h : l[i]? = some m) (ha : active' m = true) :
    (l.set i n).countP active' ≤ l.countP active' := by
  have := countP_set' active' (b := n) h
  rw [ha] at this
  simp at this
  split at this <;> omega

theorem Inv.mv (hc : c.noChained = true) (hi : Inv s) (a : Act) (h : s.exec c a = some s') : Mv c s s' := by
  cases a with
  | insert b =>
    simp only [State.exec] at h
    split at h
    · cases h
    · next hb =>
      have hb : s.mem b = none := by simpa using hb
      cases hx : s.index with
      | none =>
        simp only [hx, Option.some.injEq] at h; subst h
        refine mv_same hi rfl ?_
        intro x it hm _
        have : x ≠ b := fun e => by simp [← e, hm] at hb
        simp [upd_ne _ _ this, hm]
      | some a =>
        cases hm : s.mem a with
        | none => simp [hx, hm] at h
        | some o =>
          simp only [hx, hm] at h
          split at h
          · simp only [Option.some.injEq] at h; subst h
            refine mv_same hi (by simp) ?_
            intro x it hm _
            have : x ≠ b := fun e => by simp [← e, hm] at hb
            simp [upd_ne _ _ this, hm]
          · split at h
            · simp only [Option.some.injEq] at h; subst h
              refine mv_same hi rfl ?_
              intro x it hm' _
              have : x ≠ b := fun e => by simp [← e, hm'] at hb
              simp only [upd_ne _ _ this]
              rw [ver_upd (n := { o with refs := o.refs + 1 }) hm rfl]; simp [hm']
            · cases h
  | unlink =>
    simp only [State.exec] at h
    repeat' split at h
    all_goals first | cases h; done | skip
    simp only [Option.some.injEq] at h; subst h
    exact mv_same hi rfl (fun x it hm _ => by simp [hm])
  | find =>
    simp only [State.exec] at h
    cases hx : s.index with
    | none => simp [hx] at h; subst h; exact mv_same hi rfl (fun x it hm _ => by simp [hm])
    | some a =>
      cases hm : s.mem a with
      | none => simp [hx, hm] at h
      | some o =>
        simp only [hx, hm] at h
        split at h
        · simp only [Option.some.injEq] at h; subst h
          exact mv_same hi (by simp) (fun x it hm _ => by simp [hm])
        · split at h
          · simp only [Option.some.injEq] at h; subst h
            refine mv_same hi rfl (fun x it hm' _ => ?_)
            simp only; rw [ver_upd (n := { o with refs := o.refs + 1 }) hm rfl]; simp [hm']
          · cases h
  | release b =>
    simp only [State.exec] at h
    split at h
    · simp only [Option.some.injEq] at h; subst h
      refine mv_same hi (by simp) (fun x it hm _ => ?_)
      rw [unref_vers]; simp [hm]
    · cases h
  | free a =>
    simp only [State.exec] at h
    cases hm : s.mem a with
    | none => simp [hm] at h
    | some o =>
      simp only [hm] at h
      split at h
      · next hcd =>
        simp only [Option.some.injEq] at h; subst h
        refine mv_same hi rfl (fun x it hm' hpos => ?_)
        have : x ≠ a := by
          intro e; subst e
          rw [hm] at hm'; cases hm'
          have h0 : s.movers.countP (Mover.owns x) = 0 := by
            rw [List.countP_eq_zero]; intro m hm'; have := List.all_eq_true.mp hcd.2.2.2 m hm'; simpa using this
          omega
        simp [upd_ne _ _ this, hm']
      · cases h
  | scribble a =>
    simp only [State.exec] at h
    repeat' split at h
    all_goals first | cases h; done | skip
    simp only [Option.some.injEq] at h; subst h
    exact mv_same hi rfl (fun x it hm _ => by simp [hm])
  | mark =>
    simp only [State.exec] at h
    split at h
    · cases h
    · next hone =>
      repeat' split at h
      all_goals first | cases h; done | skip
      simp only [Option.some.injEq] at h; subst h
      refine .mark _ ?_ rfl rfl rfl rfl rfl
      intro ho
      simp [ho] at hone
      rw [List.countP_eq_zero]
      intro m hm ha
      have := hone m hm
      cases m <;> simp_all [Mover.active, active']
  | mvReplace i b =>
    simp only [State.exec] at h
    split at h
    case h_2 => cases h
    case h_1 a hmv =>
      split at h
      case isFalse => cases h
      case isTrue hcd =>
        obtain ⟨hx, hb⟩ := hcd
        have hb : s.mem b = none := by simpa using hb
        cases hm : s.mem a with
        | none => simp [hm] at h
        | some o =>
          simp only [hm, Option.some.injEq] at h; subst h
          refine .keep (act_set _ hmv rfl) ?_
          intro m hm' v ht
          rcases List.mem_or_eq_of_mem_set hm' with h1 | rfl
          · refine ⟨m, h1, ?_⟩
            have hf := (hi.addr b).free hb
            have hbo : m.owns b = false := by
              have := (List.countP_eq_zero.mp hf.1) m h1; simpa using this
            have hbh : m.holds b = false := by
              have := (List.countP_eq_zero.mp hf.2.2.1) m h1; simpa using this
            cases m with
            | moving x =>
              have : x ≠ b := by simpa [Mover.owns] using hbo
              simp only [target, upd_ne _ _ this] at ht ⊢; exact ht
            | moved _ x =>
              have : x ≠ b := by simpa [Mover.holds] using hbh
              simp only [target, upd_ne _ _ this] at ht ⊢; exact ht
            | unmarked _ x =>
              have : x ≠ b := by simpa [Mover.holds] using hbh
              simp only [target, upd_ne _ _ this] at ht ⊢; exact ht
            | _ => exact ht.elim
          · refine ⟨.moving a, List.mem_of_getElem? hmv, ?_⟩
            simp only [target, upd_same, Option.map_some, hm] at ht ⊢; exact ht
  | mvUnmark i =>
    simp only [State.exec] at h
    split at h
    case h_2 => cases h
    case h_1 a b hmv =>
      cases hm : s.mem a with
      | none => simp [hm] at h
      | some o =>
        simp only [hm, Option.some.injEq] at h; subst h
        refine .keep (act_set _ hmv rfl) ?_
        intro m hm' v ht
        have hv : ∀ x, (upd s.mem a (some { o with moving := false }) x).map (·.ver) = (s.mem x).map (·.ver) := ver_upd hm rfl
        rcases List.mem_or_eq_of_mem_set hm' with h1 | rfl
        · refine ⟨m, h1, ?_⟩
          cases m <;> simp only [target] at ht ⊢ <;> first | (rw [hv] at ht; exact ht) | exact ht
        · refine ⟨.moved a b, List.mem_of_getElem? hmv, ?_⟩
          simp only [target] at ht ⊢; rw [hv] at ht; exact ht
  | mvWake i =>
    obtain ⟨a, b, t, hmv, rfl, hw⟩ := hi.mvWake_spec h
    refine .keep ?_ ?_
    · simp only [unref_movers, hw.movers]; exact act_set _ hmv rfl
    · intro m hm' v ht
      simp only [unref_movers, hw.movers] at hm'
      have hv : ∀ x, ((t.unref b).mem x).map (·.ver) = (s.mem x).map (·.ver) := fun x => by rw [unref_vers, hw.vers]
      rcases List.mem_or_eq_of_mem_set hm' with h1 | rfl
      · refine ⟨m, h1, ?_⟩
        cases m <;> simp only [target] at ht ⊢ <;> first | (rw [hv] at ht; exact ht) | exact ht
      · exact ht.elim
  | mvFree i =>
    simp only [State.exec] at h
    split at h
    case h_2 => cases h
    case h_1 a hmv =>
      simp only [Option.some.injEq] at h; subst h
      refine .keep ?_ ?_
      · have := countP_erase active' hmv; simp only; omega
      · intro m hm' v ht
        simp only at hm'
        refine ⟨m, List.mem_of_mem_eraseIdx hm', ?_⟩
        cases m with
        | moving x =>
          simp only [target] at ht ⊢
          by_cases hx : x = a
          · subst hx; simp at ht
          · rwa [upd_ne _ _ hx] at ht
        | moved _ x =>
          simp only [target] at ht ⊢
          by_cases hx : x = a
          · subst hx; simp at ht
          · rwa [upd_ne _ _ hx] at ht
        | unmarked _ x =>
          simp only [target] at ht ⊢
          by_cases hx : x = a
          · subst hx; simp at ht
          · rwa [upd_ne _ _ hx] at ht
        | _ => exact ht.elim
  | mvEvict i =>
    simp only [State.exec] at h
    split at h
    case h_2 => cases h
    case h_1 a hmv =>
      cases hm : s.mem a with
      | none => simp [hm] at h
      | some o =>
        simp only [hm, Option.some.injEq] at h
        have hv : ∀ x, (upd s.mem a (some { o with moving := false }) x).map (·.ver) = (s.mem x).map (·.ver) := ver_upd hm rfl
        have h1 : s'.movers = s.movers.set i (.evicting a) := by rw [← h]; split <;> rfl
        have h2 : s'.mem = upd s.mem a (some { o with moving := false }) := by rw [← h]; split <;> rfl
        refine .keep (by rw [h1]; exact act_set _ hmv rfl) ?_
        intro m hm' v ht
        rw [h1] at hm'
        rcases List.mem_or_eq_of_mem_set hm' with h1 | rfl
        · refine ⟨m, h1, ?_⟩
          cases m <;> simp only [target, h2] at ht ⊢ <;> first | (rw [hv] at ht; exact ht) | exact ht
        · exact ht.elim
  | evWake i =>
    obtain ⟨a, hmv, hw⟩ := hi.evWake_spec h
    refine .keep ?_ ?_
    · simp only [hw.movers]; exact act_set _ hmv rfl
    · intro m hm' v ht
      simp only [hw.movers] at hm'
      have hv : ∀ x, (s'.mem x).map (·.ver) = (s.mem x).map (·.ver) := fun x => by rw [hw.vers]
      rcases List.mem_or_eq_of_mem_set hm' with h1 | rfl
      · refine ⟨m, h1, ?_⟩
        cases m <;> simp only [target] at ht ⊢ <;> first | (rw [hv] at ht; exact ht) | exact ht
      · exact ht.elim
  | chUnmark i => simp [(hi.noChSteps hc i).1] at h
  | chFind i => simp [(hi.noChSteps hc i).2.1] at h
  | chGot i => simp [(hi.noChSteps hc i).2.2.1] at h
  | chWake i => simp [(hi.noChSteps hc i).2.2.2] at h
  | nvmFind =>
    simp only [State.exec] at h
    split at h
    · split at h <;>
      · simp only [Option.some.injEq] at h; subst h
        exact mv_same hi rfl (fun x it hm _ => by simp [hm])
    · cases h
  | nvmEnd o =>
    obtain ⟨q, hq, h⟩ := nvmEnd_spec h
    cases o with
    | none =>
      simp only at h
      exact mv_same hi h.movers (fun x it hm _ => by rw [h.vers]; simp [hm])
    | some b =>
      obtain ⟨_, hb, t, rfl, hw⟩ := h
      refine mv_same hi (by simp only [unref_movers]; exact hw.movers) (fun x it hm _ => ?_)
      rw [unref_vers, hw.vers]
      have : x ≠ b := fun e => by simp [← e, hm] at hb
      simp [upd_ne _ _ this, hm]

theorem Inv3.step (hone : c.oneMover = true) {l : List Act} {a : Act} (hr : Run c l s) (hr' : Run c (l ++ [a]) s') (hi : Inv s) (hac' : Acct c s')
    (h3 : Inv3 c l s) (he : Eff c s s') (hm : Mv c s s') : Inv3 c (l ++ [a]) s' := by
  -- one mover
  have hone' : s'.movers.countP active' ≤ 1 := by
    cases hm with
    | keep h1 => have := h3.one; omega
    | mark a h0 h1 => rw [h1]; have := h0 hone; simp [List.countP_append, this]; split <;> omega
  -- the waiters of before
  have htgt : ∀ m ∈ s'.movers, ∀ v, target s' m v → ∀ w ∈ s.waiting, Seen c (l ++ [a]) w v := by
    intro m hm' v ht w hw
    cases hm with
    | keep _ h2 =>
      obtain ⟨m0, hm0, ht0⟩ := h2 m hm' v ht
      exact (h3.tgt m0 hm0 v ht0 w hw).later a
    | mark a h0 =>
      -- nobody waits
      exfalso
      have h0 := h0 hone
      have : s.map = [] := by
        cases hmp : s.map with
        | nil => rfl
        | cons e l =>
          have h1 := hi.ent e (by simp [hmp])
          obtain ⟨m, hm, hw⟩ := List.countP_pos_iff.mp h1
          have := List.countP_eq_zero.mp h0 m hm
          cases m <;> simp_all [active', Mover.waker]
      simp [State.waiting, this] at hw
  have hgot : ∀ p ∈ s.got, ∀ v, p.2 = some v → Seen c (l ++ [a]) p.1 v := fun p hp v hv => (h3.got p hp v hv).later a
  refine ⟨hone', ?_, ?_⟩
  · -- targets
    intro m hm' v ht w hw
    cases he with
    | same h1 => exact htgt m hm' v ht w (by rwa [waiting_of_map h1] at hw)
    | join b o hx hma hv h1 h2 h3' h4 h5 h6 =>
      rw [h1] at hw
      rcases List.mem_append.mp hw with hw | hw
      · exact htgt m hm' v ht w hw
      · simp at hw; subst hw
        -- the mover is that of the item in the index
        have hmk := ((hi.addr b).used o hma).2.2.2.1.mp hv
        obtain ⟨m0, hm0, hmk0⟩ := List.countP_pos_iff.mp (by omega : 0 < s.movers.countP (Mover.marks b))
        obtain ⟨i, hi0⟩ := List.mem_iff_getElem?.mp hm0
        have hm0a : m0 = .moving b := by
          have hni := hi.notIdx hi0 (a := b)
          cases m0 with
          | moving x => simp [Mover.marks] at hmk0; rw [hmk0]
          | moved x y =>
            simp [Mover.marks] at hmk0
            exact absurd hx (hni (by simp [Mover.owns, hmk0]) rfl)
          | _ => simp [Mover.marks] at hmk0
        cases hm with
        | mark _ h0 =>
          have := List.countP_eq_zero.mp (h0 hone) m0 hm0
          simp [hm0a, active'] at this
        | keep _ h2m =>
          obtain ⟨m1, hm1, ht1⟩ := h2m m hm' v ht
          have hact1 : active' m1 = true := by cases m1 <;> first | rfl | exact ht1.elim
          have : m1 = m0 := by
            obtain ⟨j, hj⟩ := List.mem_iff_getElem?.mp hm1
            by_cases hij : i = j
            · subst hij; rw [hi0] at hj; exact (Option.some.inj hj).symm
            · exfalso
              have c1 := countP_set' active' (b := .woke 0) hi0
              have c2 : 1 ≤ (s.movers.set i (.woke 0)).countP active' :=
                cnt_ge (i := j) (by rw [List.getElem?_set_ne hij]; exact hj) active' hact1
              have c3 := h3.one
              have e1 : active' m0 = true := by rw [hm0a]; rfl
              have e2 : active' (.woke 0) = false := rfl
              rw [e1, e2] at c1
              simp at c1
              omega
          rw [this, hm0a] at ht1
          simp only [target] at ht1
          exact (Seen.now hr (by simp [State.newW]) (by rw [State.value, hx]; exact ht1)).later a
    | fillJoin _ h1 => exact htgt m hm' v ht w (by rwa [waiting_of_map h1] at hw)
    | woke g l h1 => rw [waiting_nil h1] at hw; simp at hw
    | filled q g l hq h1 => exact htgt m hm' v ht w (by rwa [waiting_of_map h1] at hw)
  · -- what they got
    intro p hp v hv
    cases he with
    | same h1 h2 h3' => rw [h3'] at hp; exact hgot p hp v hv
    | join a o _ _ _ h1 h2 h3' => rw [h3'] at hp; exact hgot p hp v hv
    | fillJoin _ h1 h2 h3' => rw [h3'] at hp; exact hgot p hp v hv
    | woke g l h1 h2 h3' h4 h5 hpm _ hval =>
      rw [h3'] at hp
      rcases List.mem_append.mp hp with hp | hp
      · exact hgot p hp v hv
      · obtain ⟨i, a', b, it, hmv, hm, hver⟩ := hval p hp v hv
        have hw : p.1 ∈ s.waiting := hpm.mem_iff.mp (List.mem_append_left _ (List.mem_map_of_mem hp))
        exact (h3.tgt _ (List.mem_of_getElem? hmv) v (by simp [target, hm, hver]) p.1 hw).later a
    | filled q g l hq h1 h2 h3' h4 h5 hpm _ hval =>
      have hid : p.1.id ≤ s'.nextW := by
        have h1 : p.1.id ∈ s'.places.map (·.id) := by
          refine List.mem_map_of_mem ?_
          simp only [State.places, List.mem_append, List.mem_map]; exact .inl (.inl (.inl ⟨p, hp, rfl⟩))
        have := List.mem_range.mp (hac'.ids.mem_iff.mp h1)
        omega
      rw [h3'] at hp
      rcases List.mem_append.mp hp with hp | hp
      · exact hgot p hp v hv
      · obtain ⟨b, hb1, hb2⟩ := hval p hp v hv
        exact .now hr' hid (by rw [State.value, hb1]; exact hb2)

theorem Run.inv3 (hc : c.noChained = true) (ho : c.oneMover = true) {l : List Act} (h : Run c l s) : Inv3 c l s := by
  induction h with
  | init => exact ⟨by simp, by simp, by simp⟩
  | step a h he ih =>
    have hr' := h.step a he
    exact ih.step ho h hr' (h.reach.inv hc) (hr'.reach.acct hc) ((h.reach.inv hc).eff hc a he) ((h.reach.inv hc).mv hc a he)

end Verif.Async
