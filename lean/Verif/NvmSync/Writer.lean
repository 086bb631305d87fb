import Verif.NvmSync.Main
/-! Preservation of the writer invariant. -/
namespace Verif.NvmSync
variable {n : Nat}

theorem fresh_own {s : State n} {b : Nat} {r : Item} (h : s.ram = some r) (hv : b ≤ r.ver) : Fresh s b := by
  intro x h1 _; rw [h] at h1; cases h1; exact hv

theorem fresh_none {s : State n} {b : Nat} (h : s.ram = none) : Fresh s b := by
  intro x h1 _; rw [h] at h1; cases h1

theorem fresh_miss {s s' : State n} {b : Nat} (h : look s.ram = .miss) (he : s'.ram = s.ram) :
    Fresh s' b := by
  intro x h1 h2; rw [he] at h1; exact absurd (look_miss h x h1) h2

theorem fresh_le {s : State n} {b b' : Nat} (hb : b' ≤ b) (h : Fresh s b) : Fresh s b' :=
  fun r h1 h2 => Nat.le_trans hb (h r h1 h2)

theorem setPc_self (s : State n) (t : Fin n) (p : PC) : (s.setPc t p).pc t = p := by
  simp [State.setPc]

theorem wob_ite {s : State n} {lim : Nat} {k : Option (Nat × Nat)} {c : Bool} {x y : WSt}
    (h1 : c = true → WOb s lim k x) (h2 : c = false → WOb s lim k y) :
    WOb s lim k (if c = true then x else y) := by
  cases c
  · exact h2 rfl
  · exact h1 rfl

/-- A step that is not a step of a write operation. -/
structure Quiet (s s' : State n) : Prop where
  pcw : ∀ t lim k st, s'.pc t = .w lim k st → s.pc t = .w lim k st
  own : ∀ t i, insId (s.pc t) = some i → insId (s'.pc t) = some i
  rb : s'.retBelow = s.retBelow
  db : s'.deadBelow = s.deadBelow
  ram : ∀ r, s'.ram = some r → r.mark = .free → r.clean = false →
    ∃ r0, s.ram = some r0 ∧ r0.id = r.id ∧ r0.mark = .free ∧ r0.clean = false
  run : ∀ v, s'.run = .lkChecked v → s.run = .lkChecked v ∨ ¬ HasTomb s
  q : ∀ v, Job.insert v ∈ s'.queue → Job.insert v ∈ s.queue ∨ ∀ b, TokOk s b → b ≤ v

theorem noChk_quiet {s s' : State n} (Q : Quiet s s') (h : NoChk s) (hT : HasTomb s) : NoChk s' := by
  intro v hv
  rcases Q.run v hv with h1 | h1
  · exact h v h1
  · exact h1 hT

theorem hasTomb_of {s : State n} {t : Fin n} (h : (s.pc t).holdsTomb = true) : HasTomb s := Or.inl ⟨t, h⟩

theorem invW_quiet {s s' : State n} (S : Stab s s') (Q : Quiet s s') (c0 : InvC0 s) (B' : InvB s')
    (w : InvW s) : InvW s' := by
  constructor
  · rw [Q.db]; exact S.SN _ w.deadN (S.STf _ w.deadN.c3 w.deadR)
  · rw [Q.db]; exact S.SR _ c0.dead w.deadR w.deadN.c5
  · intro r h1 h2 h3 h4
    obtain ⟨r0, e1, e2, e3, e4⟩ := Q.ram r h1 h2 h3
    have hn := w.unc r0 e1 e3 e4 (by
      intro t he; rw [e2] at he; exact h4 t (Q.own t _ he))
    rw [Q.rb]; exact S.SN _ hn (S.STr _ r hn.c3 h1 h2)
  · intro t lim k st hp'
    have hp := Q.pcw t lim k st hp'
    have hl := c0.lim _ _ _ _ hp
    have ob := w.ob _ _ _ _ hp
    have hb : lim ≤ s.retBelow := by omega
    cases st with
    | ins => trivial
    | tomb => trivial
    | sync => trivial
    | find => exact noChk_quiet Q ob (hasTomb_of (t := t) (by rw [hp]; rfl))
    | impl it => exact noChk_quiet Q ob (hasTomb_of (t := t) (by rw [hp]; rfl))
    | flag it =>
      obtain ⟨o1, o2, o3⟩ := ob
      exact ⟨noChk_quiet Q o1 (hasTomb_of (t := t) (by rw [hp]; rfl)),
        S.SR _ hb o2 (fun v hv => absurd hv (o1 v)),
        fun hc => S.SN _ (o3 hc) (S.STf _ (o3 hc).c3 o2)⟩
    | rm r =>
      obtain ⟨o1, o2, o3, o4⟩ := ob
      refine ⟨noChk_quiet Q o1 (hasTomb_of (t := t) (by rw [hp]; rfl)),
        S.SR _ hb o2 (fun v hv => absurd hv (o1 v)), fun hi => S.STf _ (o3 hi) o2, ?_⟩
      intro hr v hv hm
      rcases Q.q v hm with h1 | h1
      · exact o4 hr v hv h1
      · have := h1 lim (o3 (by rw [hr]; rfl)); omega
    | ret =>
      obtain ⟨o1, o2⟩ := ob
      cases k with
      | none => exact ⟨S.SN _ o1 (S.STf _ o1.c3 (o2 rfl)), fun _ => S.SR _ hb (o2 rfl) o1.c5⟩
      | some p =>
        obtain ⟨v, id⟩ := p
        obtain ⟨r, h1, -, -, -, h2⟩ := B'.own _ _ _ _ _ hp' (by simp)
        exact ⟨S.SN _ o1 (S.STr _ r o1.c3 h1 h2), fun h => nomatch h⟩

theorem tokOk_ev {s : State n} (B : InvB s) {t o : Fin n} {it : Item} (hp : s.pc t = .evCtx it)
    (ht : s.token = some (true, o)) : ∀ b, TokOk s b → b ≤ it.ver := by
  intro b hb
  obtain ⟨p, h1, h2⟩ := B.tok t (by rw [hp]; rfl)
  exact hb p it h1 (by rw [ht] at h1; cases h1; rfl) (by rw [h2, hp]; rfl)

/-- step of the write operation of thread `t`. -/
theorem invW_wr {s s' : State n} (S : Stab s s') (c0 : InvC0 s) (B' : InvB s') (w : InvW s)
    (rb : s'.retBelow = s.retBelow) (db : s'.deadBelow = s.deadBelow)
    (own : ∀ t i, insId (s.pc t) = some i → insId (s'.pc t) = some i)
    (ram : ∀ r, s'.ram = some r → r.mark = .free → r.clean = false → NotOwn s' r.id →
      ∃ r0, s.ram = some r0 ∧ r0.id = r.id ∧ r0.mark = .free ∧ r0.clean = false)
    {t : Fin n} {lim : Nat} {k : Option (Nat × Nat)} {st : WSt} (hp : s'.pc t = .w lim k st)
    (ob : WOb s' lim k st) : InvW s' := by
  constructor
  · rw [db]; exact S.SN _ w.deadN (S.STf _ w.deadN.c3 w.deadR)
  · rw [db]; exact S.SR _ c0.dead w.deadR w.deadN.c5
  · intro r h1 h2 h3 h4
    obtain ⟨r0, e1, e2, e3, e4⟩ := ram r h1 h2 h3 h4
    have hn := w.unc r0 e1 e3 e4 (by
      intro t he; rw [e2] at he; exact h4 t (own t _ he))
    rw [rb]; exact S.SN _ hn (S.STr _ r hn.c3 h1 h2)
  · intro t' lim' k' st' hp'
    have := B'.wU t t' (by rw [hp]; rfl) (by rw [hp']; rfl)
    subst this
    rw [hp] at hp'; cases hp'
    exact ob

theorem kNone {s : State n} (B : InvB s) {t : Fin n} {lim : Nat} {k : Option (Nat × Nat)} {st : WSt}
    (hp : s.pc t = .w lim k st) (hd : isDelSt st = true) : k = none := by
  cases k with
  | none => rfl
  | some p => have := B.wK _ _ _ _ hp rfl; rw [hd] at this; cases this

set_option maxHeartbeats 4000000 in
theorem invW_step {s s' : State n} (a : InvA s) (B : InvB s) (c0 : InvC0 s) (C : InvC s)
    (B' : InvB s') (C' : InvC s') (w : InvW s) (hs : Step good s s') : InvW s' := by
  have S := stab a B c0 C hs
  cases hs
  case startIns t hi hs =>
    refine invW_wr S c0 B' w rfl rfl ?_ (fun r h1 h2 h3 _ => ⟨r, h1, rfl, h2, h3⟩) (t := t)
      (setPc_self _ _ _) trivial
    intro x i hx
    simp only [State.setPc]; split
    · rename_i e; subst e; rw [hi] at hx; cases hx
    · exact hx
  case startDel t hi hs =>
    refine invW_wr S c0 B' w rfl rfl ?_ (fun r h1 h2 h3 _ => ⟨r, h1, rfl, h2, h3⟩) (t := t)
      (setPc_self _ _ _) trivial
    intro x i hx
    simp only [State.setPc]; split
    · rename_i e; subst e; rw [hi] at hx; cases hx
    · exact hx
  case insNone t lim v id hp hl =>
    refine invW_wr S c0 B' w rfl rfl ?_ ?_ (t := t)
      (setPc_self _ _ _) trivial
    · intro x i hx
      simp only [State.setPc]; split
      · rename_i e; subst e; rw [hp] at hx; exact hx
      · exact hx
    · intro r h1 h2 h3 h4
      cases h1
      exact absurd (by simp [State.setPc, insId]) (h4 t)
  case insRepl t lim v id old hp hl =>
    have hh := look_hit hl
    have hno : NotOwn s old.id := by
      intro t' he
      have := B.wU t t' (by rw [hp]; rfl) (isWriter_of_insId he)
      subst this
      rw [hp] at he; cases he
      exact B.wRam _ _ _ _ _ hp hh.1 rfl
    refine invW_wr S c0 B' w rfl rfl ?_ ?_ (t := t)
      (setPc_self _ _ _) ?_
    · intro x i hx
      simp only [State.setPc]; split
      · rename_i e; subst e; rw [hp] at hx; exact hx
      · exact hx
    · intro r h1 h2 h3 h4
      cases h1
      exact absurd (by simp [State.setPc, insId]) (h4 t)
    · refine wob_ite (fun _ => trivial) (fun hc => ?_)
      · have hn := w.unc old hh.1 hh.2 hc hno
        rw [← c0.lim _ _ _ _ hp] at hn
        exact ⟨S.SN _ hn (S.STr _ _ hn.c3 rfl rfl), fun h => nomatch h⟩
  case wTomb t lim k hp =>
    refine invW_wr S c0 B' w rfl rfl ?_ (fun r h1 h2 h3 _ => ⟨r, h1, rfl, h2, h3⟩) (t := t)
      (setPc_self _ _ _) trivial
    intro x i hx
    simp only [State.setPc]; split
    · rename_i e; subst e; rw [hp] at hx; exact hx
    · exact hx
  case wSync t lim k hp hl =>
    have hk : NoChk s := fun v hv => by have := a.lk2 v hv; rw [hl] at this; cases this
    refine invW_wr S c0 B' w rfl rfl ?_ (fun r h1 h2 h3 _ => ⟨r, h1, rfl, h2, h3⟩) (t := t)
      (setPc_self _ _ _) ?_
    · intro x i hx
      simp only [State.setPc]; split
      · rename_i e; subst e; rw [hp] at hx; exact hx
      · exact hx
    · cases k with
      | none => exact hk
      | some p =>
        obtain ⟨v, id⟩ := p
        obtain ⟨r, h1, -, h2, -, -⟩ := B.own _ _ _ _ _ hp (by simp)
        have e1 := c0.lim _ _ _ _ hp
        have e2 := c0.ver _ _ _ _ _ hp
        exact ⟨hk, fresh_own (r := r) h1 (by omega), by simp [pastInval], by simp⟩
  case delMiss t lim k hp hl =>
    refine invW_wr S c0 B' w rfl rfl ?_ (fun r h1 h2 h3 _ => ⟨r, h1, rfl, h2, h3⟩) (t := t)
      (setPc_self _ _ _) ?_
    · intro x i hx
      simp only [State.setPc]; split
      · rename_i e; subst e; rw [hp] at hx; exact hx
      · exact hx
    · exact ⟨w.ob _ _ _ _ hp, fresh_miss hl rfl, by simp [pastInval], by simp⟩
  case delHit t lim k it hp hl =>
    refine invW_wr S c0 B' w rfl rfl ?_ (fun r h1 h2 h3 _ => ⟨r, h1, rfl, h2, h3⟩) (t := t)
      (setPc_self _ _ _) ?_
    · intro x i hx
      simp only [State.setPc]; split
      · rename_i e; subst e; rw [hp] at hx; exact hx
      · exact hx
    · have ob := w.ob _ _ _ _ hp
      exact ob
  case delImpl t lim k it hp =>
    have hkn := kNone B hp rfl
    subst hkn
    obtain ⟨r, h1, h2, h3, h4⟩ := B.impl _ _ _ hp
    have hu : unlink s.ram it.id = none := by rw [h1, unlink_some, if_pos h2]
    refine invW_wr S c0 B' w rfl rfl ?_ (fun r' h1' _ _ _ => by simp only [hu] at h1'; cases h1') (t := t)
      (setPc_self _ _ _) ?_
    · intro x i hx
      simp only [State.setPc]; split
      · rename_i e; subst e; rw [hp] at hx; exact hx
      · exact hx
    · have hno : NotOwn s r.id := by
        intro t' he
        have := B.wU t t' (by rw [hp]; rfl) (isWriter_of_insId he)
        subst this
        rw [hp] at he; cases he
      refine ⟨w.ob _ _ _ _ hp, fresh_none hu, fun hc => ?_⟩
      have hn := w.unc r h1 h4 (by rw [h3, hc]) hno
      rw [← c0.lim _ _ _ _ hp] at hn
      refine S.SN _ hn (tokOk_same hn.c3 rfl ?_)
      intro x
      simp only [State.setPc]; split
      · rename_i e; subst e; rw [hp]; rfl
      · rfl
  case delFlag t lim k it hp =>
    have hkn := kNone B hp rfl
    subst hkn
    obtain ⟨o1, o2, o3⟩ := w.ob _ _ _ _ hp
    have hb : lim ≤ s.retBelow := by have := c0.lim _ _ _ _ hp; omega
    refine invW_wr S c0 B' w rfl rfl ?_ (fun r h1 h2 h3 _ => ⟨r, h1, rfl, h2, h3⟩) (t := t)
      (setPc_self _ _ _) ?_
    · intro x i hx
      simp only [State.setPc]; split
      · rename_i e; subst e; rw [hp] at hx; exact hx
      · exact hx
    · refine wob_ite (fun _ => ?_) (fun hc => ?_)
      · exact ⟨o1, S.SR _ hb o2 (fun v hv => absurd hv (o1 v)), by simp [pastInval], by simp⟩
      · have hn := o3 hc
        exact ⟨S.SN _ hn (S.STf _ hn.c3 o2), fun _ => S.SR _ hb o2 (fun v hv => absurd hv (o1 v))⟩
  case wRm s1 t lim k r r' hp hr =>
    obtain ⟨o1, o2, o3, o4⟩ := w.ob _ _ _ _ hp
    have hb : lim ≤ s.retBelow := by have := c0.lim _ _ _ _ hp; omega
    have hev : evItem (s.pc t) = none := by rw [hp]; rfl
    have hrb : s1.retBelow = s.retBelow ∧ s1.deadBelow = s.deadBelow ∧ s1.ram = s.ram ∧
        s1.pc = s.pc ∧ s1.run = s.run := by
      cases hr <;> exact ⟨rfl, rfl, rfl, rfl, rfl⟩
    obtain ⟨e1, e2, e3, e4, e5⟩ := hrb
    refine invW_wr S c0 B' w e1 e2 ?_ (fun r h1 h2 h3 _ => ⟨r, e3 ▸ h1, rfl, h2, h3⟩) (t := t)
      (setPc_self _ _ _) ?_
    · intro x i hx
      simp only [State.setPc, e4]; split
      · rename_i e; subst e; rw [hp] at hx; exact hx
      · exact hx
    · have hF : Fresh (s1.setPc t (.w lim k (afterRm r'))) lim :=
        S.SR _ hb o2 (fun v hv => absurd hv (o1 v))
      have hC : NoChk (s1.setPc t (.w lim k (afterRm r'))) := by
        intro v hv; exact o1 v (e5 ▸ hv)
      cases hr with
      | on h => exact ⟨hC, hF, by simp [pastInval], by simp⟩
      | off h => rw [a.en] at h; cases h
      | inval => exact ⟨hC, hF, fun _ => noTok_of_inval rfl, by simp⟩
      | hasCtx => exact ⟨hC, hF, fun _ => S.STf _ (o3 rfl) o2, by simp⟩
      | noCtx h => exact ⟨hC, hF, fun _ => S.STf _ (o3 rfl) o2, fun _ v _ => notCtx h v⟩
      | could => exact ⟨hC, hF, fun _ => S.STf _ (o3 rfl) o2, by simp⟩
      | skip h => exact ⟨nclean_skip C (o3 rfl) (o4 rfl) h o1 hev rfl, fun _ => hF⟩
      | enq => exact ⟨nclean_enq a (o3 rfl) o1 hev rfl, fun _ => hF⟩
  case wRet t lim k hp =>
    obtain ⟨o1, o2⟩ := w.ob _ _ _ _ hp
    have hl := c0.lim _ _ _ _ hp
    have hb : lim ≤ s.retBelow := by omega
    have hd := c0.dead
    have hmax : max s.deadBelow lim = lim := by omega
    have hF : Fresh s lim := by
      cases k with
      | none => exact o2 rfl
      | some p =>
        obtain ⟨v, id⟩ := p
        obtain ⟨r, h1, -, h2, -, -⟩ := B.own _ _ _ _ _ hp (by simp)
        have e2 := c0.ver _ _ _ _ _ hp
        exact fresh_own (r := r) h1 (by omega)
    have hF' := S.SR _ hb hF o1.c5
    have hN' := S.SN _ o1 (S.STf _ o1.c3 hF)
    constructor
    · exact nclean_le (Nat.le_of_eq hmax) hN'
    · exact fresh_le (Nat.le_of_eq hmax) hF'
    · intro r h1 h2 h3 h4
      show NClean _ (retVer s.retBelow k)
      cases k with
      | none => exact nclean_le (Nat.le_of_eq hl.symm) hN'
      | some p =>
        obtain ⟨v, id⟩ := p
        have e2 := c0.ver _ _ _ _ _ hp
        have := nclean_ge (b' := retVer s.retBelow (some (v, id))) C (Nat.le_of_eq hl.symm) rfl o1
        refine S.SN _ this (S.STr _ r this.c3 h1 h2)
    · intro t' lim' k' st' hp'
      exfalso
      simp only [State.setPc] at hp'
      split at hp'
      · cases hp'
      · rename_i hne
        exact hne (B.wU t' t (by rw [hp']; rfl) (by rw [hp]; rfl))
  all_goals refine invW_quiet S ?_ c0 B' w
  case lkErrRm s1 r r' hr hs =>
    clear w S B' c0 a C C' B
    cases hs <;> constructor <;> simp only [afterErr] <;> grind
  case putEnq t o it hp ht =>
    have := tokOk_ev B hp ht
    clear w S B' c0 a C C' B
    constructor <;> simp only [State.setPc] <;> grind
  all_goals try have hh := look_hit ‹_›
  all_goals clear w S B' c0 a C C' B
  all_goals (constructor <;> simp only [State.setPc] <;> grind)

/-- All invariants together. -/
structure Inv (s : State n) : Prop where
  A : InvA s
  B : InvB s
  C0 : InvC0 s
  C : InvC s
  W : InvW s
  F : InvF s

theorem inv_init : Inv (init n) := ⟨invA_init, invB_init, invC0_init, invC_init, invW_init, invF_init⟩

theorem inv_step {s s' : State n} (h : Inv s) (hs : Step good s s') : Inv s' :=
  have hB := invB_step h.B hs
  have hC := invC_step h.A h.B h.C0 h.C hs
  ⟨invA_step h.A hs, hB, invC0_step h.B.wU h.C0 hs, hC,
    invW_step h.A h.B h.C0 h.C hB hC h.W hs, invF_step h.A h.W h.F hs⟩

theorem inv_reach {s : State n} (h : Reach good s) : Inv s := by
  induction h with
  | init => exact inv_init
  | step _ hs ih => exact inv_step ih hs

end Verif.NvmSync
