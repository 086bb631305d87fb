import Verif.HashTable.Steps
/-! Simulation of the atomic map by the table: one lemma per kind of step. -/
namespace Verif.HashTable
variable {K : Type} {n : Nat} {c : Cfg K} {s : State K n} {L : Nat → List P} {a : Atomic K n}

theorem flag_iff (h : Inv c s L) {t : Fin n} {o : Op K} {nd : P} (ho : (s.pc t).op = some o)
    (hf : (s.pc t).flagNode = none) (hn : o.newNode = some nd) : s.acc nd = true ↔ nd ∈ L (c.bkt nd) := by
  apply h.flag
  intro t' e
  by_cases ht : t' = t
  · subst ht; rw [hf] at e; cases e
  · obtain ⟨o', ho', hn'⟩ := flag_new e
    exact h.uniq t t' o o' nd (Ne.symm ht) ho ho' hn hn'

/-- under the lock of its bucket, a node that this thread does not add has an exact flag. -/
theorem flag_lock (h : Inv c s L) {t : Fin n} {o : Op K} {x : P} (ho : (s.pc t).op = some o)
    (hl : (s.pc t).inLock = true) (hf : (s.pc t).flagNode = none) (hb : c.bkt x = c.opBucket o) :
    s.acc x = true ↔ x ∈ L (c.bkt x) := by
  apply h.flag
  intro t' e
  by_cases ht : t' = t
  · subst ht; rw [hf] at e; cases e
  · obtain ⟨o', ho', hn'⟩ := flag_new e
    have hl' : (s.pc t').inLock = true := by
      revert e; cases s.pc t' <;> simp [PC.flagNode, PC.inLock]
    refine h.excl t' t o' o ht ho' ho hl' hl (new_excl hn') ?_
    rw [new_bkt hn', hb]

theorem mem_map (h : Sim c s L a) (x : P) : a.map (c.key x) = some x ↔ x ∈ L (c.bkt x) := by
  rw [h.map]
  exact ⟨fun h => h.1, fun h => ⟨h, rfl⟩⟩

theorem Sim.late {p : PC K} (h : Sim c s L a) {t : Fin n} (hp : s.pc t = p) {nd : P}
    (hl : p.late = some nd) : nd ∉ L (c.bkt nd) := h.inv.late t nd (hp ▸ hl)

theorem Sim.loc {p : PC K} (h : Sim c s L a) {t : Fin n} (hp : s.pc t = p) : Loc c s L p := hp ▸ h.inv.loc t

theorem Sim.chain {p : PC K} {o : Op K} (h : Sim c s L a) {t : Fin n} (hp : s.pc t = p)
    (ho : p.op = some o) (hl : p.inLock = true) (hd : p.dirty = false) :
    Chain s (c.opBucket o) (L (c.opBucket o)) := by
  subst hp; exact h.inv.chain ho hl hd

theorem sim_call {t : Fin n} {o : Op K} (h : Sim c s L a) (hp : s.pc t = .idle) (hl : Legal c s o) :
    Next c a (.call t o) (s.setPc t (.pre o)) := by
  have un : ∀ t' o', (s.pc t').op = some o' → ∀ nd, o.newNode = some nd → o'.newNode ≠ some nd := by
    intro t' o' ho' nd hn
    cases o <;> simp only [Op.newNode, reduceCtorEq, Option.some.injEq] at hn
    all_goals subst hn
    · exact hl t' o' ho'
    · exact hl t' o' ho'
    · exact hl.1 t' o' ho'
  refine ⟨⟨a.map, fun x => ((s.setPc t (.pre o)).pc x).abs⟩, L, ⟨?_, h.map, fun _ => rfl⟩, Or.inr ?_⟩
  · apply frameR h.inv
    · cases o <;> first | trivial | exact hl | exact hl.2.1
    · intro t' o1 o' ht h1 h2 l1; cases l1
    · intro t' o1 o' nd ht h1 h2; cases h1; exact un t' o' h2 nd
    · intro o' ho'; rw [hp] at ho'; cases ho'
    · intro nd hnd
      cases o <;> simp only [PC.late, reduceCtorEq, Option.some.injEq] at hnd
      subst hnd
      rw [← h.inv.flag]
      · rw [hl.2.2]; simp
      · intro t' e
        obtain ⟨o', ho', hn'⟩ := flag_new e
        exact un t' o' ho' _ rfl hn'
    · rw [hp]; exact ⟨rfl, rfl⟩
    · rw [hp]; rfl
  · refine AStep.call _ _ t o (by rw [h.client, hp]; rfl) rfl ?_ ?_
    · show ((s.setPc t (.pre o)).pc t).abs = _
      rw [setPc_self]; rfl
    · intro x hx
      show ((s.setPc t (.pre o)).pc x).abs = _
      rw [setPc_other _ _ hx, h.client]

theorem sim_ret {t : Fin n} {o : Op K} {r : Res} (h : Sim c s L a) (hp : s.pc t = .ret o r) :
    Next c a (.ret t r) (s.setPc t .idle) := by
  refine ⟨⟨a.map, fun x => ((s.setPc t .idle).pc x).abs⟩, L, ⟨?_, h.map, fun _ => rfl⟩, Or.inr ?_⟩
  · apply frameR h.inv
    · trivial
    · intro t' o1 o' ht h1; cases h1
    · intro t' o1 o' nd ht h1; cases h1
    · intro o' ho' hd; rw [hp] at hd; cases hd
    · intro nd hnd; cases hnd
    · rw [hp]; exact ⟨rfl, rfl⟩
    · rw [hp]; rfl
  · refine AStep.ret _ _ t r (by rw [h.client, hp]; rfl) rfl ?_ ?_
    · show ((s.setPc t .idle).pc t).abs = _
      rw [setPc_self]; rfl
    · intro x hx
      show ((s.setPc t .idle).pc x).abs = _
      rw [setPc_other _ _ hx, h.client]

/-- invisible step that changes only the program point. -/
theorem stay {t : Fin n} {p q : PC K} {o : Op K} (h : Sim c s L a) (hq : s.pc t = q)
    (hqo : q.op = some o) (hpo : p.op = some o) (loc : Loc c (s.setPc t p) L p)
    (hl : p.inLock = true → q.inLock = true) (dirty : q.dirty = true → p.dirty = true)
    (late : ∀ nd, p.late = some nd → nd ∉ L (c.bkt nd)) (flag : p.flagNode = none ∧ q.flagNode = none)
    (owed : p.owed = q.owed) (habs : p.abs = q.abs) : Next c a .tau (s.setPc t p) :=
  silent h hq (fun _ e => setPc_other _ _ e) (setPc_self _ _ _) habs
    (frameS h.inv hq hqo hpo loc hl dirty late flag owed)

/-- effect without change of memory. -/
theorem answer {t : Fin n} {p q : PC K} {o : Op K} {r : Res} (h : Sim c s L a) (hq : s.pc t = q)
    (hqo : q.op = some o) (hpo : p.op = some o) (loc : Loc c (s.setPc t p) L p)
    (hl : p.inLock = true → q.inLock = true) (dirty : q.dirty = true → p.dirty = true)
    (late : ∀ nd, p.late = some nd → nd ∉ L (c.bkt nd)) (flag : p.flagNode = none ∧ q.flagNode = none)
    (owed : p.owed = q.owed) (hqa : q.abs = .called o) (hpa : p.abs = .answered r)
    (hs : Spec c.key c.bucket o a.map r a.map) : Next c a .tau (s.setPc t p) :=
  effect h hq (fun _ e => setPc_other _ _ e) (setPc_self _ _ _) hqa hpa hs h.map
    (frameS h.inv hq hqo hpo loc hl dirty late flag owed)

theorem sim_pre {t : Fin n} {o : Op K} {nd : P} {r : Res} (h : Sim c s L a) (hp : s.pc t = .pre o)
    (hr : resPre o = some (nd, r)) (ha : s.acc nd = true) : Next c a .tau (s.setPc t (.ret o r)) := by
  have hm : nd ∈ L (c.bkt nd) :=
    (flag_iff h.inv (t := t) (o := o) (by rw [hp]; rfl) (by rw [hp]; rfl) (pre_new hr)).1 ha
  refine answer h hp rfl rfl trivial (by simp [PC.inLock]) (by simp [PC.dirty]) (by simp [PC.late])
    ⟨rfl, rfl⟩ rfl rfl rfl ?_
  rw [← mem_map h] at hm
  cases o <;> simp only [resPre, reduceCtorEq, Option.some.injEq, Prod.mk.injEq] at hr <;>
    obtain ⟨rfl, rfl⟩ := hr
  · exact .insertOld _ _ _ hm
  · exact .putSame _ _ _ hm

theorem sim_preGo {t : Fin n} {o : Op K} {nd : P} {r : Res} (h : Sim c s L a) (hp : s.pc t = .pre o)
    (hr : resPre o = some (nd, r)) (ha : s.acc nd = false) : Next c a .tau (s.setPc t (.want o)) := by
  have hm : nd ∉ L (c.bkt nd) := by
    rw [← flag_iff h.inv (t := t) (o := o) (by rw [hp]; rfl) (by rw [hp]; rfl) (pre_new hr), ha]; simp
  refine stay h hp rfl rfl ?_ (by simp [PC.inLock]) (by simp [PC.dirty]) ?_ ⟨rfl, rfl⟩ rfl rfl
  · cases o <;> first | trivial | cases hr
  · intro nd' hn'
    have : o.newNode = some nd' := hn'
    rw [pre_new hr] at this; cases this
    exact hm

theorem sim_preSkip {t : Fin n} {o : Op K} (h : Sim c s L a) (hp : s.pc t = .pre o)
    (hr : resPre o = none) : Next c a .tau (s.setPc t (.want o)) := by
  have hl := h.loc hp
  refine stay h hp rfl rfl ?_ (by simp [PC.inLock]) (by simp [PC.dirty]) ?_ ⟨rfl, rfl⟩ rfl rfl
  · cases o <;> first | trivial | exact hl
  · intro nd hn
    cases o <;> first | (cases hr; done) | (cases hn; done) | skip
    exact h.late hp hn

theorem sim_lock {t : Fin n} {o : Op K} (h : Sim c s L a) (hp : s.pc t = .want o)
    (hf : ∀ x, ¬ c.conflict (s.pc x) (c.opBucket o) o.exclusive) :
    Next c a .tau (s.setPc t (.locked o)) := by
  have hl := h.loc hp
  refine silent h hp (fun _ e => setPc_other _ _ e) (setPc_self _ _ _) rfl (frameR h.inv ?_ ?_ ?_ ?_ ?_ ?_ ?_)
  · cases o <;> first | trivial | exact hl
  · intro t' o1 o' ht h1 h2 _ l2 hx e
    cases h1
    exact hf t' ⟨o', h2, l2, e.symm, hx⟩
  · intro t' o1 o' nd ht h1 h2 hn
    cases h1
    exact h.inv.uniq t t' o o' nd (Ne.symm ht) (by rw [hp]; rfl) h2 hn
  · intro o' _ hd; rw [hp] at hd; cases hd
  · intro nd hn; exact h.late hp hn
  · rw [hp]; exact ⟨rfl, rfl⟩
  · rw [hp]; rfl

theorem locked_target {o : Op K} {nd : P} {r : Res} (h : resLocked o = some (nd, r)) :
    o.target = some nd := by
  cases o <;> simp only [resLocked, reduceCtorEq, Option.some.injEq, Prod.mk.injEq] at h <;>
    obtain ⟨rfl, -⟩ := h <;> rfl

/-- bucket of the tested node. -/
theorem target_bkt {o : Op K} {nd : P} (h : o.target = some nd)
    (hk : ∀ old nw p, o = .replaceIf old nw p → c.key old = c.key nw) : c.bkt nd = c.opBucket o := by
  cases o <;> simp only [Op.target, reduceCtorEq, Option.some.injEq] at h <;> subst h
  · unfold Cfg.bkt; rw [hk _ _ _ rfl]; rfl
  · rfl
  · rfl

theorem locked_key {t : Fin n} {o : Op K} (h : Sim c s L a) (hp : s.pc t = .locked o) :
    ∀ old nw p, o = .replaceIf old nw p → c.key old = c.key nw := by
  rintro old nw p rfl
  exact h.loc hp

theorem target_flag {t : Fin n} {o : Op K} {nd : P} (h : Sim c s L a) (hp : s.pc t = .locked o)
    (hr : o.target = some nd) : s.acc nd = true ↔ nd ∈ L (c.bkt nd) :=
  flag_lock h.inv (t := t) (o := o) (by rw [hp]; rfl) (by rw [hp]; rfl) (by rw [hp]; rfl)
    (target_bkt hr (locked_key h hp))

theorem sim_refuse {t : Fin n} {o : Op K} {nd : P} {r : Res} (h : Sim c s L a)
    (hp : s.pc t = .locked o) (hr : resLocked o = some (nd, r))
    (ha : s.acc nd = false ∨ predOf o = false) : Next c a .tau (s.setPc t (.fin o r)) := by
  refine answer h hp rfl rfl trivial (by simp [PC.inLock]) (by simp [PC.dirty]) (by simp [PC.late])
    ⟨rfl, rfl⟩ rfl rfl rfl ?_
  have hf := target_flag h hp (locked_target hr)
  rw [← mem_map h] at hf
  have hne : a.map (c.key nd) ≠ some nd ∨ predOf o = false := by
    rcases ha with ha | ha
    · left; rw [ne_eq, ← hf, ha]; simp
    · exact Or.inr ha
  cases o <;> simp only [resLocked, reduceCtorEq, Option.some.injEq, Prod.mk.injEq] at hr <;>
    obtain ⟨rfl, rfl⟩ := hr
  · exact .replaceNo _ _ _ _ hne
  · rcases hne with h | h
    · exact .removeNo _ _ h
    · cases h
  · exact .removeIfNo _ _ _ _ hne

theorem sim_early {t : Fin n} {o : Op K} {nd : P} {r : Res} (h : Sim c s L a)
    (hp : s.pc t = .locked o) (hr : resLocked o = some (nd, r)) (ha : s.acc nd = true)
    (hq : predOf o = true) (ht : throwsEarly o = true) : Next c a .tau (s.setPc t (.fin o .threw)) := by
  refine answer h hp rfl rfl trivial (by simp [PC.inLock]) (by simp [PC.dirty]) (by simp [PC.late])
    ⟨rfl, rfl⟩ rfl rfl rfl ?_
  have hf := (target_flag h hp (locked_target hr)).1 ha
  rw [← mem_map h] at hf
  cases o <;> first | (cases ht; done) | skip
  simp only [resLocked, Option.some.injEq, Prod.mk.injEq] at hr
  obtain ⟨rfl, rfl⟩ := hr
  simp only [predOf, throwsEarly] at hq ht
  subst hq ht
  exact .removeIfThrow _ _ hf

theorem sim_accept {t : Fin n} {o : Op K} {nd : P} {r : Res} (h : Sim c s L a)
    (hp : s.pc t = .locked o) (hr : resLocked o = some (nd, r)) (ha : s.acc nd = true)
    (hq : predOf o = true) (ht : throwsEarly o = false) : Next c a .tau (s.setPc t (.start o)) := by
  have hf := (target_flag h hp (locked_target hr)).1 ha
  have hk := locked_key h hp
  refine stay h hp rfl rfl ⟨?_, hk, ?_, hq, ht⟩ (by simp [PC.inLock]) (by simp [PC.dirty]) ?_ ⟨rfl, rfl⟩
    rfl rfl
  · intro p hpt
    rw [locked_target hr] at hpt; cases hpt
    rw [← target_bkt (locked_target hr) hk]; exact hf
  · rintro b rfl; cases hr
  · intro nd hn; exact h.late hp hn

theorem sim_noTest {t : Fin n} {o : Op K} (h : Sim c s L a) (hp : s.pc t = .locked o)
    (hr : resLocked o = none) : Next c a .tau (s.setPc t (.start o)) := by
  have hl := h.loc hp
  refine stay h hp rfl rfl ⟨?_, locked_key h hp, ?_, ?_, ?_⟩ (by simp [PC.inLock]) (by simp [PC.dirty])
    ?_ ⟨rfl, rfl⟩ rfl rfl
  · intro p hpt; cases o <;> first | (cases hr; done) | (cases hpt; done)
  · rintro b rfl; exact hl
  · cases o <;> first | (cases hr; done) | rfl
  · cases o <;> first | (cases hr; done) | rfl
  · intro nd hn; exact h.late hp hn

theorem sim_head {t : Fin n} {o : Op K} {k : K} (h : Sim c s L a) (hp : s.pc t = .start o)
    (hk : c.opKey o = some k) :
    Next c a .tau (s.setPc t (.walk o none (s.heads (c.opBucket o)))) := by
  obtain ⟨h1, h2, h3, h4, h5⟩ := h.loc hp
  refine stay h hp rfl rfl ⟨h1, h2, h4, h5, k, hk, pos_start k (h.chain hp rfl rfl rfl)⟩
    (by simp [PC.inLock]) (by simp [PC.dirty]) (fun nd hn => h.late hp hn) ⟨rfl, rfl⟩ rfl rfl

theorem sim_walk {t : Fin n} {o : Op K} {k : K} {prev : Option P} {x : P} (h : Sim c s L a)
    (hp : s.pc t = .walk o prev (some x)) (hk : c.opKey o = some k) (hx : c.key x ≠ k) :
    Next c a .tau (s.setPc t (.walk o (some x) (s.next x))) := by
  obtain ⟨h1, h2, h4, h5, k', hk', hpos⟩ := h.loc hp
  rw [hk] at hk'; cases hk'
  refine stay h hp rfl rfl ⟨h1, h2, h4, h5, k, hk, pos_next (h.chain hp rfl rfl rfl) hpos hx⟩
    (by simp [PC.inLock]) (by simp [PC.dirty]) (fun nd hn => h.late hp hn) ⟨rfl, rfl⟩ rfl rfl

theorem sim_found {t : Fin n} {k : K} {prev cur : Option P} (h : Sim c s L a)
    (hp : s.pc t = .walk (.find k) prev cur) (hx : ∀ x, cur = some x → c.key x = k) :
    Next c a .tau (s.setPc t (.fin (.find k) (.handle cur))) := by
  obtain ⟨-, -, -, -, k', hk', hpos⟩ := h.loc hp
  cases hk'
  refine answer h hp rfl rfl trivial (by simp [PC.inLock]) (by simp [PC.dirty]) (by simp [PC.late])
    ⟨rfl, rfl⟩ rfl rfl rfl ?_
  have : cur = a.map k := by
    cases cur with
    | none =>
      cases hm : a.map k with
      | none => rfl
      | some p =>
        rw [h.map] at hm
        exact absurd hm.2 (pos_none hpos p hm.1)
    | some x =>
      symm
      rw [h.map]
      obtain ⟨pre, post, hl, -⟩ := pos_some hpos
      refine ⟨?_, hx x rfl⟩
      have : x ∈ L (c.opBucket (.find k)) := by rw [hl]; simp
      exact this
  rw [this]
  exact .find k a.map

theorem sim_dup {t : Fin n} {nd x : P} {prev : Option P} (h : Sim c s L a)
    (hp : s.pc t = .walk (.insert nd) prev (some x)) (hx : c.key x = c.key nd) :
    Next c a .tau (s.setPc t (.fin (.insert nd) (.flag false))) := by
  obtain ⟨-, -, -, -, k', hk', hpos⟩ := h.loc hp
  refine answer h hp rfl rfl trivial (by simp [PC.inLock]) (by simp [PC.dirty]) (by simp [PC.late])
    ⟨rfl, rfl⟩ rfl rfl rfl ?_
  obtain ⟨pre, post, hl, -⟩ := pos_some hpos
  refine .insertOld nd x _ ?_
  rw [h.map]
  refine ⟨?_, hx⟩
  have : x ∈ L (c.opBucket (.insert nd)) := by rw [hl]; simp
  exact this

theorem key_of_new {o : Op K} {nd : P} (h : o.newNode = some nd) : c.opKey o = some (c.key nd) := by
  cases o <;> simp only [Op.newNode, reduceCtorEq, Option.some.injEq] at h <;> subst h <;> rfl

theorem sim_absent {t : Fin n} {o : Op K} {nd : P} {prev : Option P} (h : Sim c s L a)
    (hp : s.pc t = .walk o prev none) (ho : o.newNode = some nd) :
    Next c a .tau (s.setPc t (.iHead o)) := by
  obtain ⟨h1, h2, -, -, k, hk, hpos⟩ := h.loc hp
  rw [key_of_new ho] at hk; cases hk
  have hf := pos_none hpos
  have : ∃ r, resPre o = some (nd, r) := by
    cases o <;> simp only [Op.newNode, reduceCtorEq, Option.some.injEq] at ho <;> subst ho
    · exact ⟨_, rfl⟩
    · exact ⟨_, rfl⟩
    · exact absurd (h2 _ _ _ rfl) (hf _ (h1 _ rfl))
  obtain ⟨r, hr⟩ := this
  exact stay h hp rfl rfl ⟨nd, r, hr, hf⟩
    (by simp [PC.inLock]) (by simp [PC.dirty]) (fun nd hn => h.late hp hn) ⟨rfl, rfl⟩ rfl rfl

theorem sim_iHead {t : Fin n} {o : Op K} (h : Sim c s L a) (hp : s.pc t = .iHead o) :
    Next c a .tau (s.setPc t (.iLink o (s.heads (c.opBucket o)))) := by
  obtain ⟨nd, r, hr, hf⟩ := h.loc hp
  exact stay h hp rfl rfl ⟨nd, r, hr, hf, rfl⟩
    (by simp [PC.inLock]) (by simp [PC.dirty]) (fun nd hn => h.late hp hn) ⟨rfl, rfl⟩ rfl rfl

theorem sim_present {t : Fin n} {o : Op K} {nd x : P} {prev : Option P} (h : Sim c s L a)
    (hp : s.pc t = .walk o prev (some x)) (ho : o.newNode = some nd) (hi : o ≠ .insert nd)
    (hx : c.key x = c.key nd) : Next c a .tau (s.setPc t (.xLink o prev x)) := by
  obtain ⟨h1, h2, h3, -, k, hk, hpos⟩ := h.loc hp
  obtain ⟨pre, post, hl, hpr, -⟩ := pos_some hpos
  refine stay h hp rfl rfl ⟨nd, pre, post, ho, hi, hx, ?_, hl, hpr⟩
    (by simp [PC.inLock]) (by simp [PC.dirty]) (fun nd hn => h.late hp hn) ⟨rfl, rfl⟩ rfl rfl
  rintro old nd' p rfl
  cases ho
  refine ⟨good_inj (h.inv.good _) (by rw [hl]; simp) (h1 old rfl) ?_, h3⟩
  rw [hx, h2 _ _ _ rfl]

theorem sim_backStart {t : Fin n} {nd x : P} (h : Sim c s L a)
    (hp : s.pc t = .xDone (.insertOrReplace nd true) x) :
    Next c a .tau (s.setPc t (.back (.insertOrReplace nd true) x none
        (s.heads (c.opBucket (.insertOrReplace nd true : Op K))))) := by
  obtain ⟨nd', pre, post, h1, h2, h3, -, h4, h5⟩ := h.loc hp
  cases h1
  exact stay h hp rfl rfl ⟨nd, pre, post, rfl, h3, h4, h5, pos_start _ h5⟩
    (by simp [PC.inLock]) (by simp [PC.dirty]) (fun nd hn => h.late hp hn) ⟨rfl, rfl⟩ rfl rfl

theorem sim_backWalk {t : Fin n} {o : Op K} {old x : P} {prev : Option P} (h : Sim c s L a)
    (hp : s.pc t = .back o old prev (some x)) (hx : c.key x ≠ c.key old) :
    Next c a .tau (s.setPc t (.back o old (some x) (s.next x))) := by
  obtain ⟨nd, pre, post, h1, h3, h4, h5, h6⟩ := h.loc hp
  exact stay h hp rfl rfl ⟨nd, pre, post, h1, h3, h4, h5, pos_next h5 h6 (h3 ▸ hx)⟩
    (by simp [PC.inLock]) (by simp [PC.dirty]) (fun nd hn => h.late hp hn) ⟨rfl, rfl⟩ rfl rfl

theorem split_unique {l1 l2 m1 m2 : List P} {x : P} (h : l1 ++ x :: l2 = m1 ++ x :: m2)
    (hn : (l1 ++ x :: l2).Nodup) : l1 = m1 ∧ l2 = m2 := by
  have hn2 := h ▸ hn
  induction l1 generalizing m1 with
  | nil =>
    cases m1 with
    | nil => simpa using h
    | cons y m1 =>
      simp only [List.nil_append, List.cons_append, List.cons.injEq] at h
      obtain ⟨rfl, h⟩ := h
      simp at hn2
  | cons y l1 ih =>
    cases m1 with
    | nil =>
      simp only [List.nil_append, List.cons_append, List.cons.injEq] at h
      obtain ⟨rfl, h⟩ := h
      simp at hn
    | cons z m1 =>
      simp only [List.cons_append, List.cons.injEq] at h
      obtain ⟨rfl, h⟩ := h
      have := ih h (List.Nodup.of_cons (by simpa using hn)) (List.Nodup.of_cons (by simpa using hn2))
      exact ⟨by rw [this.1], this.2⟩

theorem nd_split {b : Nat} {pre post : List P} {x nd : P} (hg : Good c b (pre ++ x :: post))
    (hk : c.key x = c.key nd) : Good c b (pre ++ nd :: post) := by
  constructor
  · have := hg.1
    simpa [hk] using this
  · intro p hp
    simp only [List.mem_append, List.mem_cons] at hp
    rcases hp with hp | rfl | hp
    · exact hg.2 p (by simp [hp])
    · have := hg.2 x (by simp); unfold Cfg.bkt at *; rwa [hk] at this
    · exact hg.2 p (by simp [hp])

theorem sim_backFound {t : Fin n} {o : Op K} {old x : P} {prev : Option P} (h : Sim c s L a)
    (hp : s.pc t = .back o old prev (some x)) (hx : c.key x = c.key old) :
    Next c a .tau (s.setPc t (.bLink o old prev x)) := by
  obtain ⟨nd, pre, post, h1, h3, h4, h5, h6⟩ := h.loc hp
  have hg := nd_split (h4 ▸ h.inv.good (c.opBucket o)) h3
  obtain ⟨p1, p2, hl, hpr, -⟩ := pos_some h6
  have hxn : x = nd := good_inj hg (by rw [hl]; simp) (by simp) (hx.trans h3)
  subst hxn
  obtain ⟨rfl, rfl⟩ := split_unique hl (good_nodup hg)
  exact stay h hp rfl rfl ⟨x, pre, post, h1, h3, rfl, h4, h5, hpr⟩
    (by simp [PC.inLock]) (by simp [PC.dirty]) (fun nd hn => h.late hp hn) ⟨rfl, rfl⟩ rfl rfl

theorem sim_prevFound {t : Fin n} {o : Op K} {nd : P} {r : Res} {prev cur : Option P} (h : Sim c s L a)
    (hp : s.pc t = .walk o prev cur) (hr : resLocked o = some (nd, r)) (ho : o.newNode = none)
    (hx : ∀ x, cur = some x → c.key x = c.key nd) : Next c a .tau (s.setPc t (.uLink o prev)) := by
  obtain ⟨h1, h2, h3, h3', k, hk, hpos⟩ := h.loc hp
  have hkk : k = c.key nd := by
    cases o <;> simp only [resLocked, reduceCtorEq, Option.some.injEq, Prod.mk.injEq] at hr <;>
      obtain ⟨rfl, -⟩ := hr <;> simp_all [Cfg.opKey, Op.newNode]
  subst hkk
  have hm := h1 nd (locked_target hr)
  cases cur with
  | none => exact absurd rfl (pos_none hpos nd hm)
  | some x =>
    obtain ⟨pre, post, hl, hpr, -⟩ := pos_some hpos
    have : x = nd := good_inj (h.inv.good _) (by rw [hl]; simp) hm (hx x rfl)
    subst this
    exact stay h hp rfl rfl ⟨x, pre, post, locked_target hr, ho, h3, h3', hl, hpr⟩
      (by simp [PC.inLock]) (by simp [PC.dirty]) (fun nd hn => h.late hp hn) ⟨rfl, rfl⟩ rfl rfl

theorem sim_scanHead {t : Fin n} {b : Nat} (h : Sim c s L a) (hp : s.pc t = .start (.scan b)) :
    Next c a .tau (s.setPc t (.scanw (.scan b) (s.heads b) [])) := by
  have hc := h.chain hp rfl rfl rfl
  exact stay h hp rfl rfl ⟨b, L b, rfl, rfl, seg_head hc⟩
    (by simp [PC.inLock]) (by simp [PC.dirty]) (fun nd hn => h.late hp hn) ⟨rfl, rfl⟩ rfl rfl

theorem sim_scanNext {t : Fin n} {o : Op K} {x : P} {got : List P} (h : Sim c s L a)
    (hp : s.pc t = .scanw o (some x) got) :
    Next c a .tau (s.setPc t (.scanw o (s.next x) (got ++ [x]))) := by
  have hc := h.chain hp rfl rfl rfl
  obtain ⟨b, post, rfl, hl, hcur⟩ := h.loc hp
  cases post with
  | nil => cases hcur
  | cons y post =>
    simp at hcur; subst hcur
    have hc' : Seg s.next (s.heads b) (got ++ x :: post) none := hl ▸ hc
    rw [Seg.append] at hc'
    obtain ⟨m, -, h2⟩ := hc'
    exact stay h hp rfl rfl ⟨b, post, rfl, by rw [hl]; simp, seg_head h2.2⟩
      (by simp [PC.inLock]) (by simp [PC.dirty]) (fun nd hn => h.late hp hn) ⟨rfl, rfl⟩ rfl rfl

theorem sim_scanEnd {t : Fin n} {o : Op K} {got : List P} (h : Sim c s L a)
    (hp : s.pc t = .scanw o none got) : Next c a .tau (s.setPc t (.fin o (.items got))) := by
  obtain ⟨b, post, rfl, hl, hcur⟩ := h.loc hp
  refine answer h hp rfl rfl trivial (by simp [PC.inLock]) (by simp [PC.dirty]) (by simp [PC.late])
    ⟨rfl, rfl⟩ rfl rfl rfl ?_
  cases post with
  | cons y post => cases hcur
  | nil =>
    simp at hl
    rw [← hl]
    refine .scan b _ _ (good_nodup (h.inv.good b)) ?_
    intro p
    rw [mem_map h]
    constructor
    · intro hpm
      have := (h.inv.good b).2 p hpm
      exact ⟨by rw [this]; exact hpm, this⟩
    · rintro ⟨h1, h2⟩
      have h2' : c.bkt p = b := h2
      rw [h2'] at h1; exact h1

theorem sim_unlock {t : Fin n} {o : Op K} {r : Res} (h : Sim c s L a) (hp : s.pc t = .fin o r) :
    Next c a .tau (s.setPc t (.ret o r)) :=
  stay h hp rfl rfl trivial (by simp [PC.inLock]) (by simp [PC.dirty]) (by simp [PC.late])
    ⟨rfl, rfl⟩ rfl rfl

end Verif.HashTable
