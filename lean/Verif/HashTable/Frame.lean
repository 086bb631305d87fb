import Verif.HashTable.Inv
/-! Frame lemmas: what a step of one thread preserves for the others. -/
namespace Verif.HashTable
variable {K : Type} {n : Nat}

theorem late_new {p : PC K} {nd : P} (h : p.late = some nd) : ∃ o, p.op = some o ∧ o.newNode = some nd := by
  cases p <;> first | (simp [PC.late] at h; done) | exact ⟨_, rfl, h⟩ | skip
  rename_i o
  cases o <;> simp [PC.late] at h
  exact ⟨_, rfl, by simp [Op.newNode, h]⟩

theorem flag_new {p : PC K} {nd : P} (h : p.flagNode = some nd) :
    ∃ o, p.op = some o ∧ o.newNode = some nd := by
  cases p <;> first | (simp [PC.flagNode] at h; done) | exact ⟨_, rfl, h⟩

theorem setPc_self (s : State K n) (t : Fin n) (p : PC K) : (s.setPc t p).pc t = p := by
  simp [State.setPc]

theorem setPc_other (s : State K n) {t t' : Fin n} (p : PC K) (h : t' ≠ t) :
    (s.setPc t p).pc t' = s.pc t' := by simp [State.setPc, h]

theorem sum_owed {s s' : State K n} {t : Fin n} (hpc : ∀ t', t' ≠ t → s'.pc t' = s.pc t') :
    ∑ x, (s'.pc x).owed + (s.pc t).owed = ∑ x, (s.pc x).owed + (s'.pc t).owed := by
  have h1 := Finset.add_sum_erase Finset.univ (fun x => (s'.pc x).owed) (Finset.mem_univ t)
  have h2 := Finset.add_sum_erase Finset.univ (fun x => (s.pc x).owed) (Finset.mem_univ t)
  have h3 : ∑ x ∈ Finset.univ.erase t, (s'.pc x).owed = ∑ x ∈ Finset.univ.erase t, (s.pc x).owed := by
    apply Finset.sum_congr rfl
    intro x hx
    rw [hpc x (Finset.ne_of_mem_erase hx)]
  omega

theorem sum_len {L L' : Nat → List P} {b N : Nat} (hb : b < N) (h : ∀ b', b' ≠ b → L' b' = L b') :
    ∑ x ∈ Finset.range N, ((L' x).length : Int) + (L b).length =
    ∑ x ∈ Finset.range N, ((L x).length : Int) + (L' b).length := by
  have hm := Finset.mem_range.2 hb
  have h1 := Finset.add_sum_erase (Finset.range N) (fun x => ((L' x).length : Int)) hm
  have h2 := Finset.add_sum_erase (Finset.range N) (fun x => ((L x).length : Int)) hm
  have h3 : ∑ x ∈ (Finset.range N).erase b, ((L' x).length : Int) =
      ∑ x ∈ (Finset.range N).erase b, ((L x).length : Int) := by
    apply Finset.sum_congr rfl
    intro x hx
    rw [h x (Finset.ne_of_mem_erase hx)]
  omega

/-- A step that changes only the program point of `t`. -/
theorem frameR {c : Cfg K} {s : State K n} {L : Nat → List P} (hI : Inv c s L) {t : Fin n} {p : PC K}
    (loc : Loc c (s.setPc t p) L p)
    (ex : ∀ t' o o', t' ≠ t → p.op = some o → (s.pc t').op = some o' → p.inLock = true →
      (s.pc t').inLock = true → (o.exclusive = true ∨ o'.exclusive = true) →
      c.lockOf (c.opBucket o) ≠ c.lockOf (c.opBucket o'))
    (un : ∀ t' o o' nd, t' ≠ t → p.op = some o → (s.pc t').op = some o' →
      o.newNode = some nd → o'.newNode ≠ some nd)
    (dirty : ∀ o, (s.pc t).op = some o → (s.pc t).dirty = true → p.op = some o ∧ p.dirty = true)
    (late : ∀ nd, p.late = some nd → nd ∉ L (c.bkt nd))
    (flag : p.flagNode = none ∧ (s.pc t).flagNode = none)
    (owed : p.owed = (s.pc t).owed) : Inv c (s.setPc t p) L := by
  have ag : ∀ b, Agree c s (s.setPc t p) L L b := fun b => ⟨rfl, fun _ _ => rfl, fun _ _ => rfl, rfl⟩
  constructor
  · exact hI.good
  · intro t'
    by_cases h : t' = t
    · subst h; rw [setPc_self]; exact loc
    · rw [setPc_other _ _ h]
      exact loc_agree hI.good (fun o _ => ag _) (hI.loc t')
  · intro b hb
    apply hI.clean b
    intro t' o ho hd
    by_cases h : t' = t
    · subst h
      obtain ⟨h1, h2⟩ := dirty o ho hd
      have := hb t' o
      rw [setPc_self] at this
      exact this h1 h2
    · have := hb t' o
      rw [setPc_other _ _ h] at this
      exact this ho hd
  · intro t1 t2 o1 o2 h12 h1 h2 l1 l2 hx
    by_cases e1 : t1 = t
    · subst e1
      rw [setPc_self] at h1 l1
      rw [setPc_other _ _ (Ne.symm h12)] at h2 l2
      exact ex t2 o1 o2 (Ne.symm h12) h1 h2 l1 l2 (Or.inl hx)
    · rw [setPc_other _ _ e1] at h1 l1
      by_cases e2 : t2 = t
      · subst e2
        rw [setPc_self] at h2 l2
        exact fun h => ex t1 o2 o1 e1 h2 h1 l2 l1 (Or.inr hx) h.symm
      · rw [setPc_other _ _ e2] at h2 l2
        exact hI.excl t1 t2 o1 o2 h12 h1 h2 l1 l2 hx
  · intro t1 t2 o1 o2 nd h12 h1 h2 hn hn'
    by_cases e1 : t1 = t
    · subst e1
      rw [setPc_self] at h1
      rw [setPc_other _ _ (Ne.symm h12)] at h2
      exact un t2 o1 o2 nd (Ne.symm h12) h1 h2 hn hn'
    · rw [setPc_other _ _ e1] at h1
      by_cases e2 : t2 = t
      · subst e2
        rw [setPc_self] at h2
        exact un t1 o2 o1 nd e1 h2 h1 hn' hn
      · rw [setPc_other _ _ e2] at h2
        exact hI.uniq t1 t2 o1 o2 nd h12 h1 h2 hn hn'
  · intro t' nd
    by_cases h : t' = t
    · subst h; rw [setPc_self]; exact late nd
    · rw [setPc_other _ _ h]; exact hI.late t' nd
  · intro q hq
    apply hI.flag q
    intro t'
    by_cases h : t' = t
    · subst h; rw [flag.2]; exact fun h => by cases h
    · have := hq t'
      rwa [setPc_other _ _ h] at this
  · have h := sum_owed (s := s) (s' := s.setPc t p) (t := t) fun t' h => setPc_other _ _ h
    rw [setPc_self, owed] at h
    have := hI.count
    show s.numKeys + _ = _
    omega

/-- A step that stays in the same operation and does not acquire the lock. -/
theorem frameS {c : Cfg K} {s : State K n} {L : Nat → List P} (hI : Inv c s L) {t : Fin n} {p q : PC K}
    {o : Op K} (hq : s.pc t = q) (hqo : q.op = some o) (hpo : p.op = some o)
    (loc : Loc c (s.setPc t p) L p)
    (hl : p.inLock = true → q.inLock = true)
    (dirty : q.dirty = true → p.dirty = true)
    (late : ∀ nd, p.late = some nd → nd ∉ L (c.bkt nd))
    (flag : p.flagNode = none ∧ q.flagNode = none)
    (owed : p.owed = q.owed) : Inv c (s.setPc t p) L := by
  subst hq
  apply frameR hI loc
  · intro t' o1 o' ht h1 h2 l1 l2 hx
    rw [hpo] at h1; cases h1
    rcases hx with hx | hx
    · exact hI.excl t t' o o' (Ne.symm ht) hqo h2 (hl l1) l2 hx
    · exact fun e => hI.excl t' t o' o ht h2 hqo l2 (hl l1) hx e.symm
  · intro t' o1 o' nd ht h1 h2 hn
    rw [hpo] at h1; cases h1
    exact hI.uniq t t' o o' nd (Ne.symm ht) hqo h2 hn
  · intro o1 h1 hd
    rw [hqo] at h1; cases h1
    exact ⟨hpo, dirty hd⟩
  · exact late
  · exact flag
  · exact owed

/-- A step that changes memory or the logical chain of the bucket locked exclusively by `t`. -/
theorem frameX {c : Cfg K} {s s' : State K n} {L L' : Nat → List P} (hI : Inv c s L) {t : Fin n}
    {p q : PC K} {o : Op K} (hq : s.pc t = q) (hqo : q.op = some o) (hql : q.inLock = true)
    (hox : o.exclusive = true)
    (hpc : ∀ t', t' ≠ t → s'.pc t' = s.pc t') (hp : s'.pc t = p) (hpo : p.op = some o)
    (heads : ∀ b, b ≠ c.opBucket o → s'.heads b = s.heads b)
    (next : ∀ x, c.bkt x ≠ c.opBucket o → s'.next x = s.next x)
    (acc : ∀ x, c.bkt x ≠ c.opBucket o → s'.acc x = s.acc x)
    (ghost : ∀ b, b ≠ c.opBucket o → L' b = L b)
    (hb : c.opBucket o < 2 ^ c.bucketsPower)
    (good : Good c (c.opBucket o) (L' (c.opBucket o)))
    (loc : Loc c s' L' p)
    (clean : p.dirty = true ∨ Chain s' (c.opBucket o) (L' (c.opBucket o)))
    (sub : ∀ x ∈ L' (c.opBucket o), x ∈ L (c.opBucket o) ∨ o.newNode = some x)
    (late : ∀ nd, p.late = some nd → nd ∉ L' (c.bkt nd))
    (flag : ∀ x, c.bkt x = c.opBucket o → p.flagNode ≠ some x →
      (∀ t', t' ≠ t → (s.pc t').flagNode ≠ some x) → (s'.acc x = true ↔ x ∈ L' (c.opBucket o)))
    (count : s'.numKeys + p.owed + ((L (c.opBucket o)).length : Int) =
      s.numKeys + q.owed + ((L' (c.opBucket o)).length : Int)) : Inv c s' L' := by
  subst hq
  subst hp
  have oth : ∀ t' o', t' ≠ t → (s.pc t').op = some o' → (s.pc t').inLock = true →
      c.opBucket o' ≠ c.opBucket o := by
    intro t' o' ht ho' hl e
    exact hI.excl t t' o o' (Ne.symm ht) hqo ho' hql hl hox (by rw [e])
  have ag : ∀ b, b ≠ c.opBucket o → Agree c s s' L L' b := fun b hb' =>
    ⟨heads b hb', fun x hx => next x (hx ▸ hb'), fun x hx => acc x (hx ▸ hb'), ghost b hb'⟩
  constructor
  · intro b
    by_cases h : b = c.opBucket o
    · subst h; exact good
    · rw [ghost b h]; exact hI.good b
  · intro t'
    by_cases h : t' = t
    · subst h; exact loc
    · rw [hpc t' h]
      cases hl : (s.pc t').inLock
      · exact loc_unlocked hl (hI.loc t')
      · exact loc_agree hI.good (fun o' ho' => ag _ (oth t' o' h ho' hl)) (hI.loc t')
  · intro b hb'
    by_cases h : b = c.opBucket o
    · subst h
      rcases clean with h | h
      · exact absurd rfl (hb' t o hpo h)
      · exact h
    · have := hI.clean b (by
        intro t' o' ho' hd
        by_cases e : t' = t
        · subst e; rw [hqo] at ho'; cases ho'; exact Ne.symm h
        · have := hb' t' o'; rw [hpc t' e] at this; exact this ho' hd)
      unfold Chain
      rw [(ag b h).heads, (ag b h).ghost, seg_agree (ag b h) (hI.good b).2]
      exact this
  · intro t1 t2 o1 o2 h12 h1 h2 l1 l2 hx
    by_cases e1 : t1 = t
    · subst e1
      rw [hpo] at h1; cases h1
      rw [hpc t2 (Ne.symm h12)] at h2 l2
      exact hI.excl t1 t2 o o2 h12 hqo h2 hql l2 hx
    · rw [hpc t1 e1] at h1 l1
      by_cases e2 : t2 = t
      · subst e2
        rw [hpo] at h2; cases h2
        exact hI.excl t1 t2 o1 o h12 h1 hqo l1 hql hx
      · rw [hpc t2 e2] at h2 l2
        exact hI.excl t1 t2 o1 o2 h12 h1 h2 l1 l2 hx
  · intro t1 t2 o1 o2 nd h12 h1 h2 hn
    by_cases e1 : t1 = t
    · subst e1
      rw [hpo] at h1; cases h1
      rw [hpc t2 (Ne.symm h12)] at h2
      exact hI.uniq t1 t2 o o2 nd h12 hqo h2 hn
    · rw [hpc t1 e1] at h1
      by_cases e2 : t2 = t
      · subst e2
        rw [hpo] at h2; cases h2
        exact hI.uniq t1 t2 o1 o nd h12 h1 hqo hn
      · rw [hpc t2 e2] at h2
        exact hI.uniq t1 t2 o1 o2 nd h12 h1 h2 hn
  · intro t' nd hl hm
    by_cases h : t' = t
    · subst h; exact late nd hl hm
    · rw [hpc t' h] at hl
      have h0 := hI.late t' nd hl
      by_cases e : c.bkt nd = c.opBucket o
      · rw [e] at hm h0
        rcases sub nd hm with h1 | h1
        · exact h0 h1
        · obtain ⟨o', ho', hn'⟩ := late_new hl
          exact hI.uniq t t' o o' nd (Ne.symm h) hqo ho' h1 hn'
      · rw [ghost _ e] at hm; exact h0 hm
  · intro x hx
    by_cases e : c.bkt x = c.opBucket o
    · rw [e]
      exact flag x e (hx t) (fun t' ht => by have := hx t'; rwa [hpc t' ht] at this)
    · rw [acc x e, ghost _ e]
      apply hI.flag x
      intro t'
      by_cases h : t' = t
      · subst h
        intro hf
        obtain ⟨o', ho', hn'⟩ := flag_new hf
        rw [hqo] at ho'; cases ho'
        exact e (new_bkt hn').symm
      · have := hx t'; rwa [hpc t' h] at this
  · have h1 := sum_owed hpc
    have h2 := sum_len hb ghost
    have := hI.count
    omega

/-- the abstraction of a thread. -/
def PC.abs : PC K → Client K
  | .idle => .idle
  | .fin _ r => .answered r
  | .ret _ r => .answered r
  | .iCount (.insertOrReplace _ _) => .answered (.handle none)
  | .iCount _ => .answered (.flag true)
  | .uCount (.removeIf nd _ _) => .answered (.handle (some nd))
  | .uCount _ => .answered (.flag true)
  | .zMark _ => .answered (.flag true)
  | .pre o => .called o
  | .want o => .called o
  | .locked o => .called o
  | .start o => .called o
  | .walk o _ _ => .called o
  | .scanw o _ _ => .called o
  | .iHead o => .called o
  | .iLink o _ => .called o
  | .iNext o _ => .called o
  | .iMark o => .called o
  | .xLink o _ _ => .called o
  | .xNext o _ => .called o
  | .xDone o _ => .called o
  | .xOld o _ => .called o
  | .back o _ _ _ => .called o
  | .bLink o _ _ _ => .called o
  | .bNext o _ _ => .called o
  | .uLink o _ => .called o
  | .uMark o => .called o

/-- the map held by the logical chains. -/
def MapOk (c : Cfg K) (L : Nat → List P) (m : K → Option P) : Prop :=
  ∀ k p, m k = some p ↔ p ∈ L (c.bucket k) ∧ c.key p = k

/-- simulation relation. -/
structure Sim (c : Cfg K) (s : State K n) (L : Nat → List P) (a : Atomic K n) : Prop where
  inv : Inv c s L
  map : MapOk c L a.map
  client : ∀ t, a.client t = (s.pc t).abs

/-- outcome of one step. -/
def Next (c : Cfg K) (a : Atomic K n) (l : Label K n) (s' : State K n) : Prop :=
  ∃ a' L', Sim c s' L' a' ∧ ((l = .tau ∧ a' = a) ∨ AStep c.key c.bucket a l a')

theorem silent {c : Cfg K} {s s' : State K n} {L : Nat → List P} {a : Atomic K n} (h : Sim c s L a)
    {t : Fin n} {p q : PC K} (hq : s.pc t = q) (hpc : ∀ t', t' ≠ t → s'.pc t' = s.pc t')
    (hp : s'.pc t = p) (habs : p.abs = q.abs) (hI : Inv c s' L) : Next c a .tau s' := by
  refine ⟨a, L, ⟨hI, h.map, ?_⟩, Or.inl ⟨rfl, rfl⟩⟩
  intro t'
  by_cases e : t' = t
  · subst e; rw [h.client, hp, habs, hq]
  · rw [h.client, hpc t' e]

theorem effect {c : Cfg K} {s s' : State K n} {L L' : Nat → List P} {a : Atomic K n} (h : Sim c s L a)
    {t : Fin n} {p q : PC K} {o : Op K} {r : Res} {m : K → Option P} (hq : s.pc t = q)
    (hpc : ∀ t', t' ≠ t → s'.pc t' = s.pc t')
    (hp : s'.pc t = p) (hqa : q.abs = .called o) (hpa : p.abs = .answered r)
    (hs : Spec c.key c.bucket o a.map r m) (hm : MapOk c L' m) (hI : Inv c s' L') :
    Next c a .tau s' := by
  refine ⟨⟨m, fun t => (s'.pc t).abs⟩, L', ⟨hI, hm, fun _ => rfl⟩, Or.inr ?_⟩
  refine AStep.effect _ _ t o r ?_ hs ?_ ?_
  · rw [h.client, hq, hqa]
  · show (s'.pc t).abs = _
    rw [hp, hpa]
  · intro x hx
    show (s'.pc x).abs = _
    rw [hpc x hx, h.client]

open Classical in
/-- the map with one key changed. -/
noncomputable def setKey (m : K → Option P) (k : K) (v : Option P) : K → Option P :=
  fun k' => if k' = k then v else m k'

theorem setKey_self (m : K → Option P) (k : K) (v : Option P) : setKey m k v k = v := by simp [setKey]

theorem setKey_other (m : K → Option P) (k : K) (v : Option P) : ∀ k', k' ≠ k → setKey m k v k' = m k' := by
  intro k' h; simp [setKey, h]

theorem mapOk_set {c : Cfg K} {L L' : Nat → List P} {m : K → Option P} {nd : P} (h : MapOk c L m)
    (ho : ∀ b, b ≠ c.bkt nd → L' b = L b)
    (h1 : ∀ p, c.key p ≠ c.key nd → (p ∈ L' (c.bkt nd) ↔ p ∈ L (c.bkt nd)))
    (h2 : ∀ p, c.key p = c.key nd → (p ∈ L' (c.bkt nd) ↔ p = nd)) :
    MapOk c L' (setKey m (c.key nd) (some nd)) := by
  intro k p
  by_cases e : k = c.key nd
  · subst e
    rw [setKey_self]
    constructor
    · intro hp; cases hp
      exact ⟨(h2 nd rfl).2 rfl, rfl⟩
    · rintro ⟨hp, hk⟩
      rw [(h2 p hk).1 hp]
  · rw [setKey_other _ _ _ k e, h k p]
    by_cases eb : c.bucket k = c.bkt nd
    · rw [eb]
      constructor
      · rintro ⟨hp, rfl⟩; exact ⟨(h1 p e).2 hp, rfl⟩
      · rintro ⟨hp, rfl⟩; exact ⟨(h1 p e).1 hp, rfl⟩
    · rw [ho _ eb]

theorem mapOk_del {c : Cfg K} {L L' : Nat → List P} {m : K → Option P} {nd : P} (h : MapOk c L m)
    (ho : ∀ b, b ≠ c.bkt nd → L' b = L b)
    (h1 : ∀ p, c.key p ≠ c.key nd → (p ∈ L' (c.bkt nd) ↔ p ∈ L (c.bkt nd)))
    (h2 : ∀ p, c.key p = c.key nd → p ∉ L' (c.bkt nd)) :
    MapOk c L' (setKey m (c.key nd) none) := by
  intro k p
  by_cases e : k = c.key nd
  · subst e
    rw [setKey_self]
    constructor
    · intro hp; cases hp
    · rintro ⟨hp, hk⟩
      exact absurd hp (h2 p hk)
  · rw [setKey_other _ _ _ k e, h k p]
    by_cases eb : c.bucket k = c.bkt nd
    · rw [eb]
      constructor
      · rintro ⟨hp, rfl⟩; exact ⟨(h1 p e).2 hp, rfl⟩
      · rintro ⟨hp, rfl⟩; exact ⟨(h1 p e).1 hp, rfl⟩
    · rw [ho _ eb]

end Verif.HashTable
