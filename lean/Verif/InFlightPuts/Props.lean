import Verif.InFlightPuts.Model
/-
C30  In-flight write tokens.

Specification in terms of the event log (who acquired, invalidated, ran, released, in which order)
and of the token objects that exist.
-/
namespace Verif.InFlightPuts

/-- An acquisition whose callback throws; excluded from the histories of the main theorems, see
`acquire_throw_leaks`. -/
def Op.cbThrows : Op → Prop
  | .tryAcquire _ _ _ .throws => True
  | _ => False

/-- Histories of legal operations in which no acquisition callback throws. -/
inductive Reach : State → Prop
  | init : Reach init
  | step {s : State} (op : Op) : Reach s → op.legal s → ¬ op.cbThrows → Reach (op.exec s).1

/-- Spec: token `t` (for key `k`) was acquired and key `k` was not invalidated since. -/
def ValidSince (log : List Event) (t : Nat) (k : Key) : Prop :=
  ∃ after before, log = after ++ .acquired t k :: before ∧ .invalidated k ∉ after

/-- Spec: every run of a callback recorded in the log is the first for its token, and happens after
the token's acquisition with neither an invalidation of its key nor its release in between. -/
def RunsOk (log : List Event) : Prop :=
  ∀ post t k pre, log = post ++ .ran t k :: pre →
    ValidSince pre t k ∧ (∀ k', .ran t k' ∉ pre) ∧ (∀ k', .released t k' ∉ pre)

/-- the id an event speaks about. -/
def Event.id? : Event → Option Nat
  | .acquired i _ => some i
  | .invalidated _ => none
  | .ran i _ => some i
  | .threw i _ => some i
  | .released i _ => some i

structure Inv (s : State) : Prop where
  live : ∀ d t, s.slots d = .live t → ∃ v, s.keys t.key = some ⟨v, t.id⟩
  owned : ∀ k e, s.keys k = some e → ∃ d, s.slots d = .live ⟨k, e.owner⟩
  uniq : ∀ d d' t t', s.slots d = .live t → s.slots d' = .live t' → t.key = t'.key → d = d'
  since : ∀ k e, s.keys k = some e → ∃ after before, s.log = after ++ .acquired e.owner k :: before ∧
    (e.valid = true ↔ .invalidated k ∉ after)
  fresh : ∀ ev ∈ s.log, ∀ i, ev.id? = some i → i < s.nextId
  ids : ∀ k e, s.keys k = some e → e.owner < s.nextId
  once : ∀ k e, s.keys k = some e → ∀ k', .ran e.owner k' ∉ s.log ∧ .released e.owner k' ∉ s.log
  inj : ∀ k k' e e', s.keys k = some e → s.keys k' = some e' → e.owner = e'.owner → k = k'
  acqOnce : ∀ post t k pre, s.log = post ++ .acquired t k :: pre →
    ∀ k', .acquired t k' ∉ pre ∧ .acquired t k' ∉ post
  runs : RunsOk s.log

theorem inv_init : Inv init := by
  refine ⟨?_, ?_, ?_, ?_, ?_, ?_, ?_, ?_, ?_, ?_⟩ <;> simp [init, RunsOk]

/-- pushing an event that is not a run keeps `RunsOk`. -/
theorem runsOk_cons {l : List Event} (h : RunsOk l) (e : Event) (he : ∀ t k, e ≠ .ran t k) :
    RunsOk (e :: l) := by
  intro post t k pre hp
  cases post with
  | nil => simp at hp; exact absurd hp.1 (he t k)
  | cons p ps =>
    simp at hp
    exact h ps t k pre hp.2

theorem acqOnce_cons {l : List Event}
    (h : ∀ post t k pre, l = post ++ .acquired t k :: pre →
      ∀ k', Event.acquired t k' ∉ pre ∧ .acquired t k' ∉ post)
    (e : Event) (he : ∀ t k, e = .acquired t k → ∀ k', .acquired t k' ∉ l) :
    ∀ post t k pre, e :: l = post ++ .acquired t k :: pre →
      ∀ k', Event.acquired t k' ∉ pre ∧ .acquired t k' ∉ post := by
  intro post t k pre hp k'
  cases post with
  | nil =>
    simp at hp
    have := he t k hp.1 k'
    rw [hp.2] at this
    exact ⟨this, by simp⟩
  | cons p ps =>
    simp at hp
    have h2 := h ps t k pre hp.2 k'
    refine ⟨h2.1, ?_⟩
    intro hm
    rcases List.mem_cons.1 hm with hm | hm
    · refine he t k' (by rw [hp.1, ← hm]) k ?_
      rw [hp.2]; simp
    · exact h2.2 hm

theorem since_cons {l : List Event} {t : Nat} {k : Key} {b : Prop} (e : Event)
    (he : e ≠ .invalidated k)
    (h : ∃ after before, l = after ++ .acquired t k :: before ∧ (b ↔ Event.invalidated k ∉ after)) :
    ∃ after before, e :: l = after ++ .acquired t k :: before ∧ (b ↔ Event.invalidated k ∉ after) := by
  obtain ⟨a, bf, h1, h2⟩ := h
  refine ⟨e :: a, bf, by simp [h1], ?_⟩
  rw [h2]
  constructor
  · intro h3 h4
    rcases List.mem_cons.1 h4 with h4 | h4
    · exact he h4.symm
    · exact h3 h4
  · intro h3 h4; exact h3 (List.mem_cons_of_mem _ h4)

theorem inv_acquire {s : State} (h : Inv s) {d : Nat} {k : Key} (hd : s.slots d = .empty)
    (l : Bool) (cb : Cb) (hcb : cb ≠ .throws) : Inv (tryAcquireToken s d k l cb).1 := by
  unfold tryAcquireToken
  cases l with
  | false => simpa using h
  | true =>
    simp only [if_true]
    cases hk : s.keys k with
    | some e => exact h
    | none =>
      cases cb with
      | throws => exact absurd rfl hcb
      | ret b =>
        cases b with
        | false =>
          have : updK (updK s.keys k (some ⟨true, s.nextId⟩)) k none = s.keys := by
            funext x; simp only [updK]; by_cases e : x = k <;> simp [e, hk]
          simp only [this]; exact h
        | true =>
          have fresh1 : ∀ k', .acquired s.nextId k' ∉ s.log := fun k' hm =>
            absurd (h.fresh _ hm _ rfl) (Nat.lt_irrefl _)
          have fresh2 : ∀ k', .ran s.nextId k' ∉ s.log := fun k' hm =>
            absurd (h.fresh _ hm _ rfl) (Nat.lt_irrefl _)
          have fresh3 : ∀ k', .released s.nextId k' ∉ s.log := fun k' hm =>
            absurd (h.fresh _ hm _ rfl) (Nat.lt_irrefl _)
          refine ⟨?_, ?_, ?_, ?_, ?_, ?_, ?_, ?_, ?_, ?_⟩
          · intro d' t ht
            simp only [updS] at ht
            by_cases e : d' = d
            · simp [e] at ht; subst ht; exact ⟨true, by simp [updK]⟩
            · simp [e] at ht
              obtain ⟨v, hv⟩ := h.live d' t ht
              have : t.key ≠ k := by intro e2; rw [e2, hk] at hv; cases hv
              exact ⟨v, by simp [updK, this, hv]⟩
          · intro k' e he
            simp only [updK] at he
            by_cases e2 : k' = k
            · simp [e2] at he; subst he; subst e2; exact ⟨d, by simp [updS]⟩
            · simp [e2] at he
              obtain ⟨d', hd'⟩ := h.owned k' e he
              have : d' ≠ d := by intro e3; rw [e3, hd] at hd'; cases hd'
              exact ⟨d', by simp [updS, this, hd']⟩
          · intro d1 d2 t1 t2 h1 h2 hkk
            simp only [updS] at h1 h2
            by_cases e1 : d1 = d <;> by_cases e2 : d2 = d
            · rw [e1, e2]
            · simp [e1] at h1; simp [e2] at h2; subst h1
              obtain ⟨v, hv⟩ := h.live d2 t2 h2
              simp only at hkk
              rw [← hkk, hk] at hv; cases hv
            · simp [e1] at h1; simp [e2] at h2; subst h2
              obtain ⟨v, hv⟩ := h.live d1 t1 h1
              simp only at hkk
              rw [hkk, hk] at hv; cases hv
            · simp [e1] at h1; simp [e2] at h2
              exact h.uniq d1 d2 t1 t2 h1 h2 hkk
          · intro k' e he
            simp only [updK] at he
            by_cases e2 : k' = k
            · simp [e2] at he; subst he; subst e2
              exact ⟨[], s.log, rfl, by simp⟩
            · simp [e2] at he
              exact since_cons _ (by simp) (h.since k' e he)
          · intro ev hev i hi
            rcases List.mem_cons.1 hev with hev | hev
            · subst hev; simp [Event.id?] at hi; simp only; omega
            · have := h.fresh ev hev i hi; simp only; omega
          · intro k' e he
            simp only [updK] at he
            by_cases e2 : k' = k
            · simp [e2] at he; subst he; simp
            · simp [e2] at he
              have := h.ids k' e he; simp only; omega
          · intro k' e he k2
            simp only [updK] at he
            by_cases e2 : k' = k
            · simp [e2] at he; subst he
              exact ⟨by simpa using fresh2 k2, by simpa using fresh3 k2⟩
            · simp [e2] at he
              have := h.once k' e he k2
              exact ⟨by simpa using this.1, by simpa using this.2⟩
          · intro k1 k2 e1 e2 h1 h2 ho
            simp only [updK] at h1 h2
            by_cases c1 : k1 = k <;> by_cases c2 : k2 = k
            · rw [c1, c2]
            · simp [c1] at h1; simp [c2] at h2; subst h1
              have := h.ids k2 e2 h2; simp only at ho; omega
            · simp [c1] at h1; simp [c2] at h2; subst h2
              have := h.ids k1 e1 h1; simp only at ho; omega
            · simp [c1] at h1; simp [c2] at h2
              exact h.inj k1 k2 e1 e2 h1 h2 ho
          · exact acqOnce_cons h.acqOnce _ (by
              intro t k2 he k'
              simp at he; rw [← he.1]; exact fresh1 k')
          · exact runsOk_cons h.runs _ (by simp)

theorem inv_invalidate {s : State} (h : Inv s) (k : Key) : Inv (invalidateToken s k).1 := by
  unfold invalidateToken
  cases hk : s.keys k with
  | none =>
    refine ⟨h.live, h.owned, h.uniq, ?_, ?_, h.ids, ?_, h.inj, ?_, ?_⟩
    · intro k' e he
      refine since_cons _ ?_ (h.since k' e he)
      intro e2
      simp at e2
      simp only [← e2, hk] at he
      cases he
    · intro ev hev i hi
      rcases List.mem_cons.1 hev with hev | hev
      · subst hev; simp [Event.id?] at hi
      · exact h.fresh ev hev i hi
    · intro k' e he k2
      have := h.once k' e he k2
      exact ⟨by simpa using this.1, by simpa using this.2⟩
    · exact acqOnce_cons h.acqOnce _ (by simp)
    · exact runsOk_cons h.runs _ (by simp)
  | some e0 =>
    have hkeys : ∀ k' e, updK s.keys k (some { e0 with valid := false }) k' = some e →
        ∃ e1, s.keys k' = some e1 ∧ e1.owner = e.owner ∧ (k' = k → e.valid = false) ∧
          (k' ≠ k → e = e1) := by
      intro k' e he
      simp only [updK] at he
      by_cases c : k' = k
      · simp [c] at he; subst he
        exact ⟨e0, by rw [c, hk], rfl, fun _ => rfl, fun h => absurd c h⟩
      · simp [c] at he
        exact ⟨e, he, rfl, fun h => absurd h c, fun _ => rfl⟩
    refine ⟨?_, ?_, h.uniq, ?_, ?_, ?_, ?_, ?_, ?_, ?_⟩
    · intro d t ht
      obtain ⟨v, hv⟩ := h.live d t ht
      by_cases c : t.key = k
      · rw [c, hk] at hv; cases hv
        exact ⟨false, by simp [updK, c]⟩
      · exact ⟨v, by simp [updK, c, hv]⟩
    · intro k' e he
      obtain ⟨e1, h1, h2, _⟩ := hkeys k' e he
      rw [← h2]; exact h.owned k' e1 h1
    · intro k' e he
      obtain ⟨e1, h1, h2, h3, h4⟩ := hkeys k' e he
      by_cases c : k' = k
      · obtain ⟨a, b, h5, _⟩ := h.since k' e1 h1
        refine ⟨.invalidated k :: a, b, by simp [h5, h2], ?_⟩
        rw [h3 c, c]; simp
      · have := h4 c; subst this
        exact since_cons _ (by simpa using fun h => c h.symm) (h.since k' e h1)
    · intro ev hev i hi
      rcases List.mem_cons.1 hev with hev | hev
      · subst hev; simp [Event.id?] at hi
      · exact h.fresh ev hev i hi
    · intro k' e he
      obtain ⟨e1, h1, h2, _⟩ := hkeys k' e he
      rw [← h2]; exact h.ids k' e1 h1
    · intro k' e he k2
      obtain ⟨e1, h1, h2, _⟩ := hkeys k' e he
      have := h.once k' e1 h1 k2
      rw [h2] at this
      exact ⟨by simpa using this.1, by simpa using this.2⟩
    · intro k1 k2 e1 e2 h1 h2 ho
      obtain ⟨f1, g1, g2, _⟩ := hkeys k1 e1 h1
      obtain ⟨f2, g3, g4, _⟩ := hkeys k2 e2 h2
      exact h.inj k1 k2 f1 f2 g1 g3 (by rw [g2, g4, ho])
    · exact acqOnce_cons h.acqOnce _ (by simp)
    · exact runsOk_cons h.runs _ (by simp)

/-- Ending the life of a live token: entry erased, slot left in a non-live state, one event that
speaks about this token. -/
theorem inv_end {s : State} (h : Inv s) {d : Nat} {t : Token} (hd : s.slots d = .live t)
    (sl : Slot) (hsl : ∀ t', sl ≠ .live t') (ev : Event)
    (hev : ev = .ran t.id t.key ∧ (∃ e, s.keys t.key = some e ∧ e.valid = true)
      ∨ ev = .released t.id t.key) :
    Inv { s with keys := updK s.keys t.key none, slots := updS s.slots d sl, log := ev :: s.log } := by
  obtain ⟨v, hv⟩ := h.live d t hd
  have hne : ∀ k' e, updK s.keys t.key none k' = some e → k' ≠ t.key ∧ s.keys k' = some e := by
    intro k' e he
    simp only [updK] at he
    by_cases c : k' = t.key
    · simp [c] at he
    · simp [c] at he; exact ⟨c, he⟩
  have hslot : ∀ d' t', updS s.slots d sl d' = .live t' → d' ≠ d ∧ s.slots d' = .live t' := by
    intro d' t' he
    simp only [updS] at he
    by_cases c : d' = d
    · simp [c] at he; exact absurd he (hsl t')
    · simp [c] at he; exact ⟨c, he⟩
  have hid : ev.id? = some t.id := by
    rcases hev with ⟨e, _⟩ | e <;> rw [e] <;> rfl
  refine ⟨?_, ?_, ?_, ?_, ?_, ?_, ?_, ?_, ?_, ?_⟩
  · intro d' t' ht'
    obtain ⟨c, h1⟩ := hslot d' t' ht'
    obtain ⟨v', hv'⟩ := h.live d' t' h1
    have : t'.key ≠ t.key := fun e => c (h.uniq d' d t' t h1 hd e)
    exact ⟨v', by simp [updK, this, hv']⟩
  · intro k' e he
    obtain ⟨c, h1⟩ := hne k' e he
    obtain ⟨d', hd'⟩ := h.owned k' e h1
    have : d' ≠ d := by
      intro e2; rw [e2, hd] at hd'
      simp at hd'; rw [hd'] at c; exact c rfl
    exact ⟨d', by simp [updS, this, hd']⟩
  · intro d1 d2 t1 t2 h1 h2 hk
    exact h.uniq d1 d2 t1 t2 (hslot d1 t1 h1).2 (hslot d2 t2 h2).2 hk
  · intro k' e he
    obtain ⟨c, h1⟩ := hne k' e he
    refine since_cons _ ?_ (h.since k' e h1)
    rcases hev with ⟨e, _⟩ | e <;> rw [e] <;> simp
  · intro ev' hev' i hi
    rcases List.mem_cons.1 hev' with h2 | h2
    · subst h2; rw [hid] at hi; cases hi
      exact h.ids t.key _ hv
    · exact h.fresh ev' h2 i hi
  · intro k' e he
    exact h.ids k' e (hne k' e he).2
  · intro k' e he k2
    obtain ⟨c, h1⟩ := hne k' e he
    have := h.once k' e h1 k2
    have hne2 : e.owner ≠ t.id := fun e2 => c (h.inj k' t.key e ⟨v, t.id⟩ h1 hv e2)
    rcases hev with ⟨e3, _⟩ | e3 <;> subst e3
    · exact ⟨by simp [this.1]; exact fun e => absurd e hne2, by simpa using this.2⟩
    · exact ⟨by simpa using this.1, by simp [this.2]; exact fun e => absurd e hne2⟩
  · intro k1 k2 e1 e2 h1 h2 ho
    exact h.inj k1 k2 e1 e2 (hne k1 e1 h1).2 (hne k2 e2 h2).2 ho
  · refine acqOnce_cons h.acqOnce _ ?_
    rcases hev with ⟨e, _⟩ | e <;> rw [e] <;> simp
  · rcases hev with ⟨e3, e, h1, h2⟩ | e3 <;> subst e3
    · intro post t' k' pre hp
      cases post with
      | nil =>
        simp at hp
        obtain ⟨⟨p1, p2⟩, p3⟩ := hp
        subst p1 p2 p3
        rw [hv] at h1; cases h1
        simp only at h2; subst h2
        obtain ⟨a, b, h3, h4⟩ := h.since t.key _ hv
        have ho := h.once t.key _ hv
        exact ⟨⟨a, b, h3, h4.1 rfl⟩, fun k' => (ho k').1, fun k' => (ho k').2⟩
      | cons p ps =>
        simp at hp
        exact h.runs ps t' k' pre hp.2
    · exact runsOk_cons h.runs _ (by simp)

theorem inv_threw {s : State} (h : Inv s) {i : Nat} {k : Key} (hi : i < s.nextId) :
    Inv { s with log := .threw i k :: s.log } := by
  refine ⟨h.live, h.owned, h.uniq, ?_, ?_, h.ids, ?_, h.inj, ?_, ?_⟩
  · intro k' e he; exact since_cons _ (by simp) (h.since k' e he)
  · intro ev hev j hj
    rcases List.mem_cons.1 hev with h2 | h2
    · subst h2; simp [Event.id?] at hj; simp only; omega
    · exact h.fresh ev h2 j hj
  · intro k' e he k2
    have := h.once k' e he k2
    exact ⟨by simpa using this.1, by simpa using this.2⟩
  · exact acqOnce_cons h.acqOnce _ (by simp)
  · exact runsOk_cons h.runs _ (by simp)

theorem inv_execute {s : State} (h : Inv s) (d : Nat) (th : Bool) :
    Inv (executeIfValid s d th).1 := by
  unfold executeIfValid
  cases hd : s.slots d with
  | empty => exact h
  | done t => exact h
  | live t =>
    simp only
    cases hk : s.keys t.key with
    | none => exact h
    | some e =>
      simp only
      by_cases hv : e.valid = true
      · simp only [hv, if_true]
        cases th with
        | true =>
          simp only [if_true]
          obtain ⟨v, h1⟩ := h.live d t hd
          exact inv_threw h (h.ids _ _ h1)
        | false =>
          simp only [Bool.false_eq_true, if_false]
          exact inv_end h hd (.done t) (by simp) _ (Or.inl ⟨rfl, e, hk, hv⟩)
      · simp only [hv]; exact h

theorem inv_destroy {s : State} (h : Inv s) (d : Nat) : Inv (destroy s d).1 := by
  unfold destroy
  cases hd : s.slots d with
  | empty => exact h
  | done t => exact h
  | live t => exact inv_end h hd .empty (by simp) _ (Or.inr rfl)

/-- changing slots without changing which live tokens exist and how many keeps the invariant. -/
theorem inv_slots {s : State} (h : Inv s) (sl : Nat → Slot)
    (h1 : ∀ d t, sl d = .live t → ∃ d', s.slots d' = .live t)
    (h2 : ∀ d t, s.slots d = .live t → ∃ d', sl d' = .live t)
    (h3 : ∀ d d' t t', sl d = .live t → sl d' = .live t' → t.key = t'.key → d = d') :
    Inv { s with slots := sl } := by
  refine ⟨?_, ?_, h3, h.since, h.fresh, h.ids, h.once, h.inj, h.acqOnce, h.runs⟩
  · intro d t ht
    obtain ⟨d', hd'⟩ := h1 d t ht
    exact h.live d' t hd'
  · intro k e he
    obtain ⟨d, hd⟩ := h.owned k e he
    exact h2 d _ hd

theorem inv_reset {s : State} (h : Inv s) (d : Nat) : Inv (reset s d).1 := by
  unfold reset
  cases hd : s.slots d with
  | empty => exact h
  | live t => exact h
  | done t =>
    have key : ∀ d' t', updS s.slots d .empty d' = .live t' → s.slots d' = .live t' := by
      intro d' t' ht
      simp only [updS] at ht
      by_cases c : d' = d
      · simp [c] at ht
      · simpa [c] using ht
    refine inv_slots h _ (fun d' t' ht => ⟨d', key d' t' ht⟩) ?_
      (fun d1 d2 t1 t2 a b c => h.uniq d1 d2 t1 t2 (key _ _ a) (key _ _ b) c)
    intro d' t' ht
    have : d' ≠ d := by intro e; rw [e, hd] at ht; cases ht
    exact ⟨d', by simp [updS, this, ht]⟩

theorem inv_move {s : State} (h : Inv s) {d src : Nat} (hne : d ≠ src)
    (he : s.slots d = .empty ∨ ∀ t, s.slots d ≠ .live t) : Inv (moveConstruct s d src).1 := by
  have hd : ∀ t, s.slots d ≠ .live t := by
    intro t ht; rcases he with h1 | h1
    · rw [h1] at ht; cases ht
    · exact h1 t ht
  unfold moveConstruct
  have key : ∀ d' t', updS (updS s.slots d (s.slots src)) src .empty d' = .live t' →
      (d' = d ∧ s.slots src = .live t') ∨ (d' ≠ d ∧ d' ≠ src ∧ s.slots d' = .live t') := by
    intro d' t' ht
    simp only [updS] at ht
    by_cases c : d' = src
    · simp [c] at ht
    · by_cases c2 : d' = d
      · subst c2; simp [c] at ht; exact Or.inl ⟨rfl, ht⟩
      · simp [c, c2] at ht; exact Or.inr ⟨c2, c, ht⟩
  refine inv_slots h _ ?_ ?_ ?_
  · intro d' t' ht
    rcases key d' t' ht with ⟨_, h2⟩ | ⟨_, _, h2⟩
    · exact ⟨src, h2⟩
    · exact ⟨d', h2⟩
  · intro d' t' ht
    by_cases c : d' = src
    · refine ⟨d, ?_⟩
      rw [c] at ht
      simp [updS, hne, ht]
    · have : d' ≠ d := fun e => hd t' (e ▸ ht)
      exact ⟨d', by simp [updS, c, this, ht]⟩
  · intro d1 d2 t1 t2 a b c
    rcases key d1 t1 a with ⟨e1, a2⟩ | ⟨e1, f1, a2⟩ <;> rcases key d2 t2 b with ⟨e2, b2⟩ | ⟨e2, f2, b2⟩
    · rw [e1, e2]
    · exact absurd (h.uniq d2 src t2 t1 b2 a2 c.symm) f2
    · exact absurd (h.uniq d1 src t1 t2 a2 b2 c) f1
    · exact h.uniq d1 d2 t1 t2 a2 b2 c

theorem destroy_slot (s : State) (d : Nat) (t : Token) : (destroy s d).1.slots d ≠ .live t := by
  unfold destroy
  cases hd : s.slots d <;> simp [updS, hd]

theorem inv_step {s : State} (h : Inv s) (op : Op) (hl : op.legal s) (hcb : ¬ op.cbThrows) :
    Inv (op.exec s).1 := by
  cases op with
  | tryAcquire d k l cb =>
    refine inv_acquire h hl l cb ?_
    intro e; subst e; exact hcb trivial
  | invalidate k => exact inv_invalidate h k
  | execute d t => exact inv_execute h d t
  | reset d => exact inv_reset h d
  | destroy d => exact inv_destroy h d
  | moveConstruct d src => exact inv_move h hl.2.1 (Or.inl hl.1)
  | moveAssign d src =>
    by_cases c : d = src
    · simp only [Op.exec, moveAssign, c, ne_eq, not_true, if_false]; exact h
    · simp only [Op.exec, moveAssign, ne_eq, c, not_false_eq_true, if_true]
      exact inv_move (inv_destroy h d) c (Or.inr (destroy_slot s d))

theorem reach_inv {s : State} (h : Reach s) : Inv s := by
  induction h with
  | init => exact inv_init
  | step op _ hl hcb ih => exact inv_step ih op hl hcb

/-- C30 (a): at most one valid write token exists per key. -/
theorem one_token_per_key {s : State} (h : Reach s) {d d' : Nat} {t t' : Token}
    (h1 : s.slots d = .live t) (h2 : s.slots d' = .live t') (hk : t.key = t'.key) : d = d' :=
  (reach_inv h).uniq d d' t t' h1 h2 hk

/-- C30 (b): in every history, each run of a write callback is the first (so the only) completed run
for its token, and happens after the acquisition of the token with no invalidation of its key and no
release of the token in between. -/
theorem runs_ok {s : State} (h : Reach s) : RunsOk s.log := (reach_inv h).runs

/-- C30 (c): a token runs its callback exactly when its key was not invalidated since the token was
acquired. -/
theorem execute_iff_valid {s : State} (h : Reach s) {d : Nat} {t : Token}
    (hd : s.slots d = .live t) :
    (executeIfValid s d false).2 = .executed ↔ ValidSince s.log t.id t.key := by
  have hi := reach_inv h
  obtain ⟨v, hv⟩ := hi.live d t hd
  obtain ⟨a, b, h1, h2⟩ := hi.since t.key _ hv
  have : ValidSince s.log t.id t.key ↔ v = true := by
    rw [h2]
    constructor
    · rintro ⟨a', b', h3, h4⟩
      rw [h1] at h3
      have hone := hi.acqOnce a t.id t.key b h1 t.key
      have : a = a' := by
        rcases List.append_eq_append_iff.1 h3 with ⟨m, h5, h6⟩ | ⟨m, h5, h6⟩
        · cases m with
          | nil => simpa using h5.symm
          | cons x xs =>
            simp at h6
            exfalso; apply hone.1; rw [h6.2]; simp
        · cases m with
          | nil => simpa using h5
          | cons x xs =>
            simp at h6
            exfalso; apply hone.2; rw [h5, h6.1]; simp
      rw [this]; exact h4
    · intro h4; exact ⟨a, b, h1, h4⟩
  rw [this]
  simp only [executeIfValid, hd, hv]
  cases v <;> simp

/-- C30 (d): once the callback ran, or the token was destroyed, the entry for its key is gone and a
new token for the key can be acquired. -/
theorem execute_disappears {s : State} {d d' : Nat} {t : Token}
    (hd : s.slots d = .live t) (he : (executeIfValid s d false).2 = .executed) :
    (tryAcquireToken (executeIfValid s d false).1 d' t.key true (.ret true)).2 = .ok := by
  revert he
  simp only [executeIfValid, hd]
  cases hk : s.keys t.key with
  | none => simp
  | some e =>
    cases hv : e.valid <;> simp [hv, tryAcquireToken, updK]

theorem destroy_disappears {s : State} {d d' : Nat} {t : Token} (hd : s.slots d = .live t) :
    (tryAcquireToken (destroy s d).1 d' t.key true (.ret true)).2 = .ok := by
  simp [destroy, hd, tryAcquireToken, updK]

/-- C30 (e): acquiring (with the lock and an accepting callback) fails exactly if a valid token for
the key is alive. -/
theorem acquire_iff_free {s : State} (h : Reach s) (d : Nat) (k : Key) :
    (tryAcquireToken s d k true (.ret true)).2 = .ok ↔ ¬ ∃ d' t, s.slots d' = .live t ∧ t.key = k := by
  have hi := reach_inv h
  cases hk : s.keys k with
  | none =>
    simp only [tryAcquireToken, hk, if_true]
    simp only [true_iff]
    rintro ⟨d', t, h1, h2⟩
    obtain ⟨v, hv⟩ := hi.live d' t h1
    rw [h2, hk] at hv; cases hv
  | some e =>
    simp only [tryAcquireToken, hk, if_true]
    obtain ⟨d', hd'⟩ := hi.owned k e hk
    simp only [reduceCtorEq, false_iff]
    exact fun hn => hn ⟨d', _, hd', rfl⟩

/-- A failed acquisition (lock not obtained, token exists, callback returned false) changes nothing. -/
theorem acquire_fail_noop {s : State} {d : Nat} {k : Key} {l : Bool} {b : Bool}
    (hf : (tryAcquireToken s d k l (.ret b)).2 ≠ .ok) : (tryAcquireToken s d k l (.ret b)).1 = s := by
  revert hf
  unfold tryAcquireToken
  cases l with
  | false => simp
  | true =>
    cases hk : s.keys k with
    | some e => simp
    | none =>
      cases b with
      | true => simp
      | false =>
        have : updK (updK s.keys k (some ⟨true, s.nextId⟩)) k none = s.keys := by
          funext x; simp only [updK]; by_cases e : x = k <;> simp [e, hk]
        simp [this]

/-- C30 (f): destroying a valid token always finds its own entry (the debug check `res == 1`), even
when the callback of other tokens ran or other tokens for the key came and went. -/
theorem destroy_finds_entry {s : State} (h : Reach s) {d : Nat} {t : Token}
    (hd : s.slots d = .live t) : (destroy s d).2 = .erased 1 := by
  obtain ⟨v, hv⟩ := (reach_inv h).live d t hd
  simp [destroy, hd, hv]

/-- C30 (g): no entry leaks: if no valid token is alive the map is empty. -/
theorem no_leak {s : State} (h : Reach s) (hd : ∀ d t, s.slots d ≠ .live t) (k : Key) :
    s.keys k = none := by
  cases hk : s.keys k with
  | none => rfl
  | some e =>
    obtain ⟨d, h1⟩ := (reach_inv h).owned k e hk
    exact absurd h1 (hd d _)

/-- If `fn` throws in `executeIfValid`, the token is preserved: it can still run later. -/
theorem throw_preserves {s : State} {d : Nat} (he : (executeIfValid s d true).2 = .exception) :
    (executeIfValid s d true).1.slots = s.slots ∧ (executeIfValid s d true).1.keys = s.keys := by
  revert he
  unfold executeIfValid
  cases hd : s.slots d with
  | empty => simp
  | done t => simp
  | live t =>
    simp only
    cases hk : s.keys t.key with
    | none => simp
    | some e => cases hv : e.valid <;> simp [hv]

/-- Finding: `tryAcquireToken` is not exception safe.  If the callback throws, the map keeps an
entry no token owns, and every later acquisition for the key fails (lines 57-66 have no guard). -/
theorem acquire_throw_leaks (s : State) (d d' : Nat) (k : Key) (hk : s.keys k = none) (cb : Cb) :
    (tryAcquireToken s d k true .throws).2 = .exception ∧
    (tryAcquireToken s d k true .throws).1.slots = s.slots ∧
    (tryAcquireToken (tryAcquireToken s d k true .throws).1 d' k true cb).2 = .tokenExists := by
  simp [tryAcquireToken, hk, updK]

/-! Non-vacuity: two tokens for different keys, one invalidated, moved, executed. -/

/-- token 0 for [1] in slot 5 (moved there), token 1 for [2] in slot 1; [2] is invalidated. -/
def demo : State :=
  (invalidateToken (moveConstruct (tryAcquireToken (tryAcquireToken init 0 [1] true (.ret true)).1
    1 [2] true (.ret true)).1 5 0).1 [2]).1

theorem demo_reach : Reach demo :=
  .step (.invalidate [2]) (.step (.moveConstruct 5 0) (.step (.tryAcquire 1 [2] true (.ret true))
    (.step (.tryAcquire 0 [1] true (.ret true)) .init rfl (fun h => h)) rfl (fun h => h))
    ⟨rfl, by decide, rfl⟩ (fun h => h)) trivial (fun h => h)

example : demo.slots 5 = .live ⟨[1], 0⟩ ∧ (executeIfValid demo 5 false).2 = .executed
    ∧ demo.slots 1 = .live ⟨[2], 1⟩ ∧ (executeIfValid demo 1 false).2 = .notExecuted
    ∧ (tryAcquireToken demo 9 [1] true (.ret true)).2 = .tokenExists
    ∧ (executeIfValid demo 5 false).1.log = [.ran 0 [1], .invalidated [2], .acquired 1 [2], .acquired 0 [1]] := by
  decide

end Verif.InFlightPuts
