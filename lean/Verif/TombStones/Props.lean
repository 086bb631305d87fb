import Verif.TombStones.Model
/-
C29  Delete markers are reference counted exactly.

Specification: `Alive s k` – some guard object for `k` is currently alive.  The theorems hold for
every history of legal operations on any number of guard slots below 2^64.
-/
namespace Verif.TombStones

/-- Histories: all states reachable from empty tombstones with `n` guard slots. -/
inductive Reach (n : Nat) : State → Prop
  | init : Reach n (init n)
  | step {s s' : State} (op : Op) : Reach n s → op.legal s → op.exec s = some s' → Reach n s'

/-- Spec: a guard object for key `k` is alive somewhere. -/
def Alive (s : State) (k : Key) : Prop := ∃ g : Guard, some g ∈ s.slots ∧ g.key = k

/-- Spec: the number of alive guard objects for key `k`. -/
def aliveCount (s : State) (k : Key) : Nat :=
  s.slots.countP fun o => match o with | some g => g.key == k | none => false

/-- the test used by `aliveCount`. -/
def isFor (k : Key) (o : Option Guard) : Bool := match o with | some g => g.key == k | none => false

theorem aliveCount_eq (s : State) (k : Key) : aliveCount s k = s.slots.countP (isFor k) := rfl

structure Inv (n : Nat) (s : State) : Prop where
  len : s.slots.length = n
  cnt : ∀ k, match s.keys k with
    | none => s.slots.countP (isFor k) = 0
    | some nd => nd.count = s.slots.countP (isFor k) ∧ 0 < nd.count
  node : ∀ g, some g ∈ s.slots → ∃ nd, s.keys g.key = some nd ∧ nd.id = g.node

theorem isFor_none (k : Key) : isFor k none = false := rfl
theorem isFor_some (k : Key) (g : Guard) : isFor k (some g) = (g.key == k) := rfl

theorem guardAt_eq {s : State} {d : Nat} (h : d < s.slots.length) : guardAt s d = s.slots[d] := by
  simp [guardAt, List.getElem?_eq_getElem h]

theorem inv_init (n : Nat) : Inv n (init n) := by
  refine ⟨by simp [init], ?_, ?_⟩
  · intro k
    simp only [init]
    exact List.countP_eq_zero.2 (by
      intro o ho
      rw [(List.mem_replicate.1 ho).2]
      simp [isFor_none])
  · intro g hg
    simp [init] at hg

theorem countP_set' {s : List (Option Guard)} {d : Nat} (h : d < s.length) (k : Key)
    (o : Option Guard) :
    (s.set d o).countP (isFor k) + (if isFor k s[d] then 1 else 0)
      = s.countP (isFor k) + (if isFor k o then 1 else 0) := by
  have h1 := List.countP_set (p := isFor k) (l := s) (i := d) (a := o) h
  have h2 : isFor k s[d] = true → 0 < s.countP (isFor k) := fun hh =>
    List.countP_pos_iff.2 ⟨s[d], List.getElem_mem h, hh⟩
  rw [h1]
  by_cases hp : isFor k s[d] = true
  · have := h2 hp
    simp only [hp, if_true]
    omega
  · simp only [hp]
    simp

theorem inv_add {n : Nat} (hn : n < 2 ^ 64) {s : State} (h : Inv n s) {d : Nat} {k : Key}
    (hd : d < s.slots.length) (he : guardAt s d = none) : Inv n (add s d k) := by
  rw [guardAt_eq hd] at he
  have hcs := fun (k' : Key) (o : Option Guard) => countP_set' hd k' o
  simp only [he, isFor_none, Bool.false_eq_true, if_false, Nat.add_zero] at hcs
  have hle : ∀ k', (s.slots.set d (some ⟨0, k⟩)).countP (isFor k') ≤ n := by
    intro k'
    have := List.countP_le_length (p := isFor k') (l := s.slots.set d (some ⟨0, k⟩))
    rw [List.length_set, h.len] at this
    exact this
  have hk := h.cnt k
  cases hm : s.keys k with
  | none =>
    rw [hm] at hk
    have hA : add s d k =
      { keys := upd s.keys k (some ⟨s.nextId, (0 + 1) % 2 ^ 64⟩), nextId := s.nextId + 1,
        slots := s.slots.set d (some ⟨s.nextId, k⟩) } := by rw [add, hm]
    rw [hA]
    refine ⟨by simp [h.len], ?_, ?_⟩
    · intro k'
      by_cases e : k' = k
      · subst e
        simp only [upd, if_true]
        rw [hcs, isFor_some]
        simp only at hk
        simp [hk]
      · have := h.cnt k'
        simp only [upd, e, if_false]
        rw [hcs, isFor_some]
        have e' : (k == k') = false := by simp; exact fun hh => e hh.symm
        simp only [e']
        simpa using this
    · intro g hg
      rcases List.mem_or_eq_of_mem_set hg with hg | hg
      · obtain ⟨nd, h1, h2⟩ := h.node g hg
        refine ⟨nd, ?_, h2⟩
        have : g.key ≠ k := by intro e; rw [e, hm] at h1; cases h1
        simp [upd, this, h1]
      · cases hg
        exact ⟨⟨s.nextId, (0 + 1) % 2 ^ 64⟩, by simp only [upd, if_true], rfl⟩
  | some nd =>
    rw [hm] at hk
    have hA : add s d k =
      { s with keys := upd s.keys k (some ⟨nd.id, (nd.count + 1) % 2 ^ 64⟩),
               slots := s.slots.set d (some ⟨nd.id, k⟩) } := by rw [add, hm]
    rw [hA]
    refine ⟨by simp [h.len], ?_, ?_⟩
    · intro k'
      by_cases e : k' = k
      · subst e
        simp only [upd, if_true]
        rw [hcs, isFor_some]
        have h3 := hle k'
        rw [hcs, isFor_some] at h3
        simp only [beq_self_eq_true, if_true] at h3 ⊢
        simp only at hk
        omega
      · have := h.cnt k'
        simp only [upd, e, if_false]
        rw [hcs, isFor_some]
        have e' : (k == k') = false := by simp; exact fun hh => e hh.symm
        simp only [e']
        simpa using this
    · intro g hg
      rcases List.mem_or_eq_of_mem_set hg with hg | hg
      · obtain ⟨nd', h1, h2⟩ := h.node g hg
        by_cases e : g.key = k
        · rw [e, hm] at h1; cases h1
          exact ⟨⟨nd.id, (nd.count + 1) % 2 ^ 64⟩, by simp [upd, e], h2⟩
        · exact ⟨nd', by simp [upd, e, h1], h2⟩
      · cases hg
        exact ⟨⟨nd.id, (nd.count + 1) % 2 ^ 64⟩, by simp only [upd, if_true], rfl⟩

theorem inv_destroy {n : Nat} {s : State} (h : Inv n s) {d : Nat}
    (hd : d < s.slots.length) :
    ∃ s', destroy s d = some s' ∧ Inv n s' ∧ guardAt s' d = none
      ∧ s'.slots = s.slots.set d none := by
  cases hg : guardAt s d with
  | none =>
    refine ⟨s, by rw [destroy, hg], h, hg, ?_⟩
    rw [guardAt_eq hd] at hg
    rw [← hg]; simp
  | some g =>
    have hg' := hg
    rw [guardAt_eq hd] at hg'
    have hmem : some g ∈ s.slots := hg' ▸ List.getElem_mem hd
    obtain ⟨nd, h1, h2⟩ := h.node g hmem
    have hc := h.cnt g.key
    rw [h1] at hc
    simp only at hc
    have hcs := fun (k' : Key) => countP_set' hd k' none
    simp only [hg', isFor_none, isFor_some, Bool.false_eq_true, if_false, Nat.add_zero] at hcs
    have hr : remove s.keys g.key =
        some (upd s.keys g.key (if nd.count - 1 = 0 then none else some ⟨nd.id, nd.count - 1⟩)) := by
      rw [remove, h1]
      have : nd.count ≠ 0 := by omega
      simp only [this, if_false]
      by_cases e : nd.count - 1 = 0 <;> simp [e]
    have hD : destroy s d = some { s with
        keys := upd s.keys g.key (if nd.count - 1 = 0 then none else some ⟨nd.id, nd.count - 1⟩),
        slots := s.slots.set d none } := by
      rw [destroy, hg]; simp only [hr]
    refine ⟨_, hD, ⟨by simp [h.len], ?_, ?_⟩, ?_, rfl⟩
    · intro k'
      have hk' := hcs k'
      by_cases e : k' = g.key
      · subst e
        simp only [beq_self_eq_true, if_true] at hk'
        simp only [upd, if_true]
        by_cases e1 : nd.count - 1 = 0
        · simp only [e1, if_true]; omega
        · simp only [e1, if_false]; omega
      · have e' : (g.key == k') = false := by simp; exact fun hh => e hh.symm
        simp only [e', Bool.false_eq_true, if_false, Nat.add_zero] at hk'
        have := h.cnt k'
        simp only [upd, e, if_false]
        rw [hk']; exact this
    · intro g' hg2
      rcases List.mem_or_eq_of_mem_set hg2 with hg3 | hg3
      · obtain ⟨nd', h3, h4⟩ := h.node g' hg3
        by_cases e : g'.key = g.key
        · rw [e, h1] at h3; cases h3
          have hp : 0 < (s.slots.set d none).countP (isFor g.key) :=
            List.countP_pos_iff.2 ⟨some g', hg2, by rw [isFor_some]; simp [e]⟩
          have := hcs g.key
          simp only [beq_self_eq_true, if_true] at this
          have e1 : ¬ nd.count - 1 = 0 := by omega
          exact ⟨⟨nd.id, nd.count - 1⟩, by simp [upd, e, e1], h4⟩
        · exact ⟨nd', by simp [upd, e, h3], h4⟩
      · cases hg3
    · simp [guardAt, hd]

theorem set_set_countP {s : List (Option Guard)} {d src : Nat} (hd : d < s.length)
    (hs : src < s.length) (hne : d ≠ src) (he : s[d] = none) (k : Key) :
    ((s.set d s[src]).set src none).countP (isFor k) = s.countP (isFor k) := by
  have h1 := countP_set' hd k s[src]
  have hs' : src < (s.set d s[src]).length := by simpa using hs
  have h2 := countP_set' hs' k none
  have h3 : (s.set d s[src])[src] = s[src] := by
    rw [List.getElem_set]; simp [hne]
  rw [h3] at h2
  simp only [he, isFor_none, Bool.false_eq_true, if_false, Nat.add_zero] at h1 h2
  omega

theorem inv_move {n : Nat} {s : State} (h : Inv n s) {d src : Nat}
    (hd : d < s.slots.length) (hs : src < s.slots.length) (hne : d ≠ src)
    (he : guardAt s d = none) : Inv n (moveConstruct s d src) := by
  rw [guardAt_eq hd] at he
  rw [moveConstruct, guardAt_eq hs]
  refine ⟨by simp [h.len], ?_, ?_⟩
  · intro k
    have := h.cnt k
    simp only [set_set_countP hd hs hne he k]
    exact this
  · intro g hg
    rcases List.mem_or_eq_of_mem_set hg with hg | hg
    · rcases List.mem_or_eq_of_mem_set hg with hg | hg
      · exact h.node g hg
      · exact h.node g (hg ▸ List.getElem_mem hs)
    · cases hg

theorem exec_ok {n : Nat} (hn : n < 2 ^ 64) {s : State} (h : Inv n s) (op : Op)
    (hl : op.legal s) : ∃ s', op.exec s = some s' ∧ Inv n s' := by
  cases op with
  | add d k => exact ⟨_, rfl, inv_add hn h hl.1 hl.2⟩
  | destroy d =>
    obtain ⟨s', h1, h2, _⟩ := inv_destroy h hl
    exact ⟨s', h1, h2⟩
  | moveConstruct d src => exact ⟨_, rfl, inv_move h hl.1 hl.2.1 hl.2.2.1 hl.2.2.2⟩
  | moveAssign d src =>
    by_cases e : d = src
    · exact ⟨s, by simp [Op.exec, moveAssign, e], h⟩
    · obtain ⟨s', h1, h2, h3, h4⟩ := inv_destroy h hl.1
      refine ⟨moveConstruct s' d src, ?_, ?_⟩
      · simp [Op.exec, moveAssign, e, h1]
      · exact inv_move h2 (by rw [h4]; simpa using hl.1) (by rw [h4]; simpa using hl.2) e h3

theorem reach_inv {n : Nat} (hn : n < 2 ^ 64) {s : State} (h : Reach n s) : Inv n s := by
  induction h with
  | init => exact inv_init n
  | step op _ hl he ih =>
    obtain ⟨s', h1, h2⟩ := exec_ok hn ih op hl
    rw [h1] at he; cases he; exact h2

/-- C29 (a): a key is reported as being deleted exactly while at least one guard for it is alive. -/
theorem isPresent_iff_alive {n : Nat} (hn : n < 2 ^ 64) {s : State} (h : Reach n s) (k : Key) :
    isPresent s k = true ↔ Alive s k := by
  have hi := reach_inv hn h
  have hc := hi.cnt k
  have hA : Alive s k ↔ 0 < s.slots.countP (isFor k) := by
    rw [List.countP_pos_iff]
    constructor
    · rintro ⟨g, hg, e⟩; exact ⟨some g, hg, by rw [isFor_some]; simp [e]⟩
    · rintro ⟨o, ho, e⟩
      cases o with
      | none => simp [isFor_none] at e
      | some g => exact ⟨g, ho, by simpa [isFor_some] using e⟩
  rw [hA, isPresent]
  cases hm : s.keys k with
  | none => rw [hm] at hc; simp only at hc; simp [hc]
  | some nd => rw [hm] at hc; simp only at hc; simp only [Option.isSome_some, true_iff]; omega

/-- C29 (b): releasing (or moving, or overwriting) guards in any order never raises the
"Invalid state" error: every legal operation in every reachable state completes. -/
theorem never_throws {n : Nat} (hn : n < 2 ^ 64) {s : State} (h : Reach n s) (op : Op)
    (hl : op.legal s) : ∃ s', op.exec s = some s' := by
  obtain ⟨s', h1, _⟩ := exec_ok hn (reach_inv hn h) op hl
  exact ⟨s', h1⟩

/-- C29 (c): no entry leaks: when no guard object is alive the table is empty. -/
theorem no_leak {n : Nat} (hn : n < 2 ^ 64) {s : State} (h : Reach n s)
    (hdead : ∀ o ∈ s.slots, o = none) (k : Key) : s.keys k = none := by
  have := (isPresent_iff_alive hn h k)
  cases hm : s.keys k with
  | none => rfl
  | some nd =>
    have h1 : isPresent s k = true := by simp [isPresent, hm]
    obtain ⟨g, hg, _⟩ := this.1 h1
    exact absurd (hdead _ hg) (by simp)

/-- C29 (d): the stored count is exactly the number of alive guards. -/
theorem count_exact {n : Nat} (hn : n < 2 ^ 64) {s : State} (h : Reach n s) (k : Key) :
    ((s.keys k).map Node.count).getD 0 = aliveCount s k := by
  have hc := (reach_inv hn h).cnt k
  rw [aliveCount_eq]
  cases hm : s.keys k with
  | none => rw [hm] at hc; simp only at hc; simp [hc]
  | some nd => rw [hm] at hc; simp only at hc; simp [hc.1]

/-- C29 (e): the key text a live guard refers to is the key of the element that is still in the
table, so a guard never reads freed key bytes. -/
theorem guard_key_not_dangling {n : Nat} (hn : n < 2 ^ 64) {s : State} (h : Reach n s) (g : Guard)
    (hg : some g ∈ s.slots) : ∃ nd, s.keys g.key = some nd ∧ nd.id = g.node :=
  (reach_inv hn h).node g hg

/-- C29 (f): effect of the operations on what is alive: adding `k` makes it present, and ending the
life of a guard (destructor) affects the reported presence of no other key. -/
theorem add_present {n : Nat} (hn : n < 2 ^ 64) {s : State} (h : Reach n s) {d : Nat} {k : Key}
    (hl : (Op.add d k).legal s) : isPresent (add s d k) k = true := by
  have hr : Reach n (add s d k) := .step (.add d k) h hl rfl
  refine (isPresent_iff_alive hn hr k).2 ?_
  cases hm : s.keys k with
  | none => exact ⟨⟨s.nextId, k⟩, by simp only [add, hm]; exact List.mem_set hl.1 _, rfl⟩
  | some nd => exact ⟨⟨nd.id, k⟩, by simp only [add, hm]; exact List.mem_set hl.1 _, rfl⟩

theorem destroy_other {n : Nat} (hn : n < 2 ^ 64) {s s' : State} (h : Reach n s) {d : Nat}
    (hd : d < s.slots.length) (he : destroy s d = some s') (k : Key)
    (hk : ∀ g, guardAt s d = some g → g.key ≠ k) : isPresent s' k = isPresent s k := by
  have hr : Reach n s' := .step (.destroy d) h hd he
  obtain ⟨s2, h1, _, _, h4⟩ := inv_destroy (reach_inv hn h) hd
  rw [h1] at he; cases he
  rw [Bool.eq_iff_iff, isPresent_iff_alive hn hr, isPresent_iff_alive hn h]
  constructor
  · rintro ⟨g, hg, e⟩
    rw [h4] at hg
    rcases List.mem_or_eq_of_mem_set hg with hg | hg
    · exact ⟨g, hg, e⟩
    · cases hg
  · rintro ⟨g, hg, e⟩
    refine ⟨g, ?_, e⟩
    obtain ⟨i, hi, hi2⟩ := List.mem_iff_getElem.1 hg
    rw [h4]
    have hne : d ≠ i := by
      intro e2; subst e2
      refine hk g ?_ e
      rw [guardAt_eq hd, hi2]
    refine List.mem_iff_getElem.2 ⟨i, by simpa using hi, ?_⟩
    rw [List.getElem_set]; simp [hne, hi2]

/-! Non-vacuity: two guards for one key, one of them moved, then released one by one. -/

/-- Two concurrent deletes of key [1] and one of key [2]. -/
def demo : State := add (add (add (init 4) 0 [1]) 1 [1]) 2 [2]

theorem demo_reach : Reach 4 demo :=
  .step (.add 2 [2]) (.step (.add 1 [1]) (.step (.add 0 [1]) .init
    ⟨by decide, by decide⟩ rfl) ⟨by decide, by decide⟩ rfl) ⟨by decide, by decide⟩ rfl

example : isPresent demo [1] = true ∧ aliveCount demo [1] = 2 ∧ isPresent demo [3] = false := by decide
example : demo.slots.length = 4 ∧ 4 < 2 ^ 64 := by decide
/-- releasing one of the two guards keeps the marker, releasing both drops it. -/
example : ((destroy demo 0).map fun s => isPresent s [1]) = some true
    ∧ (((destroy demo 0).bind fun s => moveAssign s 1 2).map fun s =>
        (isPresent s [1], isPresent s [2])) = some (false, true) := by decide

end Verif.TombStones
