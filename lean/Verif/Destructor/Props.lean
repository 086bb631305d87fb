/-
C52.  The destructor of every item that was inserted is called exactly once, after the item left RAM and NVM.

The claim is about `State.dtor`, the calls of the user's destructor so far (a value = one successful insertOrReplace), along every
execution of one key: inserts, replacements, removes, writable handles, evictions to NVM, NVM fills, NVM evictions, failed NVM
inserts, and foreign removes, interleaved at will.  It is proved when none of the behaviours in `Cfg` occurs (`{}` excludes all of
them); the full claim is false of the code: Findings.lean has a wrong execution for each.
-/
import Verif.Destructor.Step2
import Mathlib.Data.List.Nodup
namespace Verif.Destructor

/-- What is done with `v` can be seen nowhere any more: not in RAM, not removed with handles outstanding, not held by an evicting
thread, not in NVM and not on its way to it. -/
def Spec.Nowhere (s : State) (v : Nat) : Prop :=
  (∀ it, s.ram = some it → it.ver ≠ v) ∧ (∀ it ∈ s.gone, it.ver ≠ v) ∧ (∀ e ∈ s.ev, e.it.ver ≠ v) ∧ s.nvm ≠ some v ∧
    Job.insert v ∉ s.queue

/-- Nothing of this key is left anywhere. -/
def Spec.Drained (s : State) : Prop :=
  s.ram = none ∧ s.gone = [] ∧ s.ev = [] ∧ s.nvm = none ∧ ∀ v, Job.insert v ∉ s.queue

theorem reach_runs {c : Cfg} : ∀ {l : List Act} {s s' : State}, Reach c s → s.runs c l = some s' → Reach c s'
  | [], s, s', h, e => by cases e; exact h
  | a :: l, s, s', h, e => by
    simp only [State.runs] at e
    cases hx : s.exec c a with
    | none => rw [hx] at e; cases e
    | some t => rw [hx] at e; exact reach_runs (.step a h hx) e

theorem total_le {s : State} (h : Reach {} s) (v : Nat) : s.total v ≤ 1 := by
  have := (reach_inv h).acc v
  split at this <;> omega

/-- Never twice, and only for what was inserted. -/
theorem at_most_once_partial {s : State} (h : Reach {} s) : s.dtor.Nodup ∧ ∀ v ∈ s.dtor, v < s.next := by
  constructor
  · rw [List.nodup_iff_count_le_one]
    intro v
    have := total_le h v
    unfold State.total at this
    omega
  · intro v hv
    have := (reach_inv h).acc v
    have h1 : 0 < s.dtor.count v := List.count_pos_iff.mpr hv
    unfold State.total at this
    split at this <;> omega

/-- Not while someone can still see the item in RAM: neither while it is in the cache nor while there are handles to it. -/
theorem not_early_partial {s : State} (h : Reach {} s) :
    (∀ it, s.ram = some it → it.ver ∉ s.dtor) ∧ ∀ it ∈ s.gone, it.ver ∉ s.dtor := by
  refine ⟨fun it hr hv => ?_, fun it hg hv => ?_⟩
  · have := total_le h it.ver
    have h1 : 0 < s.dtor.count it.ver := List.count_pos_iff.mpr hv
    simp only [State.total, hr, ramCnt, Item.cnt] at this
    simp at this
    omega
  · have := total_le h it.ver
    have h1 : 0 < s.dtor.count it.ver := List.count_pos_iff.mpr hv
    have h2 : 0 < s.gone.countP (fun x => x.ver == it.ver) := List.countP_pos_iff.mpr ⟨it, hg, by simp⟩
    unfold State.total at this
    omega

/-- Nor while it can still be found in NVM: if the copy there is of an item that was destroyed, a remove of it is on its way,
it will not call the destructor, and no lookup can load it: there is a tombstone, or a newer item in RAM. -/
theorem not_in_nvm_partial {s : State} (h : Reach {} s) {v : Nat} (hn : s.nvm = some v) (hv : v ∈ s.dtor) :
    s.removed = true ∧ (s.hasTomb = true ∨ ∃ it, s.ram = some it ∧ it.ver ≠ v) := by
  have hi := reach_inv h
  have h1 : 0 < s.dtor.count v := List.count_pos_iff.mpr hv
  have ht := total_le h v
  have hr : s.removed = true := by
    cases hr : s.removed with
    | true => rfl
    | false =>
      cases hram : s.ram with
      | none =>
        simp only [State.total, hram, ramCnt, ramIn, hn, nvmCnt, hr] at ht
        simp at ht
        omega
      | some it =>
        cases hin : it.inNvm with
        | false =>
          simp only [State.total, hram, ramCnt, ramIn, hn, nvmCnt, hr, hin] at ht
          simp at ht
          omega
        | true =>
          obtain ⟨a, b⟩ : it.clean = true ∧ it.nvmEv = false := by simpa [Item.inNvm] using hin
          have := (hi.clean it hram a).1
          rw [b, hn] at this
          have e : v = it.ver := by simpa using this
          exact absurd (e ▸ hv) ((not_early_partial h).1 it hram)
  refine ⟨hr, ?_⟩
  rcases (hi.rem hr).2 with h' | h'
  · left; simp [State.hasTomb, h']
  · obtain ⟨w, hw, hp⟩ := List.any_eq_true.mp h'
    have := hi.wok w hw
    cases w with
    | rmCrit => cases hp
    | tail a b c =>
      cases c with
      | none =>
        left
        have hx : s.writers.any Writer.tombstone = true := List.any_eq_true.mpr ⟨_, hw, this.1⟩
        simp [State.hasTomb, hx]
      | some j =>
        right
        obtain ⟨o, e, -⟩ := this
        exact ⟨o, e, fun e' => (not_early_partial h).1 o e (e' ▸ hv)⟩

/-- No item is forgotten: once an inserted value can be seen nowhere, its destructor has been called. -/
theorem no_leak_partial {s : State} (h : Reach {} s) {v : Nat} (hv : v < s.next) (hw : Spec.Nowhere s v) : v ∈ s.dtor := by
  obtain ⟨h1, h2, h3, h4, h5⟩ := hw
  have ha := (reach_inv h).acc v
  rw [if_pos hv] at ha
  have e1 : ramCnt v s.ram = 0 := by
    cases hr : s.ram with
    | none => rfl
    | some it => simp [ramCnt, Item.cnt, h1 it hr]
  have e2 : s.gone.countP (fun it => it.ver == v) = 0 := List.countP_eq_zero.mpr fun it hi => by simp [h2 it hi]
  have e3 : s.ev.countP (Ev.own v) = 0 := List.countP_eq_zero.mpr fun e he => by simp [Ev.own, h3 e he]
  have e4 : nvmCnt v s.nvm s.removed (ramIn s.ram) = 0 := by
    cases hn : s.nvm with
    | none => rfl
    | some u =>
      have : u ≠ v := fun e => h4 (by rw [hn, e])
      simp [nvmCnt, this]
  have e5 : s.queue.countP (Job.own v) = 0 := by
    refine List.countP_eq_zero.mpr fun j hj => ?_
    cases j with
    | insert u =>
      have : u ≠ v := fun e => h5 (e ▸ hj)
      simp [Job.own, this]
    | remove => simp [Job.own]
    | lookup => simp [Job.own]
  unfold State.total at ha
  exact List.count_pos_iff.mp (by omega)

/-- When all is gone, the destructor has been called exactly once for each insert. -/
theorem exactly_once_partial {s : State} (h : Reach {} s) (hd : Spec.Drained s) : s.dtor.Perm (List.range s.next) := by
  obtain ⟨h1, h2, h3, h4, h5⟩ := hd
  refine (List.perm_ext_iff_of_nodup (at_most_once_partial h).1 List.nodup_range).mpr fun v => ?_
  rw [List.mem_range]
  refine ⟨(at_most_once_partial h).2 v, fun hv => no_leak_partial h hv ⟨?_, ?_, ?_, ?_, h5 v⟩⟩
  · intro it h; rw [h1] at h; cases h
  · rw [h2]; intro it h; cases h
  · rw [h3]; intro it h; cases h
  · rw [h4]; intro h; cases h

/-- put never throws, and an insert into NVM never finds an older copy there, which it would overwrite without a call. -/
theorem never_overwrites_partial {s : State} (h : Reach {} s) :
    s.threw = false ∧ ∀ v q, s.queue = .insert v :: q → s.nvm = none :=
  ⟨(reach_inv h).quiet, fun _ _ hq => (jobInsert_inv (reach_inv h) hq).1⟩

/-- What a lookup loads from NVM was not destroyed. -/
theorem fill_alive_partial {s s' : State} (h : Reach {} s) {keep : Bool} {n : Nat} (he : s.exec {} (.fillEnd keep n) = some s')
    {it : Item} (hr : s'.ram = some it) : it.ver ∉ s'.dtor ∧ it.ver < s'.next := by
  have h' := Reach.step _ h he
  refine ⟨(not_early_partial h').1 it hr, ?_⟩
  have ha := (reach_inv h').acc it.ver
  simp only [State.total, hr, ramCnt, Item.cnt, if_true] at ha
  split at ha
  · assumption
  · omega

/-- Among the items that can be seen in RAM (in the cache, or by handles). -/
def Spec.Seen (s : State) (it : Item) : Prop := s.ram = some it ∨ it ∈ s.gone

theorem nvmRemove_seen {s s' : State} {skip : Bool} (h : s.nvmRemove skip = some s') : s'.ram = s.ram ∧ s'.gone = s.gone := by
  simp only [State.nvmRemove] at h
  split at h
  · split at h
    · cases h; exact ⟨rfl, rfl⟩
    · cases h
  · cases h; exact ⟨rfl, rfl⟩

theorem evictCB_seen {s : State} {u : Nat} {b : Bool} {it : Item} (h : Spec.Seen s it) :
    ∃ it', Spec.Seen (s.evictCB u b) it' ∧ it'.ver = it.ver ∧ it'.refs = it.refs := by
  cases hr : s.ram with
  | none =>
    rcases h with h | h
    · rw [hr] at h; cases h
    · refine ⟨it, .inr ?_, rfl, rfl⟩
      simp only [State.evictCB, hr]
      split <;> exact h
  | some o =>
    rcases h with h | h
    · rw [hr] at h
      cases h
      simp only [State.evictCB, hr]
      split
      · exact ⟨_, .inl rfl, rfl, rfl⟩
      · split <;> exact ⟨it, .inl rfl, rfl, rfl⟩
    · refine ⟨it, .inr ?_, rfl, rfl⟩
      simp only [State.evictCB, hr]
      split
      · exact h
      · split <;> exact h

theorem insertCrit_seen {s : State} {n it : Item} (h : Spec.Seen s it) :
    ∃ it', Spec.Seen (s.insertCrit n) it' ∧ it'.ver = it.ver ∧ it.refs ≤ it'.refs := by
  cases hr : s.ram with
  | none =>
    rcases h with h | h
    · rw [hr] at h; cases h
    · exact ⟨it, .inr (by simp only [State.insertCrit, hr]; exact h), rfl, Nat.le_refl _⟩
  | some o =>
    rcases h with h | h
    · rw [hr] at h
      cases h
      exact ⟨{ it with refs := it.refs + 1 }, .inr (by simp only [State.insertCrit, hr]; exact List.mem_cons_self), rfl, Nat.le_succ _⟩
    · exact ⟨it, .inr (by simp only [State.insertCrit, hr]; exact List.mem_cons_of_mem _ h), rfl, Nat.le_refl _⟩

theorem removeCrit_seen {s : State} {it : Item} (h : Spec.Seen s it) :
    ∃ it', Spec.Seen s.removeCrit.1 it' ∧ it'.ver = it.ver ∧ it.refs ≤ it'.refs := by
  cases hr : s.ram with
  | none =>
    rcases h with h | h
    · rw [hr] at h; cases h
    · exact ⟨it, .inr (by simp only [State.removeCrit, hr]; exact h), rfl, Nat.le_refl _⟩
  | some o =>
    rcases h with h | h
    · rw [hr] at h
      cases h
      exact ⟨{ it with refs := it.refs + 1 }, .inr (by simp only [State.removeCrit, hr]; exact List.mem_cons_self), rfl, Nat.le_succ _⟩
    · exact ⟨it, .inr (by simp only [State.removeCrit, hr]; exact List.mem_cons_of_mem _ h), rfl, Nat.le_refl _⟩

theorem freeItem_seen {s : State} {b : Bool} {o it : Item} (h : Spec.Seen s it) : Spec.Seen (s.freeItem b o) it := by
  simp only [State.freeItem]
  split <;> exact h

theorem gone_erase {l : List Item} {i : Nat} {it : Item} (h : it ∈ l) (hne : ¬ l[i]? = some it) :
    it ∈ l.eraseIdx i := by
  rw [List.mem_eraseIdx_iff_getElem?]
  obtain ⟨j, hj⟩ := List.mem_iff_getElem?.mp h
  exact ⟨j, fun e => hne (e ▸ hj), hj⟩

/-- How many handles the step releases. -/
def Spec.released : Act → Nat
  | .release => 1
  | .releaseGone _ => 1
  | _ => 0

/-- An item with handles stays, and keeps its handles except for at most the one that the step releases, until the last handle of an
item that is not in the cache any more is released. -/
theorem handle_keeps {s s' : State} {a : Act} (he : s.exec {} a = some s') {it : Item} (hs : Spec.Seen s it)
    (h1 : 1 ≤ it.refs) (hl : ∀ i, a = .releaseGone i → s.gone[i]? = some it → 1 < it.refs) :
    ∃ it', Spec.Seen s' it' ∧ it'.ver = it.ver ∧
      it.refs ≤ it'.refs + Spec.released a := by
  have done : ∀ {x : State}, x.ram = s.ram → x.gone = s.gone → ∀ n, ∃ it', Spec.Seen x it' ∧ it'.ver = it.ver ∧ it.refs ≤ it'.refs + n := by
    intro x h1 h2 n
    exact ⟨it, by unfold Spec.Seen; rw [h1, h2]; exact hs, rfl, Nat.le_add_right _ _⟩
  have lift : ∀ {x : State} n, (∃ it', Spec.Seen x it' ∧ it'.ver = it.ver ∧ it.refs ≤ it'.refs) →
      ∃ it', Spec.Seen x it' ∧ it'.ver = it.ver ∧ it.refs ≤ it'.refs + n := by
    intro x n ⟨y, a, b, c⟩
    exact ⟨y, a, b, by omega⟩
  have liftE : ∀ {x : State} n, (∃ it', Spec.Seen x it' ∧ it'.ver = it.ver ∧ it'.refs = it.refs) →
      ∃ it', Spec.Seen x it' ∧ it'.ver = it.ver ∧ it.refs ≤ it'.refs + n := by
    intro x n ⟨y, a, b, c⟩
    exact ⟨y, a, b, by omega⟩
  cases a with
  | insert =>
    simp only [State.exec] at he
    split at he
    · cases he
    · cases he; exact lift _ (insertCrit_seen hs)
  | reinsert i => simp [State.exec] at he
  | removeStart =>
    simp only [State.exec] at he
    split at he
    · cases he
    · cases he; exact done rfl rfl _
  | removeCrit w =>
    simp only [State.exec] at he
    split at he
    · cases he; exact lift _ (removeCrit_seen hs)
    · cases he
  | mutate =>
    simp only [State.exec] at he
    split at he
    · cases he
    · split at he
      · rename_i o hr
        split at he
        · cases he
          rcases hs with h | h
          · rw [hr] at h; cases h
            exact ⟨_, .inl rfl, rfl, Nat.le_add_right _ _⟩
          · exact ⟨it, .inr h, rfl, Nat.le_add_right _ _⟩
        · cases he
      · cases he
  | wTomb w =>
    simp only [State.exec] at he
    split at he
    · cases he; exact done rfl rfl _
    · cases he
  | wFinish w skip =>
    simp only [State.exec] at he
    split at he
    · have := nvmRemove_seen he; exact done this.1 this.2 _
    · cases he; exact done rfl rfl _
    · cases he
  | otherStart => simp only [State.exec, Option.some.injEq] at he; subst he; exact done rfl rfl _
  | otherFinish skip =>
    simp only [State.exec] at he
    split at he
    · cases he
    · have := nvmRemove_seen he; exact done this.1 this.2 _
  | acquire =>
    simp only [State.exec] at he
    split at he
    · rename_i o hr
      cases he
      rcases hs with h | h
      · rw [hr] at h; cases h
        exact ⟨_, .inl rfl, rfl, by dsimp only; omega⟩
      · exact ⟨it, .inr h, rfl, Nat.le_add_right _ _⟩
    · cases he
  | release =>
    simp only [State.exec] at he
    split at he
    · rename_i o hr
      split at he
      · cases he
        rcases hs with h | h
        · rw [hr] at h; cases h
          exact ⟨_, .inl rfl, rfl, by dsimp only [Spec.released]; omega⟩
        · exact ⟨it, .inr h, rfl, Nat.le_add_right _ _⟩
      · cases he
    · cases he
  | releaseGone i =>
    simp only [State.exec] at he
    split at he
    · rename_i o hg
      rcases hs with h | h
      · split at he
        · cases he; exact ⟨it, freeItem_seen (.inl h), rfl, Nat.le_add_right _ _⟩
        · cases he; exact ⟨it, .inl h, rfl, Nat.le_add_right _ _⟩
      · by_cases hx : s.gone[i]? = some it
        · have h2 := hl i rfl hx
          rw [hg] at hx
          cases hx
          rw [if_neg (by omega)] at he
          cases he
          refine ⟨{ it with refs := it.refs - 1 }, .inr (List.mem_iff_getElem?.mpr ⟨i, ?_⟩), rfl, ?_⟩
          · obtain ⟨hlt, -⟩ := List.getElem?_eq_some_iff.mp hg
            simp [hlt]
          · dsimp only [Spec.released]; omega
        · split at he
          · cases he; exact ⟨it, freeItem_seen (.inr (gone_erase h hx)), rfl, Nat.le_add_right _ _⟩
          · cases he
            refine ⟨it, .inr ?_, rfl, Nat.le_add_right _ _⟩
            obtain ⟨j, hj⟩ := List.mem_iff_getElem?.mp h
            refine List.mem_iff_getElem?.mpr ⟨j, ?_⟩
            have hne : i ≠ j := fun e => hx (e ▸ hj)
            simpa [List.getElem?_set_ne hne] using hj
    · cases he
  | reap => simp [State.exec] at he
  | move =>
    simp only [State.exec] at he
    split at he
    · rename_i o hr
      split at he
      · rename_i h0
        cases he
        rcases hs with h | h
        · rw [hr] at h; cases h; omega
        · exact ⟨it, .inr h, rfl, Nat.le_add_right _ _⟩
      · cases he
    · cases he
  | look =>
    simp only [State.exec] at he
    split at he
    · cases he; exact done rfl rfl _
    · cases he
  | mark want tok =>
    simp only [State.exec] at he
    split at he
    · rename_i o hr
      split at he
      · rename_i h0
        cases he
        rcases hs with h | h
        · rw [hr] at h; cases h; omega
        · exact ⟨it, .inr h, rfl, Nat.le_add_right _ _⟩
      · cases he
    · cases he
  | put i admit =>
    simp only [State.exec] at he
    repeat' split at he
    all_goals first | (cases he; done) | (cases he; exact done rfl rfl _)
  | free i =>
    simp only [State.exec] at he
    split at he
    · split at he
      · cases he; exact ⟨it, freeItem_seen hs, rfl, Nat.le_add_right _ _⟩
      · cases he
    · cases he
  | invalidate => simp only [State.exec, Option.some.injEq] at he; subst he; exact done rfl rfl _
  | lookup =>
    simp only [State.exec] at he
    split at he
    · cases he; exact done rfl rfl _
    · cases he
  | jobInsert ok big =>
    simp only [State.exec] at he
    split at he
    · split at he
      · split at he
        · cases he
          split
          · exact liftE _ (evictCB_seen (by exact hs))
          · exact done rfl rfl _
        · cases he; exact done rfl rfl _
      · cases he; exact liftE _ (evictCB_seen (by exact hs))
    · cases he
  | jobRemove ok =>
    simp only [State.exec] at he
    split at he
    · split at he
      · split at he
        · cases he; exact liftE _ (evictCB_seen (by exact hs))
        · cases he; exact done rfl rfl _
      · simp at he
    · cases he
  | jobLookup ok =>
    simp only [State.exec] at he
    split at he
    · split at he
      · cases he; exact done rfl rfl _
      · cases he
    · cases he
  | fillEnd keep n =>
    simp only [State.exec] at he
    split at he
    · split at he
      · cases he
      · split at he
        · split at he
          · rename_i h
            cases he
            simp only [Bool.and_eq_true, Option.isNone_iff_eq_none] at h
            rcases hs with h' | h'
            · rw [h.2] at h'; cases h'
            · exact ⟨it, .inr h', rfl, Nat.le_add_right _ _⟩
          · cases he; exact done rfl rfl _
        · cases he; exact done rfl rfl _
    · cases he
  | evict =>
    simp only [State.exec] at he
    split at he
    · cases he; exact liftE _ (evictCB_seen (by exact hs))
    · cases he
  | drop => simp [State.exec] at he
  | callback i =>
    simp only [State.exec] at he
    split at he
    · cases he; exact liftE _ (evictCB_seen (by exact hs))
    · cases he

/-- So an item is not destroyed while there is a handle to it. -/
theorem not_with_handle_partial {s s' : State} {a : Act} (h : Reach {} s) (he : s.exec {} a = some s') {it : Item}
    (hs : Spec.Seen s it) (h1 : 1 ≤ it.refs) (hl : ∀ i, a = .releaseGone i → s.gone[i]? = some it → 1 < it.refs) :
    it.ver ∉ s'.dtor := by
  obtain ⟨it', h2, e, -⟩ := handle_keeps he hs h1 hl
  have := not_early_partial (.step a h he)
  rw [← e]
  rcases h2 with h2 | h2
  · exact this.1 it' h2
  · exact this.2 it' h2

/-! ### Concrete executions -/

/-- An item is inserted into an empty cache, evicted to NVM and loaded again. -/
def loadRun : List Act :=
  [.insert, .wTomb 0, .wFinish 0 true, .release, .look, .mark true true, .put 0 true, .free 0, .jobInsert true false,
    .lookup, .jobLookup true, .fillEnd true 1]

/-- Then it is replaced while the old one has a handle; NVM drops its copy first; the new one goes to NVM, the insert fails. -/
def longRun : List Act :=
  loadRun ++ [.insert, .evict, .wTomb 0, .wFinish 0 false, .releaseGone 0, .releaseGone 0, .jobRemove true,
    .release, .look, .mark true true, .put 0 true, .free 0, .jobInsert false false]

theorem example_load : (({} : State).runs {} loadRun).map (fun s => (s.ram, s.nvm, s.dtor))
    = some (some { id := 1, ver := 0, clean := true, nvmEv := false, refs := 1 }, some 0, []) := by decide

theorem example_long : (({} : State).runs {} longRun).map (fun s => (s.dtor, s.next)) = some ([1, 0], 2) := by decide

theorem example_drained : ∃ s, Reach {} s ∧ Spec.Drained s ∧ s.next = 2 ∧ s.dtor = [1, 0] := by
  cases h : ({} : State).runs {} longRun with
  | none => exact absurd h (by decide)
  | some s =>
    have e : (({} : State).runs {} longRun).map (fun s => (s.ram, s.gone)) = some (none, []) := by decide
    have e2 : (({} : State).runs {} longRun).map (fun s => (s.ev, s.nvm)) = some ([], none) := by decide
    have e3 : (({} : State).runs {} longRun).map (fun s => s.queue) = some [] := by decide
    have e4 := example_long
    rw [h] at e e2 e3 e4
    simp only [Option.map_some, Option.some.injEq, Prod.mk.injEq] at e e2 e3 e4
    exact ⟨s, reach_runs .init h, ⟨e.1, e.2, e2.1, e2.2, by rw [e3]; intro v hv; cases hv⟩, e4.2, e4.1⟩

/-- A destroyed item whose copy in NVM still waits for its remove (the hypotheses of `not_in_nvm_partial`). -/
theorem example_stale_copy : (({} : State).runs {} (loadRun ++ [.insert, .releaseGone 0, .releaseGone 0])).map
    (fun s => (s.nvm, s.dtor)) = some (some 0, [0]) := by decide

end Verif.Destructor
