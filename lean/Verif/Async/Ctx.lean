/-!
The wait context of one handle (Handle.h:268-436): the thread that fulfills it (`set`), and the user's threads (`onReady`, `wait`, `release`,
destruction).

What is simplified: the lines of `set` under the mutex (349-362) are one step, and so is `onReady` (381-387); the thread that fulfills
shares the ownership of the context until `set` returns or throws (the vector of waiters, CacheAllocator.h:2505), so the destructor runs after
that; flags, times and the number of active handles of each thread are not modelled.
-/
namespace Verif.Async.Ctx

/-- How far `set` is. -/
inductive Pc
  | idle | stored | called | posted | threw
deriving DecidableEq, Repr

structure St where
  pc : Pc := .idle
  /-- it_ (432): not ready, or null, or an item. -/
  it : Option Bool := none
  /-- onReadyCallback_ (431). -/
  cb : Option Nat := none
  baton : Bool := false
  blocked : Nat := 0
  dead : Bool := false
  /-- Callbacks that were invoked by `set`, with an item or null; handed back by `onReady`; dropped. -/
  invoked : List (Nat × Bool) := []
  returned : List Nat := []
  dropped : List Nat := []
  /-- References of the item: that of the context (or of the thread that fulfills), those of the handles that were given out. -/
  refs : Nat := 0
  given : Nat := 0
  /-- The item to come. -/
  item : Bool
deriving DecidableEq, Repr

/-- Before `set`: the thread that fulfills has a handle, if there is an item. -/
def init (item : Bool) : St := { item := item, refs := if item then 1 else 0 }

inductive Act
  | store                  -- Handle.h:338-347
  | callback (ok : Bool)   -- 348-362; `ok`: the reference count does not overflow (clone, 356; 251-258)
  | post                   -- 363
  | onReady (k : Nat)      -- 380-388
  | block                  -- 280-285: not ready
  | wake                   -- 285: the baton is posted
  | release                -- 89-98, 390-396
  | drop                   -- a handle that was given out is released by the user (Handle.h:65-85)
  | destroy                -- 398-419
deriving DecidableEq, Repr

def St.exec (s : St) : Act → Option St
  | .store =>
    if s.pc = .idle then some { s with pc := .stored, it := some s.item } else none
  | .callback ok =>
    if s.pc = .stored then
      match s.cb with
      | none => some { s with pc := .called }
      | some k =>
        if s.item then
          if ok then some { s with pc := .called, invoked := s.invoked ++ [(k, true)], refs := s.refs + 1, given := s.given + 1 }
          else some { s with pc := .threw }
        else some { s with pc := .called, invoked := s.invoked ++ [(k, false)] }
    else none
  | .post => if s.pc = .called then some { s with pc := .posted, baton := true } else none
  | .onReady k =>
    if s.dead then none
    else if s.it.isSome then some { s with returned := s.returned ++ [k] }
    else some { s with cb := some k, dropped := s.dropped ++ s.cb.toList }
  | .block => if s.dead = false ∧ s.it = none then some { s with blocked := s.blocked + 1 } else none
  | .wake => if s.baton ∧ 0 < s.blocked then some { s with blocked := s.blocked - 1 } else none
  | .release =>
    if s.dead then none
    else match s.it with
      | some true => some { s with it := some false, given := s.given + 1 }
      | some false => some s
      | none => none
  | .drop => if 0 < s.given then some { s with given := s.given - 1, refs := s.refs - 1 } else none
  | .destroy =>
    if s.dead = false ∧ (s.pc = .posted ∨ s.pc = .threw) ∧ s.blocked = 0 then
      match s.it with
      | some true => some { s with dead := true, it := some false, refs := s.refs - 1 }
      | _ => some { s with dead := true }
    else none

def St.runs : St → List Act → Option St
  | s, [] => some s
  | s, a :: l => match s.exec a with | none => none | some s' => s'.runs l

inductive Reach (item : Bool) : List Act → St → Prop
  | init : Reach item [] (init item)
  | step {l : List Act} {s s' : St} (a : Act) (h : Reach item l s) (he : s.exec a = some s') : Reach item (l ++ [a]) s'

/-- The callbacks that were passed to `onReady`. -/
def passed (l : List Act) : List Nat := l.flatMap fun a => match a with | .onReady k => [k] | _ => []

structure Inv (item : Bool) (l : List Act) (s : St) : Prop where
  it0 : s.it = none ↔ s.pc = .idle
  itm : s.item = item
  cbs : (s.dropped ++ s.cb.toList ++ s.returned).Perm (passed l)
  inv : s.invoked = if s.pc = .called ∨ s.pc = .posted then s.cb.toList.map (fun k => (k, item)) else []
  bat : s.baton = true ↔ s.pc = .posted
  refs : s.refs = s.given + (if s.it = some true ∨ (s.pc = .idle ∧ item = true) then 1 else 0)
  null : item = false → s.it ≠ some true
  ret : s.pc = .idle → s.returned = [] ∧ s.invoked = []
  deadp : s.dead = true → s.pc = .posted ∨ s.pc = .threw

theorem Inv.init (item : Bool) : Inv item [] (init item) := by
  refine ⟨by simp [Ctx.init], rfl, by simp [Ctx.init, passed], by simp [Ctx.init], by simp [Ctx.init], ?_, by simp [Ctx.init], by simp [Ctx.init], by simp [Ctx.init]⟩
  cases item <;> simp [Ctx.init]

theorem passed_snoc (l : List Act) (a : Act) : passed (l ++ [a]) = passed l ++ (match a with | .onReady k => [k] | _ => []) := by
  simp [passed]

theorem Inv.step {item : Bool} {l : List Act} {s s' : St} {a : Act} (hi : Inv item l s) (he : s.exec a = some s') : Inv item (l ++ [a]) s' := by
  obtain ⟨it0, hitem, cbs, inv, bat, refs, null, ret, deadp⟩ := hi
  obtain ⟨pc, it, cb, baton, blocked, dead, invoked, returned, dropped, rf, given, itm⟩ := s
  simp only at *
  subst hitem
  cases a with
  | store =>
    simp only [St.exec] at he
    split at he
    case isFalse => cases he
    case isTrue h =>
      subst h; simp only [Option.some.injEq] at he; subst he
      have hit := it0.mpr rfl; subst hit
      refine ⟨by simp, rfl, ?_, ?_, ?_, ?_, ?_, by simp, ?_⟩
      · simpa [passed_snoc] using cbs
      · simpa using inv
      · simpa using bat
      · simpa using refs
      · intro h; simp [h]
      · simpa using deadp
  | callback ok =>
    simp only [St.exec] at he
    split at he
    case isFalse => cases he
    case isTrue h =>
      subst h
      have hit : it ≠ none := fun e => by simpa using it0.mp e
      simp at inv; subst inv
      cases cb with
      | none =>
        simp only [Option.some.injEq] at he; subst he
        exact ⟨by simpa using hit, rfl, by simpa [passed_snoc] using cbs, by simp, by simpa using bat, by simpa using refs, null, by simp, by simpa using deadp⟩
      | some k =>
        simp only at he
        cases itm with
        | true =>
          simp only [if_true] at he
          cases ok with
          | true =>
            simp only [if_true, Option.some.injEq] at he; subst he
            refine ⟨by simpa using hit, rfl, by simpa [passed_snoc] using cbs, by simp, by simpa using bat, ?_, null, by simp, by simpa using deadp⟩
            simp at refs ⊢; omega
          | false =>
            simp at he; subst he
            exact ⟨by simpa using hit, rfl, by simpa [passed_snoc] using cbs, by simp, by simpa using bat, by simpa using refs, null, by simp, by simp⟩
        | false =>
          simp at he; subst he
          exact ⟨by simpa using hit, rfl, by simpa [passed_snoc] using cbs, by simp, by simpa using bat, by simpa using refs, null, by simp, by simpa using deadp⟩
  | post =>
    simp only [St.exec] at he
    split at he
    case isFalse => cases he
    case isTrue h =>
      subst h; simp only [Option.some.injEq] at he; subst he
      have hit : it ≠ none := fun e => by simpa using it0.mp e
      exact ⟨by simpa using hit, rfl, by simpa [passed_snoc] using cbs, by simpa using inv, by simp, by simpa using refs, null, by simp, by simp⟩
  | onReady k =>
    simp only [St.exec] at he
    split at he
    · cases he
    · split at he
      · next h1 h2 =>
        simp only [Option.some.injEq] at he; subst he
        have hit : pc ≠ .idle := fun e => by rw [it0.mpr e] at h2; simp at h2
        refine ⟨it0, rfl, ?_, inv, bat, refs, null, fun e => absurd e hit, deadp⟩
        simp only [passed_snoc, ← List.append_assoc]; exact cbs.append_right [k]
      · next h1 h2 =>
        have hit : it = none := by simpa using h2
        have hpc := it0.mp hit
        subst hpc hit
        obtain ⟨rfl, rfl⟩ := ret rfl
        simp only [Option.some.injEq] at he; subst he
        refine ⟨it0, rfl, ?_, by simp, bat, by simpa using refs, null, by simp, deadp⟩
        simp only [passed_snoc, List.append_nil, Option.toList_some] at cbs ⊢; exact cbs.append_right [k]
  | block =>
    simp only [St.exec] at he
    split at he
    case isFalse => cases he
    case isTrue h =>
      simp only [Option.some.injEq] at he; subst he
      exact ⟨it0, rfl, by simpa [passed_snoc] using cbs, inv, bat, refs, null, ret, deadp⟩
  | wake =>
    simp only [St.exec] at he
    split at he
    case isFalse => cases he
    case isTrue h =>
      simp only [Option.some.injEq] at he; subst he
      exact ⟨it0, rfl, by simpa [passed_snoc] using cbs, inv, bat, refs, null, ret, deadp⟩
  | release =>
    simp only [St.exec] at he
    split at he
    case isTrue => cases he
    case isFalse hd =>
      cases it with
      | none => simp at he
      | some b =>
        have hpc : pc ≠ .idle := fun e => by simpa using it0.mpr e
        cases b with
        | true =>
          simp only [Option.some.injEq] at he; subst he
          refine ⟨by simpa using hpc, rfl, by simpa [passed_snoc] using cbs, inv, bat, ?_, by simp, ret, deadp⟩
          simp [hpc] at refs ⊢; omega
        | false =>
          simp only [Option.some.injEq] at he; subst he
          exact ⟨it0, rfl, by simpa [passed_snoc] using cbs, inv, bat, refs, null, ret, deadp⟩
  | drop =>
    simp only [St.exec] at he
    split at he
    case isFalse => cases he
    case isTrue h =>
      simp only [Option.some.injEq] at he; subst he
      refine ⟨it0, rfl, by simpa [passed_snoc] using cbs, inv, bat, ?_, null, ret, deadp⟩
      simp only at refs ⊢; omega
  | destroy =>
    simp only [St.exec] at he
    split at he
    case isFalse => cases he
    case isTrue h =>
      obtain ⟨h1, h2, h3⟩ := h
      have hpc : pc ≠ .idle := fun e => by subst e; simp at h2
      match it, he with
      | none, he => exact absurd (it0.mp rfl) hpc
      | some true, he =>
        simp only [Option.some.injEq] at he; subst he
        refine ⟨by simpa using hpc, rfl, by simpa [passed_snoc] using cbs, inv, bat, ?_, by simp, ret, fun _ => h2⟩
        simp [hpc] at refs ⊢; omega
      | some false, he =>
        simp only [Option.some.injEq] at he; subst he
        exact ⟨it0, rfl, by simpa [passed_snoc] using cbs, inv, bat, refs, null, ret, fun _ => h2⟩

theorem Reach.inv {item : Bool} {l : List Act} {s : St} (h : Reach item l s) : Inv item l s := by
  induction h with
  | init => exact .init item
  | step a _ he ih => exact ih.step he

theorem runs_reach {item : Bool} : ∀ (l : List Act) {l0 : List Act} {s0 s : St}, Reach item l0 s0 → s0.runs l = some s → Reach item (l0 ++ l) s
  | [], l0, s0, s, h0, h => by simp [St.runs] at h; subst h; simpa using h0
  | a :: l, l0, s0, s, h0, h => by
    simp only [St.runs] at h
    cases he : s0.exec a with
    | none => simp [he] at h
    | some s1 =>
      simp only [he] at h
      have := runs_reach l (h0.step a he) h
      simpa using this

theorem reach {item : Bool} {l : List Act} {s : St} (h : (init item).runs l = some s) : Reach item l s := by
  simpa using runs_reach l .init h

/-- A user that gives one callback at most, `k`: once the fulfilling thread is through, `k` was either handed back, and not invoked, or invoked exactly
once, with the item if there is one; before that it was not lost. -/
theorem C53_callback {item : Bool} {l : List Act} {s : St} (h : (init item).runs l = some s) {k : Nat} (hk : passed l = [k]) :
    (s.returned = [k] ∧ s.invoked = []) ∨
    (s.returned = [] ∧ s.cb = some k ∧ (s.pc = .called ∨ s.pc = .posted → s.invoked = [(k, item)]) ∧
      (s.pc = .idle ∨ s.pc = .stored ∨ s.pc = .threw → s.invoked = [])) := by
  have hi := (reach h).inv
  have hc := hi.cbs
  rw [hk] at hc
  have hinv := hi.inv
  have hret := hi.ret
  -- nothing is dropped: the one callback replaces none
  have hd : ∀ (l : List Act) (s : St), Reach item l s → (passed l).length ≤ 1 → s.dropped = [] := by
    intro l s hr
    induction hr with
    | init => intro _; rfl
    | @step l s s' a hr he ih =>
      intro hlen
      rw [passed_snoc] at hlen
      have hlen0 : (passed l).length ≤ 1 := by simp at hlen; omega
      have h0 := ih hlen0
      have hp := hr.inv.cbs
      cases a with
      | onReady k =>
        have hz : (passed l).length = 0 := by simp only [List.length_append, List.length_cons, List.length_nil] at hlen; omega
        rw [List.length_eq_zero_iff.mp hz] at hp
        have := hp.length_eq
        simp at this
        simp only [St.exec] at he
        split at he
        · cases he
        · split at he
          · simp only [Option.some.injEq] at he; subst he; exact h0
          · simp only [Option.some.injEq] at he; subst he; simp [h0, this.2.1]
      | _ =>
        simp only [St.exec] at he
        repeat' split at he
        all_goals first | cases he; done | skip
        all_goals (simp only [Option.some.injEq] at he; subst he; exact h0)
  have hdr := hd l s (reach h) (by simp [hk])
  rw [hdr] at hc
  cases hcb : s.cb with
  | none =>
    left
    rw [hcb] at hc hinv
    simp at hc
    refine ⟨hc, ?_⟩
    rw [hinv]; split <;> simp
  | some k' =>
    right
    rw [hcb] at hc hinv
    have hlen := hc.length_eq
    simp at hlen
    rw [hlen] at hc
    simp at hc; subst hc
    refine ⟨hlen, rfl, fun h => by rw [hinv, if_pos h]; rfl, fun h => ?_⟩
    rw [hinv, if_neg]
    intro h'; rcases h with h | h | h <;> rcases h' with h' | h' <;> (rw [h] at h'; cases h')

/-- The references: one for each handle that was given out (by `release` or to the callback), and one while the context has the item; none is left at
the end. -/
theorem C53_ctx_refs {item : Bool} {l : List Act} {s : St} (h : (init item).runs l = some s) :
    s.refs = s.given + (if s.it = some true ∨ (s.pc = .idle ∧ item = true) then 1 else 0) ∧
    (s.dead = true → s.refs = s.given) := by
  have hi := (reach h).inv
  refine ⟨hi.refs, ?_⟩
  have hd : ∀ (l : List Act) (s : St), Reach item l s → s.dead = true → s.it ≠ some true := by
    intro l s hr
    induction hr with
    | init => intro h; simp [init] at h
    | @step l s s' a hr he ih =>
      intro hdd
      have h1 := hr.inv.deadp
      cases a <;> simp only [St.exec] at he <;> (repeat' split at he) <;> first | cases he; done | skip
      all_goals simp only [Option.some.injEq] at he; subst he
      all_goals first | exact ih hdd | skip
      · next h => have := h1 hdd; rw [h] at this; simp at this
      · simp
      · simp
      · next h => exact fun e => h e
  intro hdead
  rw [hi.refs]
  have h1 := hd l s (reach h) hdead
  have h2 := hi.deadp hdead
  rw [if_neg]
  · rfl
  · rintro (h | ⟨h, _⟩)
    · exact h1 h
    · rw [h] at h2; simp at h2

/-- Once `set` has returned, whoever is blocked goes on; and as long as it has not thrown, it can go on. -/
theorem C53_unblocks {item : Bool} {l : List Act} {s : St} (h : (init item).runs l = some s) :
    (s.pc = .posted → ∀ n, n ≤ s.blocked → ∃ s', s.runs (List.replicate n .wake) = some s' ∧ s'.blocked = s.blocked - n) ∧
    (s.pc ≠ .threw → ∃ (steps : List Act) (s' : St), (∀ a ∈ steps, a = .store ∨ a = .callback true ∨ a = .post) ∧ s.runs steps = some s' ∧ s'.pc = .posted) := by
  have hi := (reach h).inv
  constructor
  · intro hp n hn
    have hb := hi.bat.mpr hp
    clear hi h hp
    induction n generalizing s with
    | zero => exact ⟨s, rfl, by simp⟩
    | succ n ih =>
      have : s.exec .wake = some { s with blocked := s.blocked - 1 } := by
        simp only [St.exec]; rw [if_pos ⟨hb, by omega⟩]
      simp only [List.replicate_succ, St.runs, this]
      obtain ⟨s', h1, h2⟩ := ih (s := { s with blocked := s.blocked - 1 }) (by simp only; omega) hb
      exact ⟨s', h1, by rw [h2]; simp only; omega⟩
  · intro hn
    have c3 : ∀ s : St, s.pc = .called → ∃ s', s.runs [.post] = some s' ∧ s'.pc = .posted := by
      intro s h; simp [St.runs, St.exec, h]
    have c2 : ∀ s : St, s.pc = .stored → ∃ s', s.runs [.callback true, .post] = some s' ∧ s'.pc = .posted := by
      intro s h
      have : ∃ t, s.exec (.callback true) = some t ∧ t.pc = .called := by
        simp only [St.exec, h, if_true]
        cases s.cb with
        | none => exact ⟨_, rfl, rfl⟩
        | some k => simp only; split <;> exact ⟨_, rfl, rfl⟩
      obtain ⟨t, h1, h2⟩ := this
      obtain ⟨s', h3, h4⟩ := c3 t h2
      refine ⟨s', ?_, h4⟩
      rw [St.runs, h1]; exact h3
    cases hpc : s.pc with
    | idle =>
      have h1 : s.exec .store = some { s with pc := .stored, it := some s.item } := by
        simp [St.exec, hpc]
      obtain ⟨s', h3, h4⟩ := c2 _ (rfl : ({ s with pc := .stored, it := some s.item } : St).pc = .stored)
      refine ⟨[.store, .callback true, .post], s', by simp, ?_, h4⟩
      rw [St.runs, h1]; exact h3
    | stored => obtain ⟨s', h3, h4⟩ := c2 s hpc; exact ⟨_, s', by simp, h3, h4⟩
    | called => obtain ⟨s', h3, h4⟩ := c3 s hpc; exact ⟨_, s', by simp, h3, h4⟩
    | posted => exact ⟨[], s, by simp, rfl, hpc⟩
    | threw => exact absurd hpc hn

/-- A lookup with a callback and a thread that blocks. -/
example : ((init true).runs [.onReady 7, .block, .store, .callback true, .post, .wake, .drop, .destroy]).map
    (fun s => (s.invoked, s.refs, s.given)) = some ([(7, true)], 0, 0) := by decide
/-- Ready already: the callback is handed back. -/
example : ((init true).runs [.store, .onReady 7, .callback true, .post, .release, .destroy]).map
    (fun s => (s.invoked, s.returned, s.refs, s.given)) = some ([], [7], 1, 1) := by decide

/-! What is not guaranteed. -/

/-- A second callback, as by a second `toSemiFuture` on the same handle, which is not consumed when it is not ready (Handle.h:177-201), replaces the first
one, which is then neither invoked nor handed back: its promise is broken. -/
theorem violated_second_callback : ((init true).runs [.onReady 7, .onReady 8, .store, .callback true, .post]).map
    (fun s => (s.invoked, s.returned, s.dropped)) = some ([(8, true)], [], [7]) := by decide

/-- The reference count overflows in the clone for the callback (356): `set` throws, the callback is not invoked, the baton not posted: a thread that
is blocked in wait() stays so. -/
theorem violated_overflow_in_set : ((init true).runs [.onReady 7, .block, .store, .callback false]).map
    (fun s => (s.pc, s.invoked, s.baton, s.blocked)) = some (.threw, [], false, 1) ∧
    ∀ s : St, s.pc = .threw → ∀ a s', s.exec a = some s' → s'.pc = .threw ∧ s'.baton = s.baton := by
  refine ⟨by decide, ?_⟩
  intro s h a s' he
  cases a <;> simp only [St.exec, h] at he <;> (repeat' split at he) <;> first | cases he; done | skip
  all_goals first | contradiction | skip
  all_goals (simp only [Option.some.injEq] at he; subst he; first | exact ⟨h, rfl⟩ | exact ⟨rfl, rfl⟩)

/-- "After @wait, callback is invoked" (391) is not so: the item is stored (341) before the callback is invoked (360), and `wait` returns in between.  The user
releases the item, drops the reference, and the item may be freed (no reference is left) before `set` clones the handle for the callback (356). -/
theorem violated_callback_before_release : ((init true).runs [.onReady 7, .store, .release, .drop]).map
    (fun s => (s.pc, s.refs, s.cb)) = some (.stored, 0, some 7) ∧
    ((init true).runs [.onReady 7, .store, .release, .drop, .callback true]).isSome = true := by decide

end Verif.Async.Ctx
