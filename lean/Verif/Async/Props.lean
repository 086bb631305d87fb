import Verif.Async.Recent
/-!
C53: a lookup that has to wait — for an item that is moved, or for NVM — completes, exactly once, with a value that was the key's value
at some time since the lookup began; its reference is its own.
-/
namespace Verif.Async

namespace Spec

/-- The value of the key: that of the item in the index. -/
def value (s : State) : Option Nat :=
  match s.index with
  | none => none
  | some a =>
    match s.mem a with
    | none => none
    | some it => some it.ver

/-- Everyone that ever had to wait: those with an answer, those that were forgotten, those that wait for a move, those that wait for NVM. -/
def everyone (s : State) : List Nat :=
  (s.got.map fun p => p.1.id) ++ (s.lost.map fun w => w.id) ++ ((s.map.map fun e => e.ws.map fun w => w.id).flatten) ++
    (match s.fill with | none => [] | some l => l.map fun w => w.id)

/-- A thread moves (or evicts) the item at `a`, and has yet to wake up those that wait. -/
def busy (a : Nat) (m : Mover) : Prop := m = .moving a ∨ (∃ b, m = .moved a b) ∨ (∃ b, m = .unmarked a b) ∨ m = .evicting a

/-- The thread's own next steps. -/
def own (i : Nat) : Act → Prop
  | .mvUnmark j => j = i
  | .mvWake j => j = i
  | .mvEvict j => j = i
  | .evWake j => j = i
  | _ => False

/-- The handle that the thread itself has. -/
def holdsItem (b : Nat) : Mover → Bool
  | .moved _ x => x == b
  | .unmarked _ x => x == b
  | _ => false

end Spec

theorem runs_run {c : Cfg} : ∀ (l : List Act) {l0 : List Act} {s0 s : State}, Run c l0 s0 → s0.runs c l = some s → Run c (l0 ++ l) s
  | [], l0, s0, s, h0, h => by simp [State.runs] at h; subst h; simpa using h0
  | a :: l, l0, s0, s, h0, h => by
    simp only [State.runs] at h
    cases he : s0.exec c a with
    | none => simp [he] at h
    | some s1 =>
      simp only [he] at h
      have := runs_run l (h0.step a he) h
      simpa using this

theorem run_runs {c : Cfg} {l : List Act} {s : State} (h : Run c l s) : State.runs c {} l = some s := by
  have app : ∀ (l : List Act) (s0 : State) (a : Act), s0.runs c (l ++ [a]) = (s0.runs c l).bind (·.exec c a) := by
    intro l
    induction l with
    | nil => intro s0 a; simp [State.runs]; cases s0.exec c a <;> rfl
    | cons b l ih =>
      intro s0 a
      simp only [List.cons_append, State.runs]
      cases s0.exec c b with
      | none => rfl
      | some s1 => exact ih s1 a
  induction h with
  | init => rfl
  | step a h he ih => rw [app, ih]; exact he

theorem reach_of_runs {c : Cfg} {l : List Act} {s : State} (h : State.runs c {} l = some s) : Run c l s := by
  simpa using runs_run l .init h

section
variable {c : Cfg} {acts : List Act} {s : State}

/-- Each lookup that had to wait is in exactly one place: it has its answer, once, or it is still waited for (or it was forgotten, which
needs an overflow of a reference count). -/
theorem C53_once_partial (hc : c.noChained = true) (h : State.runs c {} acts = some s) :
    (Spec.everyone s).Nodup ∧ (∀ i, i ∈ Spec.everyone s ↔ i < s.nextW) ∧ (c.noOverflow = true → s.lost = []) := by
  have ha := (reach_of_runs h).reach.acct hc
  have he : Spec.everyone s = s.places.map (·.id) := by
    simp only [Spec.everyone, State.places, State.waiting, List.map_append, List.map_map, Function.comp_def, List.map_flatMap]
    congr 1
    cases s.fill <;> rfl
  rw [he]
  exact ⟨ha.ids.nodup_iff.mpr List.nodup_range, fun i => by rw [ha.ids.mem_iff]; exact List.mem_range, ha.lost⟩

/-- An answer is not changed or taken back. -/
theorem C53_final_partial (hc : c.noChained = true) (h : State.runs c {} acts = some s) {a : Act} {s' : State} (he : s.exec c a = some s') :
    ∀ p ∈ s.got, p ∈ s'.got := by
  have := ((reach_of_runs h).reach.inv hc).eff hc a he
  intro p hp
  cases this with
  | same _ _ h3 => rw [h3]; exact hp
  | join _ _ _ _ _ _ _ h3 => rw [h3]; exact hp
  | fillJoin _ _ _ h3 => rw [h3]; exact hp
  | woke _ _ _ _ h3 => rw [h3]; exact List.mem_append_left _ hp
  | filled _ _ _ _ _ _ h3 => rw [h3]; exact List.mem_append_left _ hp

/-- Those that wait for a move are found by the thread that is to wake them up, in memory that is still that of the item; and there is
such a thread. -/
theorem C53_found_partial (hc : c.noChained = true) (h : State.runs c {} acts = some s) {e : Entry} (he : e ∈ s.map) :
    s.map.find? (fun e => s.spell e.keyAt) = some e ∧ (s.mem e.keyAt).isSome ∧ ∃ (i : Nat) (m : Mover), s.movers[i]? = some m ∧ Spec.busy e.keyAt m := by
  have hi := (reach_of_runs h).reach.inv hc
  have hf := hi.found
  have hl := hi.len
  have hm : s.map = [e] := by
    cases hmp : s.map with
    | nil => simp [hmp] at he
    | cons x l =>
      rw [hmp] at hl he
      have : l = [] := by simpa using hl
      subst this; simp at he; rw [he]
  have hpos := hi.ent e he
  obtain ⟨m, hmm, hw⟩ := List.countP_pos_iff.mp hpos
  obtain ⟨i, hmi⟩ := List.mem_iff_getElem?.mp hmm
  refine ⟨by simpa [State.entry, hm] using hf, ?_, i, m, hmi, ?_⟩
  · cases hmem : s.mem e.keyAt with
    | none =>
      have := ((hi.addr e.keyAt).free hmem).1
      have := waker_le_owns s.movers e.keyAt
      omega
    | some it => rfl
  · unfold Spec.busy
    cases m <;> simp [Mover.waker] at hw <;> simp [hw]

theorem wake_all {s : State} {ws : List Waiter} {h : Option Nat} (hb : ∀ b, h = some b → ∃ (it : Item), s.mem b = some it ∧ it.refs + ws.length ≤ c.max) :
    ∃ s', s.wake c ws h = some s' ∧ s'.map = s.map ∧ s'.fill = s.fill ∧ (∀ w ∈ ws, ∃ r, (w, r) ∈ s'.got) ∧ (h = none → ∀ w ∈ ws, (w, none) ∈ s'.got) := by
  cases h with
  | none =>
    refine ⟨_, rfl, rfl, rfl, fun w hw => ⟨none, ?_⟩, fun _ w hw => ?_⟩
    all_goals exact List.mem_append_right _ (List.mem_map.mpr ⟨w, hw, rfl⟩)
  | some b =>
    obtain ⟨it, hit, hr⟩ := hb b rfl
    simp only [State.wake, hit, wakeLoop_room c.max ws it.refs hr]
    rw [if_neg (by simp)]
    refine ⟨_, rfl, rfl, rfl, fun w hw => ⟨some it.ver, ?_⟩, fun h => by cases h⟩
    refine List.mem_append_right _ (List.mem_map.mpr ⟨(w, true), List.mem_map.mpr ⟨w, hw, rfl⟩, rfl⟩)

/-- A thread that moves or evicts gets everyone an answer in at most two steps of its own, whatever the others do or do not do, if there is
room for the references. -/
theorem C53_finishes_partial (hc : c.noChained = true) (h : State.runs c {} acts = some s) {i a : Nat} {m : Mover} (hm : s.movers[i]? = some m)
    (hb : Spec.busy a m) (room : ∀ (b : Nat) (it : Item), s.mem b = some it → it.refs + (s.map.flatMap fun e => e.ws).length ≤ c.max) :
    ∃ (steps : List Act) (s' : State), steps.length ≤ 2 ∧ (∀ x ∈ steps, Spec.own i x) ∧ s.runs c steps = some s' ∧ s'.map = [] ∧
      ∀ e ∈ s.map, ∀ w ∈ e.ws, ∃ r, (w, r) ∈ s'.got := by
  have hi := (reach_of_runs h).reach.inv hc
  have hlt : i < s.movers.length := by
    rcases Nat.lt_or_ge i s.movers.length with h1 | h1
    · exact h1
    · rw [List.getElem?_eq_none h1] at hm; cases hm
  -- waking up
  have wk : ∀ (t : State) (L : List Mover) (o : Option Nat), Inv t → t.map = s.map → (∀ b, o = some b → ∃ (it : Item), t.mem b = some it ∧ it.refs + (s.map.flatMap (·.ws)).length ≤ c.max) →
      ∃ s', ({ t with movers := L } : State).wakeUp c o = some s' ∧ s'.map = [] ∧ ∀ e ∈ s.map, ∀ w ∈ e.ws, ∃ r, (w, r) ∈ s'.got := by
    intro t L o ht hmap hroom
    have hf := ht.found
    have hl := ht.len
    have hf' : ({ t with movers := L } : State).entry = t.map.head? := hf
    unfold State.wakeUp
    rw [hf', hmap]
    cases hmp : s.map with
    | nil => exact ⟨_, rfl, by simp [hmap, hmp], by simp⟩
    | cons e l =>
      rw [hmap, hmp] at hl
      have : l = [] := by simpa using hl
      subst this
      simp only [List.head?_cons]
      obtain ⟨s', h1, h2, _, h4, _⟩ := wake_all (c := c) (s := { t with movers := L, map := [e].erase e }) (ws := e.ws) (h := o) (by
        intro b hb
        obtain ⟨it, h1, h2⟩ := hroom b hb
        exact ⟨it, h1, by simpa [hmp] using h2⟩)
      refine ⟨s', h1, by rw [h2]; simp, ?_⟩
      intro e' he' w hw
      simp at he'; subst he'
      exact h4 w hw
  have alloc : ∀ x, Mover.owns x m = true → ∃ (it : Item), s.mem x = some it := by
    intro x hx
    have := cnt_ge hm (Mover.owns x) hx
    cases hmx : s.mem x with
    | none => have := ((hi.addr x).free hmx).1; omega
    | some it => exact ⟨it, rfl⟩
  rcases hb with rfl | ⟨b, rfl⟩ | ⟨b, rfl⟩ | rfl
  · -- evict
    obtain ⟨o, ho⟩ := alloc a (by simp [Mover.owns])
    have hex : ∃ t, s.exec c (.mvEvict i) = some t ∧ t.map = s.map ∧ t.movers = s.movers.set i (.evicting a) := by
      simp only [State.exec, hm, ho]
      split <;> exact ⟨_, rfl, rfl, rfl⟩
    obtain ⟨t, ht, hmap, hmv⟩ := hex
    obtain ⟨s', h1, h2, h3⟩ := wk t (t.movers.set i (.woke a)) none (hi.mvEvict ht) hmap (by simp)
    refine ⟨[.mvEvict i, .evWake i], s', by simp, ?_, ?_, h2, h3⟩
    · intro x hx; simp at hx; rcases hx with rfl | rfl <;> rfl
    · have hmi : t.movers[i]? = some (.evicting a) := by rw [hmv]; simp [hlt]
      have : t.exec c (.evWake i) = some s' := by simp only [State.exec, hmi]; exact h1
      simp [State.runs, ht, this]
  · -- unmark, wake up
    obtain ⟨o, ho⟩ := alloc a (by simp [Mover.owns])
    have hex : s.exec c (.mvUnmark i) = some { s with mem := upd s.mem a (some { o with moving := false }), movers := s.movers.set i (.unmarked a b) } := by
      simp only [State.exec, hm, ho]
    have hbm := hi.holdsAlloc hm (b := b) (by simp [Mover.holds])
    obtain ⟨it, hit⟩ := Option.isSome_iff_exists.mp hbm
    obtain ⟨s', h1, h2, h3⟩ := wk _ ((s.movers.set i (.unmarked a b)).set i (.woke a)) (some b) (hi.mvUnmark hex) rfl (by
      rintro x ⟨⟩
      simp only
      by_cases hx : b = a
      · subst hx; simp only [upd_same]; rw [ho] at hit; cases hit
        exact ⟨_, rfl, room b o ho⟩
      · rw [upd_ne _ _ hx]; exact ⟨it, hit, room b it hit⟩)
    refine ⟨[.mvUnmark i, .mvWake i], s'.unref b, by simp, ?_, ?_, by simpa using h2, by simpa using h3⟩
    · intro x hx; simp at hx; rcases hx with rfl | rfl <;> rfl
    · have hmi : (s.movers.set i (.unmarked a b))[i]? = some (.unmarked a b) := by simp [hlt]
      simp only [State.runs, hex]
      simp only [State.exec, hmi]
      simp only [h1, Option.map_some]
  · obtain ⟨it, hit⟩ := Option.isSome_iff_exists.mp (hi.holdsAlloc hm (b := b) (by simp [Mover.holds]))
    obtain ⟨s', h1, h2, h3⟩ := wk s (s.movers.set i (.woke a)) (some b) hi rfl (by rintro x ⟨⟩; exact ⟨it, hit, room b it hit⟩)
    refine ⟨[.mvWake i], s'.unref b, by simp, ?_, ?_, by simpa using h2, by simpa using h3⟩
    · intro x hx; simp at hx; subst hx; rfl
    · simp only [State.runs, State.exec, hm, h1, Option.map_some]
  · obtain ⟨s', h1, h2, h3⟩ := wk s (s.movers.set i (.woke a)) none hi rfl (by simp)
    refine ⟨[.evWake i], s', by simp, ?_, ?_, h2, h3⟩
    · intro x hx; simp at hx; subst hx; rfl
    · simp only [State.runs, State.exec, hm, h1]

/-- So whoever waits for a move can always be answered. -/
theorem C53_answered_partial (hc : c.noChained = true) (h : State.runs c {} acts = some s)
    (room : ∀ (b : Nat) (it : Item), s.mem b = some it → it.refs + (s.map.flatMap fun e => e.ws).length ≤ c.max) {e : Entry} (he : e ∈ s.map)
    {w : Waiter} (hw : w ∈ e.ws) :
    ∃ (i : Nat) (steps : List Act) (s' : State) (r : Option Nat), steps.length ≤ 2 ∧ (∀ x ∈ steps, Spec.own i x) ∧ s.runs c steps = some s' ∧
      (w, r) ∈ s'.got := by
  obtain ⟨_, _, i, m, hm, hb⟩ := C53_found_partial hc h he
  obtain ⟨steps, s', h1, h2, h3, _, h5⟩ := C53_finishes_partial hc h hm hb room
  obtain ⟨r, hr⟩ := h5 e he w hw
  exact ⟨i, steps, s', r, h1, h2, h3, hr⟩

/-- The end of a lookup in NVM that finds nothing answers everyone that waits for it; one that finds the item answers everyone if
there is room for the references. -/
theorem C53_nvm {l : List Waiter} (hf : s.fill = some l) :
    (∃ s', s.exec c (.nvmEnd none) = some s' ∧ s'.fill = none ∧ ∀ w ∈ l, (w, none) ∈ s'.got) ∧
    (∀ b, s.index = none → s.mem b = none → 1 + l.length ≤ c.max →
      ∃ s', s.exec c (.nvmEnd (some b)) = some s' ∧ s'.fill = none ∧ ∀ w ∈ l, ∃ r, (w, r) ∈ s'.got) := by
  constructor
  · obtain ⟨s', h1, _, h3, _, h5⟩ := wake_all (c := c) (s := { s with fill := none }) (ws := l) (h := none) (by simp)
    exact ⟨s', by simp only [State.exec, hf]; exact h1, h3, h5 rfl⟩
  · intro b hx hb hr
    obtain ⟨s', h1, _, h3, h4, _⟩ := wake_all (c := c) (s := { s with fill := none, mem := upd s.mem b (some { ver := s.nextV, refs := 1 }), spell := upd s.spell b true, index := some b, nextV := s.nextV + 1 }) (ws := l) (h := some b) (by rintro x ⟨⟩; exact ⟨_, by simp only [upd_same]; rfl, hr⟩)
    refine ⟨s'.unref b, ?_, by simpa using h3, by simpa using h4⟩
    simp only [State.exec, hf]
    rw [if_pos ⟨hx, by simp [hb]⟩]
    simp only [h1, Option.map_some]

theorem value_eq (s : State) : Spec.value s = s.value := by
  unfold Spec.value State.value
  cases s.index with
  | none => rfl
  | some a => simp only [Option.bind_some]; cases s.mem a <;> rfl

/-- With at most one move of the key's items at a time: a value that a waiting lookup returns was the key's value at some point of the
execution at or after the call. -/
theorem C53_current_partial (hc : c.noChained = true) (ho : c.oneMover = true) (h : State.runs c {} acts = some s) {w : Waiter} {v : Nat}
    (hg : (w, some v) ∈ s.got) :
    ∃ (k : Nat) (s0 : State), State.runs c {} (acts.take k) = some s0 ∧ w.id ≤ s0.nextW ∧ Spec.value s0 = some v := by
  obtain ⟨l1, l2, s0, rfl, hr, hw, hv⟩ := ((reach_of_runs h).inv3 hc ho).got _ hg v rfl
  exact ⟨l1.length, s0, by rw [List.take_left']; exact run_runs hr; rfl, hw, by rw [value_eq]; exact hv⟩

/-- The reference count of an item is that of the handles of the users and of the threads that move; what a handle points to, and what is in
the index, is allocated. -/
theorem C53_refs_partial (hc : c.noChained = true) (h : State.runs c {} acts = some s) :
    (∀ (b : Nat) (it : Item), s.mem b = some it → it.refs = s.handles.count b + s.movers.countP (Spec.holdsItem b)) ∧
    (∀ b ∈ s.handles, (s.mem b).isSome) ∧ (∀ b, s.index = some b → (s.mem b).isSome) := by
  have hi := (reach_of_runs h).reach.inv hc
  have hh : ∀ b, Spec.holdsItem b = Mover.holds b := fun b => by funext m; cases m <;> rfl
  refine ⟨fun b it hb => by rw [hh]; exact ((hi.addr b).used it hb).2.1, fun b hb => ?_, fun b hb => ?_⟩
  · cases hm : s.mem b with
    | none => have := ((hi.addr b).free hm).2.1; have := List.count_pos_iff.mpr hb; omega
    | some it => rfl
  · cases hm : s.mem b with
    | none => exact absurd hb ((hi.addr b).free hm).2.2.2
    | some it => rfl

/-- Each answer with a value comes with a handle of its own. -/
theorem C53_own_handle_partial (hc : c.noChained = true) (h : State.runs c {} acts = some s) {a : Act} {s' : State} (he : s.exec c a = some s')
    (ha : (∃ i, a = .mvWake i) ∨ (∃ i, a = .evWake i) ∨ (∃ b, a = .nvmEnd b)) :
    s'.handles.length + (s.got.filter fun p => p.2.isSome).length = s.handles.length + (s'.got.filter fun p => p.2.isSome).length := by
  have hi := (reach_of_runs h).reach.inv hc
  rcases ha with ⟨i, rfl⟩ | ⟨i, rfl⟩ | ⟨b, rfl⟩
  · obtain ⟨a, b, t, _, rfl, hw⟩ := hi.mvWake_spec he
    simpa using hw.hands
  · obtain ⟨a, _, hw⟩ := hi.evWake_spec he
    exact hw.hands
  · obtain ⟨l, _, hb⟩ := nvmEnd_spec he
    cases b with
    | none => exact hb.hands
    | some b => obtain ⟨_, _, t, rfl, hw⟩ := hb; simpa using hw.hands

end

/-! Examples. -/

structure Sum where
  got : List (Nat × Option Nat)
  waiting : List Nat
  lost : List Nat
  handles : List Nat
  movers : List Mover
  refs : List (Option (Nat × Nat))
deriving DecidableEq

def sum (s : State) : Sum :=
  { got := s.got.map fun p => (p.1.id, p.2), waiting := (s.map.flatMap fun e => e.ws.map (·.id)) ++ (s.fill.getD []).map (·.id), lost := s.lost.map (·.id), handles := s.handles,
    movers := s.movers, refs := [0, 1, 2].map fun a => (s.mem a).map fun it => (it.ver, it.refs) }

def exMove : List Act := [.insert 0, .release 0, .mark, .find, .find, .mvReplace 0 1, .mvUnmark 0]
/-- Two lookups wait for a move. -/
example : (State.runs {} {} exMove).map sum =
    some { got := [], waiting := [0, 1], lost := [], handles := [], movers := [.unmarked 0 1], refs := [some (0, 0), some (0, 1), none] } := by decide
/-- They get the moved item; the old memory is freed. -/
example : (State.runs {} {} (exMove ++ [.mvWake 0, .mvFree 0])).map sum =
    some { got := [(0, some 0), (1, some 0)], waiting := [], lost := [], handles := [1, 1], movers := [], refs := [none, some (0, 2), none] } := by decide
/-- The item is replaced while it moves: evicted, and the waiters get nothing. -/
example : (State.runs {} {} [.insert 0, .release 0, .mark, .find, .insert 1, .mvEvict 0, .evWake 0, .mvFree 0]).map sum =
    some { got := [(0, none), (1, none)], waiting := [], lost := [], handles := [1], movers := [], refs := [none, some (1, 1), none] } := by decide
/-- NVM: two lookups, one answer. -/
example : (State.runs {} {} [.nvmFind, .nvmFind, .nvmEnd (some 0), .nvmFind]).isNone = true ∧
    (State.runs {} {} [.nvmFind, .nvmFind, .nvmEnd (some 0)]).map sum =
    some { got := [(0, some 0), (1, some 0)], waiting := [], lost := [], handles := [0, 0], movers := [], refs := [some (0, 2), none, none] } := by decide

end Verif.Async
