import Verif.Async.Step
namespace Verif.Async
open Verif.Destructor (countP_erase countP_set')

variable {c : Cfg} {s s' : State}

/-- All who wait for a move. -/
def State.waiting (s : State) : List Waiter := s.map.flatMap (·.ws)

/-- wakeUpWaiters finds all who wait. -/
theorem Inv.wakeUp_spec (hi : Inv s) {L : List Mover} {h : Option Nat} (hh : ∀ b, h = some b → (s.mem b).isSome)
    (he : ({ s with movers := L } : State).wakeUp c h = some s') :
    Woken c { s with movers := L, map := [] } s.waiting h s' := by
  have hf := hi.found
  have hl := hi.len
  have hf' : ({ s with movers := L } : State).entry = s.map.head? := hf
  unfold State.wakeUp at he
  rw [hf'] at he
  cases hm : s.map with
  | nil =>
    simp only [hm, List.head?_nil, Option.some.injEq] at he; subst he
    refine ⟨rfl, rfl, rfl, rfl, rfl, rfl, rfl, ?_, ⟨[], by simp, ⟨[], by simp, by simp, by simp [State.waiting, hm]⟩, by simp⟩, rfl⟩
    intro x
    by_cases hx : h = some x
    · rw [if_pos hx]
      obtain ⟨it, hit⟩ := Option.isSome_iff_exists.mp (hh x hx)
      exact ⟨it, 0, hit, hit, rfl⟩
    · rw [if_neg hx]; exact ⟨rfl, rfl⟩
  | cons e l =>
    rw [hm] at hl
    have : l = [] := by simpa using hl
    subst this
    simp only [hm, List.head?_cons] at he
    have := wake_spec he
    simpa [State.waiting, hm] using this

/-- The state after the waiters were woken up and the mover's handle released. -/
theorem Inv.woken (hi : Inv s) {i a : Nat} {m : Mover} {h : Option Nat} (hmv : s.movers[i]? = some m)
    (ho : ∀ x, m.owns x = (a == x)) (h1 : ∀ x, m.marks x = false) (h2 : ∀ x, m.first x = false) (h3 : ∀ x, m.holds x = (h == some x))
    {t : State} (hw : Woken c { s with movers := s.movers.set i (.woke a), map := [] } s.waiting h t) :
    Inv (match h with | some b => t.unref b | none => t) := by
  have hcn : ∀ x, t.movers.countP (Mover.owns x) = s.movers.countP (Mover.owns x) ∧
      t.movers.countP (Mover.marks x) = s.movers.countP (Mover.marks x) ∧
      t.movers.countP (Mover.first x) = s.movers.countP (Mover.first x) ∧
      t.movers.countP (Mover.holds x) + (if h = some x then 1 else 0) = s.movers.countP (Mover.holds x) := by
    intro x
    obtain ⟨c1, c2, c3, c4, -⟩ := cnts_set (.woke a) hmv x
    have w1 : Mover.owns x (.woke a) = (a == x) := rfl
    have w2 : Mover.marks x (.woke a) = false := rfl
    have w3 : Mover.first x (.woke a) = false := rfl
    have w4 : Mover.holds x (.woke a) = false := rfl
    rw [ho, w1] at c1
    rw [h1, w2] at c2
    rw [h2, w3] at c3
    rw [h3, w4] at c4
    rw [hw.movers]
    simp at c2 c3 c4
    refine ⟨by simp only; omega, by simpa using c2, by simpa using c3, by simpa using c4⟩
  have hch : ∀ m ∈ t.movers, m.chained = false := by rw [hw.movers]; exact noch_set hi.noch rfl
  cases h with
  | none =>
    simp only
    refine ⟨fun x => ?_, hch, by simp [hw.map], by simp [hw.map]⟩
    · obtain ⟨q1, q2, q3, q4⟩ := hcn x
      have hm := hw.mem x
      simp at hm q4
      refine ⟨?_, ?_⟩
      · rw [hm.1, q1, hm.2, q4, hw.index]; exact (hi.addr x).free
      · rw [hm.1, q1, hm.2, q4, hw.index, q2, q3, hw.spell]; exact (hi.addr x).used
  | some b =>
    have hb := hw.mem b
    rw [if_pos rfl] at hb
    obtain ⟨it, k, hb1, hb2, hb3⟩ := hb
    simp only at hb1 hb3
    have hu : t.unref b = { t with mem := upd t.mem b (some { it with refs := it.refs + k - 1 }) } := by
      simp [State.unref, hb2]
    simp only [hu]
    have hpos : 1 ≤ s.movers.countP (Mover.holds b) := cnt_ge hmv _ (by simp [h3])
    refine ⟨fun x => ?_, hch, by simp [hw.map], by simp [hw.map]⟩
    · obtain ⟨q1, q2, q3, q4⟩ := hcn x
      have hx := hi.addr x
      by_cases hxb : x = b
      · subst hxb
        refine ⟨by simp, ?_⟩
        intro it' hit'
        simp at hit'; subst hit'
        obtain ⟨u1, u2, u3, u4, u5, u6⟩ := hx.used it hb1
        simp at q4
        simp only [q1, q2, q3, hw.index, hw.spell, hb3]
        refine ⟨u1, by omega, u3, u4, ?_, u6⟩
        intro e; have := u5 e; omega
      · have hne : ¬ some b = some x := fun e => hxb (Option.some.inj e).symm
        have hm := hw.mem x
        rw [if_neg hne] at hm q4
        simp only at hm
        refine ⟨?_, ?_⟩
        · simp only [upd_ne _ _ hxb, hm.1, q1, hm.2, hw.index]
          have := hx.free
          rwa [show t.movers.countP (Mover.holds x) = s.movers.countP (Mover.holds x) from q4]
        · simp only [upd_ne _ _ hxb, hm.1, q1, hm.2, hw.index, q2, q3, hw.spell]
          rw [show t.movers.countP (Mover.holds x) = s.movers.countP (Mover.holds x) from q4]; exact hx.used

theorem Inv.holdsAlloc (hi : Inv s) {i b : Nat} {m : Mover} (hmv : s.movers[i]? = some m) (hb : m.holds b = true) : (s.mem b).isSome := by
  cases hm : s.mem b with
  | none => have := ((hi.addr b).free hm).2.2.1; have := cnt_ge hmv _ hb; omega
  | some it => rfl

theorem Inv.mvWake_spec (hi : Inv s) {i : Nat} (h : s.exec c (.mvWake i) = some s') : ∃ (a b : Nat) (t : State),
    s.movers[i]? = some (.unmarked a b) ∧ s' = t.unref b ∧
    Woken c { s with movers := s.movers.set i (.woke a), map := [] } s.waiting (some b) t := by
  simp only [State.exec] at h
  split at h
  case h_2 => cases h
  case h_1 a b hmv =>
    obtain ⟨t, ht, rfl⟩ := Option.map_eq_some_iff.mp h
    refine ⟨a, b, t, hmv, rfl, hi.wakeUp_spec ?_ ht⟩
    rintro x ⟨⟩; exact hi.holdsAlloc hmv (by simp [Mover.holds])

theorem Inv.mvWake (hi : Inv s) {i : Nat} (h : s.exec c (.mvWake i) = some s') : Inv s' := by
  obtain ⟨a, b, t, hmv, rfl, hw⟩ := hi.mvWake_spec h
  exact hi.woken hmv (fun _ => rfl) (fun _ => rfl) (fun _ => rfl) (fun x => by simp [Mover.holds]) hw

theorem Inv.evWake_spec (hi : Inv s) {i : Nat} (h : s.exec c (.evWake i) = some s') : ∃ a : Nat,
    s.movers[i]? = some (.evicting a) ∧ Woken c { s with movers := s.movers.set i (.woke a), map := [] } s.waiting none s' := by
  simp only [State.exec] at h
  split at h
  case h_2 => cases h
  case h_1 a hmv => exact ⟨a, hmv, hi.wakeUp_spec (by simp) h⟩

theorem Inv.evWake (hi : Inv s) {i : Nat} (h : s.exec c (.evWake i) = some s') : Inv s' := by
  obtain ⟨a, hmv, hw⟩ := hi.evWake_spec h
  exact hi.woken hmv (fun _ => rfl) (fun _ => rfl) (fun _ => rfl) (fun x => by simp [Mover.holds]) hw

theorem nvmEnd_spec {o : Option Nat} (h : s.exec c (.nvmEnd o) = some s') : ∃ l, s.fill = some l ∧
    match o with
    | none => Woken c { s with fill := none } l none s'
    | some b => s.index = none ∧ s.mem b = none ∧ ∃ t : State, s' = t.unref b ∧
        Woken c { s with fill := none, mem := upd s.mem b (some { ver := s.nextV, refs := 1 }), spell := upd s.spell b true,
                         index := some b, nextV := s.nextV + 1 } l (some b) t := by
  simp only [State.exec] at h
  cases hf : s.fill with
  | none => simp [hf] at h
  | some l =>
    refine ⟨l, rfl, ?_⟩
    cases o with
    | none => simp only [hf] at h; exact wake_spec h
    | some b =>
      simp only [hf] at h
      split at h
      · next hc =>
        obtain ⟨t, ht, rfl⟩ := Option.map_eq_some_iff.mp h
        exact ⟨hc.1, by simpa using hc.2, t, rfl, wake_spec ht⟩
      · cases h

theorem Inv.nvmEnd (hi : Inv s) {o : Option Nat} (h : s.exec c (.nvmEnd o) = some s') : Inv s' := by
  obtain ⟨l, hf, h⟩ := nvmEnd_spec h
  cases o with
  | none =>
    simp only at h
    refine ⟨fun x => ?_, by rw [h.movers]; exact hi.noch, by rw [h.map]; exact hi.len, by rw [h.map, h.movers]; exact hi.ent⟩
    · have hm := h.mem x
      simp at hm
      refine ⟨?_, ?_⟩
      · rw [hm.1, h.movers, hm.2, h.index]; exact (hi.addr x).free
      · rw [hm.1, h.movers, hm.2, h.index, h.spell]; exact (hi.addr x).used
  | some b =>
    obtain ⟨hx, hb, t, rfl, hw⟩ := h
    have hbm := hw.mem b
    rw [if_pos rfl] at hbm
    obtain ⟨it, k, hb1, hb2, hb3⟩ := hbm
    simp at hb1 hb3
    subst hb1
    have hu : t.unref b = { t with mem := upd t.mem b (some { ver := s.nextV, refs := 1 + k - 1 }) } := by
      simp [State.unref, hb2]
    rw [hu]
    obtain ⟨f1, f2, f3, f4⟩ := (hi.addr b).free hb
    refine ⟨fun x => ?_, by simp only [hw.movers]; exact hi.noch, by simp only [hw.map]; exact hi.len,
      by simp only [hw.map, hw.movers]; exact hi.ent⟩
    by_cases hxb : x = b
    · subst hxb
      refine ⟨by simp, ?_⟩
      intro it' hit'
      simp at hit'; subst hit'
      have m1 := first_le_marks s.movers x
      have m2 := marks_le_waker s.movers x
      have m3 := waker_le_owns s.movers x
      simp only [hw.movers, hw.index, hw.spell, hb3]
      refine ⟨by simp, by omega, by omega, ?_, by omega, fun _ => by omega⟩
      simp; omega
    · have hm := hw.mem x
      rw [if_neg (fun e => hxb (Option.some.inj e).symm)] at hm
      simp only [upd_ne _ _ hxb] at hm
      have hxx := hi.addr x
      refine ⟨?_, ?_⟩
      · intro hmm
        simp only [upd_ne _ _ hxb, hm.1] at hmm
        obtain ⟨g1, g2, g3, g4⟩ := hxx.free hmm
        simp only [hw.movers, hw.index, hm.2]
        exact ⟨g1, g2, g3, fun e => hxb (Option.some.inj e).symm⟩
      · intro it' hit'
        simp only [upd_ne _ _ hxb, hm.1] at hit'
        obtain ⟨u1, u2, u3, u4, u5, u6⟩ := hxx.used it' hit'
        simp only [hw.movers, hw.index, hm.2, hw.spell, upd_ne _ _ hxb]
        exact ⟨u1, u2, u3, u4, u5, fun e => absurd (Option.some.inj e).symm hxb⟩

theorem Inv.noChSteps (hi : Inv s) (hc : c.noChained = true) (i : Nat) : s.exec c (.chUnmark i) = none ∧ s.exec c (.chFind i) = none ∧
    s.exec c (.chGot i) = none ∧ s.exec c (.chWake i) = none := by
  have hn : ∀ m, s.movers[i]? = some m → m.chained = false := fun m hm => hi.noch m (List.mem_of_getElem? hm)
  refine ⟨by simp [State.exec, hc], ?_, ?_, ?_⟩
  all_goals
    simp only [State.exec]
    split
    · next h => exact absurd (hn _ h) (by simp [Mover.chained])
    · rfl

theorem Inv.step (hc : c.noChained = true) (hi : Inv s) (a : Act) (h : s.exec c a = some s') : Inv s' := by
  cases a with
  | insert b => exact hi.insert h
  | unlink => exact hi.unlink h
  | find => exact hi.find h
  | release b => exact hi.release h
  | free a => exact hi.free' h
  | scribble a => exact hi.scribble h
  | mark => exact hi.mark h
  | mvReplace i b => exact hi.mvReplace h
  | mvUnmark i => exact hi.mvUnmark h
  | mvWake i => exact hi.mvWake h
  | mvFree i => exact hi.mvFree h
  | mvEvict i => exact hi.mvEvict h
  | evWake i => exact hi.evWake h
  | chUnmark i => simp [(hi.noChSteps hc i).1] at h
  | chFind i => simp [(hi.noChSteps hc i).2.1] at h
  | chGot i => simp [(hi.noChSteps hc i).2.2.1] at h
  | chWake i => simp [(hi.noChSteps hc i).2.2.2] at h
  | nvmFind => exact hi.nvmFind h
  | nvmEnd b => exact hi.nvmEnd h

theorem Reach.inv (hc : c.noChained = true) (h : Reach c s) : Inv s := by
  induction h with
  | init => exact .init
  | step a _ he ih => exact ih.step hc a he

end Verif.Async
