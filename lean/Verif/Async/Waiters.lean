import Verif.Async.Step2
/-! What every step does to those who wait. -/
namespace Verif.Async
open Verif.Destructor (countP_erase countP_set')

variable {c : Cfg} {s s' : State}

theorem ver_upd {f : Nat → Option Item} {a : Nat} {o n : Item} (hm : f a = some o) (hv : n.ver = o.ver) (x : Nat) :
    (upd f a (some n) x).map (·.ver) = (f x).map (·.ver) := by
  by_cases h : x = a
  · subst h; simp [hm, hv]
  · rw [upd_ne _ _ h]

theorem Woken.vers {ws : List Waiter} {h : Option Nat} (hw : Woken c s ws h s') (x : Nat) :
    (s'.mem x).map (·.ver) = (s.mem x).map (·.ver) := by
  have := hw.mem x
  split at this
  · obtain ⟨it, k, h1, h2, _⟩ := this; simp [h1, h2]
  · rw [this.1]

theorem unref_vers (s : State) (b x : Nat) : ((s.unref b).mem x).map (·.ver) = (s.mem x).map (·.ver) := by
  unfold State.unref
  cases hm : s.mem b with
  | none => rfl
  | some it => exact ver_upd (n := { it with refs := it.refs - 1 }) hm rfl x

def State.newW (s : State) : Waiter := { id := s.nextW }

inductive Eff (c : Cfg) (s s' : State) : Prop
  | same (h1 : s'.map = s.map) (h2 : s'.fill = s.fill) (h3 : s'.got = s.got) (h4 : s'.lost = s.lost) (h5 : s'.nextW = s.nextW)
  | join (a : Nat) (o : Item) (hx : s.index = some a) (hm : s.mem a = some o) (hv : o.moving = true)
      (h1 : s'.waiting = s.waiting ++ [s.newW]) (h2 : s'.fill = s.fill) (h3 : s'.got = s.got) (h4 : s'.lost = s.lost)
      (h5 : s'.nextW = s.nextW + 1) (h6 : s'.movers = s.movers)
  | fillJoin (h0 : s.index = none) (h1 : s'.map = s.map) (h2 : s'.fill = some (s.fill.getD [] ++ [s.newW])) (h3 : s'.got = s.got) (h4 : s'.lost = s.lost)
      (h5 : s'.nextW = s.nextW + 1) (h6 : s'.movers = s.movers) (h7 : s'.mem = s.mem)
  | woke (g : List (Waiter × Option Nat)) (l : List Waiter) (h1 : s'.map = []) (h2 : s'.fill = s.fill) (h3 : s'.got = s.got ++ g)
      (h4 : s'.lost = s.lost ++ l) (h5 : s'.nextW = s.nextW) (hp : (g.map (·.1) ++ l).Perm s.waiting) (ho : c.noOverflow = true → l = [])
      (hv : ∀ p ∈ g, ∀ v, p.2 = some v → ∃ (i a b : Nat) (it : Item), s.movers[i]? = some (.unmarked a b) ∧ s.mem b = some it ∧ it.ver = v)
  | filled (q g : _) (l : List Waiter) (hq : s.fill = some q) (h1 : s'.map = s.map) (h2 : s'.fill = none) (h3 : s'.got = s.got ++ g)
      (h4 : s'.lost = s.lost ++ l) (h5 : s'.nextW = s.nextW) (hp : (g.map (·.1) ++ l).Perm q) (ho : c.noOverflow = true → l = [])
      (hv : ∀ p ∈ g, ∀ v, p.2 = some v → ∃ b, s'.index = some b ∧ (s'.mem b).map (·.ver) = some v) (h6 : s'.movers = s.movers)

theorem Inv.joined (hi : Inv s) (a : Nat) : (s.join a).waiting = s.waiting ++ [s.newW] := by
  have hf := hi.found
  have hl := hi.len
  unfold State.join
  cases hm : s.map with
  | nil => simp [hm] at hf; rw [hf]; simp [State.waiting, hm, State.newW]
  | cons e l =>
    rw [hm] at hl
    have : l = [] := by simpa using hl
    subst this
    simp [hm] at hf; rw [hf]; simp [State.waiting, hm, State.newW]

theorem Inv.eff (hc : c.noChained = true) (hi : Inv s) (a : Act) (h : s.exec c a = some s') : Eff c s s' := by
  cases a with
  | insert b =>
    simp only [State.exec] at h
    split at h
    · cases h
    · cases hx : s.index with
      | none => simp only [hx, Option.some.injEq] at h; subst h; exact .same rfl rfl rfl rfl rfl
      | some a =>
        cases hm : s.mem a with
        | none => simp [hx, hm] at h
        | some o =>
          simp only [hx, hm] at h
          split at h
          · next hv =>
            simp only [Option.some.injEq] at h; subst h
            exact .join a o hx hm hv (hi.joined a) (by simp) (by simp) (by simp) (by simp) (by simp)
          · split at h
            · simp only [Option.some.injEq] at h; subst h; exact .same rfl rfl rfl rfl rfl
            · cases h
  | unlink =>
    simp only [State.exec] at h
    repeat' split at h
    all_goals first | cases h; done | skip
    simp only [Option.some.injEq] at h; subst h; exact .same rfl rfl rfl rfl rfl
  | find =>
    simp only [State.exec] at h
    cases hx : s.index with
    | none => simp [hx] at h; subst h; exact .same rfl rfl rfl rfl rfl
    | some a =>
      cases hm : s.mem a with
      | none => simp [hx, hm] at h
      | some o =>
        simp only [hx, hm] at h
        split at h
        · next hv =>
          simp only [Option.some.injEq] at h; subst h
          exact .join a o hx hm hv (hi.joined a) (by simp) (by simp) (by simp) (by simp) (by simp)
        · split at h
          · simp only [Option.some.injEq] at h; subst h; exact .same rfl rfl rfl rfl rfl
          · cases h
  | release b =>
    simp only [State.exec] at h
    split at h
    · simp only [Option.some.injEq] at h; subst h
      exact .same (by simp) (by simp) (by simp) (by simp) (by simp)
    · cases h
  | free a =>
    simp only [State.exec] at h
    repeat' split at h
    all_goals first | cases h; done | skip
    simp only [Option.some.injEq] at h; subst h; exact .same rfl rfl rfl rfl rfl
  | scribble a =>
    simp only [State.exec] at h
    repeat' split at h
    all_goals first | cases h; done | skip
    simp only [Option.some.injEq] at h; subst h; exact .same rfl rfl rfl rfl rfl
  | mark =>
    simp only [State.exec] at h
    repeat' split at h
    all_goals first | cases h; done | skip
    simp only [Option.some.injEq] at h; subst h; exact .same rfl rfl rfl rfl rfl
  | mvReplace i b =>
    simp only [State.exec] at h
    repeat' split at h
    all_goals first | cases h; done | skip
    simp only [Option.some.injEq] at h; subst h; exact .same rfl rfl rfl rfl rfl
  | mvUnmark i =>
    simp only [State.exec] at h
    repeat' split at h
    all_goals first | cases h; done | skip
    simp only [Option.some.injEq] at h; subst h; exact .same rfl rfl rfl rfl rfl
  | mvWake i =>
    obtain ⟨a, b, t, hmv, rfl, hw⟩ := hi.mvWake_spec h
    obtain ⟨g, hg, ⟨l, hl, ho, hp⟩, hv⟩ := hw.got
    refine .woke g l (by simp [hw.map]) (by simp [hw.fill]) (by simp [hg]) (by simp [hl]) (by simp [hw.nextW]) hp ho ?_
    intro p hp v hpv
    obtain ⟨b', it, hb, hm, hver⟩ := hv p hp v hpv
    cases hb
    exact ⟨i, a, b, it, hmv, hm, hver⟩
  | mvFree i =>
    simp only [State.exec] at h
    repeat' split at h
    all_goals first | cases h; done | skip
    simp only [Option.some.injEq] at h; subst h; exact .same rfl rfl rfl rfl rfl
  | mvEvict i =>
    simp only [State.exec] at h
    split at h
    case h_2 => cases h
    case h_1 =>
      split at h
      · simp only [Option.some.injEq] at h
        split at h <;> (subst h; exact .same rfl rfl rfl rfl rfl)
      · cases h
  | evWake i =>
    obtain ⟨a, hmv, hw⟩ := hi.evWake_spec h
    obtain ⟨g, hg, ⟨l, hl, ho, hp⟩, hv⟩ := hw.got
    refine .woke g l (by simp [hw.map]) (by simp [hw.fill]) (by simp [hg]) (by simp [hl]) (by simp [hw.nextW]) hp ho ?_
    intro p hp v hpv
    obtain ⟨b', it, hb, hm, hver⟩ := hv p hp v hpv
    cases hb
  | chUnmark i => simp [(hi.noChSteps hc i).1] at h
  | chFind i => simp [(hi.noChSteps hc i).2.1] at h
  | chGot i => simp [(hi.noChSteps hc i).2.2.1] at h
  | chWake i => simp [(hi.noChSteps hc i).2.2.2] at h
  | nvmFind =>
    simp only [State.exec] at h
    split at h
    · next hx =>
      split at h
      · next hf => simp only [Option.some.injEq] at h; subst h; exact .fillJoin hx rfl (by simp [hf, State.newW]) rfl rfl rfl rfl rfl
      · next hf => simp only [Option.some.injEq] at h; subst h; exact .fillJoin hx rfl (by simp [hf, State.newW]) rfl rfl rfl rfl rfl
    · cases h
  | nvmEnd o =>
    obtain ⟨q, hq, h⟩ := nvmEnd_spec h
    cases o with
    | none =>
      simp only at h
      obtain ⟨g, hg, ⟨l, hl, ho, hp⟩, hv⟩ := h.got
      refine .filled q g l hq (by simp [h.map]) (by simp [h.fill]) (by simp [hg]) (by simp [hl]) (by simp [h.nextW]) hp ho ?_ (by simp [h.movers])
      intro p hp v hpv
      obtain ⟨b', it, hb, hm, hver⟩ := hv p hp v hpv
      cases hb
    | some b =>
      obtain ⟨_, _, t, rfl, hw⟩ := h
      obtain ⟨g, hg, ⟨l, hl, ho, hp⟩, hv⟩ := hw.got
      refine .filled q g l hq (by simp [hw.map]) (by simp [hw.fill]) (by simp [hg]) (by simp [hl]) (by simp [hw.nextW]) hp ho ?_ (by simp [hw.movers])
      intro p hp v hpv
      obtain ⟨b', it, hb, hm, hver⟩ := hv p hp v hpv
      cases hb
      simp at hm; subst hm
      simp only at hver
      exact ⟨b, by simp [hw.index], by rw [unref_vers, hw.vers]; simp [hver]⟩

/-- Where those who wait, or waited, are. -/
def State.places (s : State) : List Waiter := s.got.map (·.1) ++ s.lost ++ s.waiting ++ s.fill.getD []

structure Acct (c : Cfg) (s : State) : Prop where
  ids : (s.places.map (·.id)).Perm (List.range s.nextW)
  lost : c.noOverflow = true → s.lost = []

theorem waiting_of_map {s s' : State} (h : s'.map = s.map) : s'.waiting = s.waiting := by simp [State.waiting, h]
theorem waiting_nil {s' : State} (h : s'.map = []) : s'.waiting = [] := by simp [State.waiting, h]

theorem perm_snoc {l l' : List Nat} {n : Nat} (h : l.Perm (List.range n)) (h' : l'.Perm (l ++ [n])) : l'.Perm (List.range (n + 1)) := by
  rw [List.range_succ]; exact h'.trans (h.append_right [n])

theorem Acct.step (hi : Acct c s) (h : Eff c s s') : Acct c s' := by
  cases h with
  | same h1 h2 h3 h4 h5 =>
    refine ⟨?_, by rw [h4]; exact hi.lost⟩
    simp only [State.places, waiting_of_map h1, h2, h3, h4, h5]; exact hi.ids
  | join a o _ _ _ h1 h2 h3 h4 h5 =>
    refine ⟨?_, by rw [h4]; exact hi.lost⟩
    rw [h5]
    refine perm_snoc hi.ids ?_
    simp only [State.places, h1, h2, h3, h4, List.map_append, List.append_assoc]
    refine .append_left _ (.append_left _ (.append_left _ ?_))
    exact List.perm_append_comm
  | fillJoin _ h1 h2 h3 h4 h5 =>
    refine ⟨?_, by rw [h4]; exact hi.lost⟩
    rw [h5]
    refine perm_snoc hi.ids ?_
    simp only [State.places, waiting_of_map h1, h2, h3, h4, Option.getD_some, List.map_append, List.append_assoc]
    exact .refl _
  | woke g l h1 h2 h3 h4 h5 hp ho =>
    refine ⟨?_, fun hn => by rw [h4, hi.lost hn, ho hn]; rfl⟩
    rw [h5]
    refine List.Perm.trans ?_ hi.ids
    refine List.Perm.map _ ?_
    simp only [State.places, waiting_nil h1, h2, h3, h4, List.map_append, List.append_assoc, List.nil_append, List.append_nil]
    refine .append_left _ ?_
    refine List.Perm.trans (l₂ := s.lost ++ ((g.map (·.1) ++ l) ++ s.fill.getD [])) ?_ (.append_left _ (.append_right _ hp))
    simp only [← List.append_assoc]
    exact .append_right _ (.append_right _ List.perm_append_comm)
  | filled q g l hq h1 h2 h3 h4 h5 hp ho =>
    refine ⟨?_, fun hn => by rw [h4, hi.lost hn, ho hn]; rfl⟩
    rw [h5]
    refine List.Perm.trans ?_ hi.ids
    refine List.Perm.map _ ?_
    simp only [State.places, waiting_of_map h1, h2, h3, h4, hq, List.map_append, List.append_assoc, Option.getD_none, Option.getD_some, List.append_nil]
    refine .append_left _ ?_
    refine List.Perm.trans (l₂ := (s.lost ++ s.waiting) ++ (g.map (·.1) ++ l)) ?_ ?_
    · simp only [← List.append_assoc]
      refine List.Perm.trans (List.perm_append_comm (l₁ := g.map (·.1) ++ s.lost ++ l) (l₂ := s.waiting)) ?_
      simp only [List.append_assoc]
      refine List.Perm.trans (List.Perm.append_left s.waiting (t₂ := s.lost ++ (g.map (·.1) ++ l)) ?_) ?_
      · simp only [← List.append_assoc]; exact .append_right _ List.perm_append_comm
      · simp only [← List.append_assoc]; exact .append_right _ (.append_right _ List.perm_append_comm)
    · simp only [List.append_assoc]; exact .append_left _ (.append_left _ hp)

theorem Reach.acct (hc : c.noChained = true) (h : Reach c s) : Acct c s := by
  induction h with
  | init => exact ⟨by simp [State.places, State.waiting], by simp⟩
  | step a h he ih => exact ih.step ((h.inv hc).eff hc a he)

end Verif.Async
