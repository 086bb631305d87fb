/-
Every step keeps the invariant.
-/
import Verif.Destructor.Inv
namespace Verif.Destructor

theorem pend_ram {s : State} (hi : Inv s) {it : Item} (hr : s.ram = some it) (h0 : it.refs = 0) : s.pend = false := by
  cases hp : s.pend with
  | false => rfl
  | true =>
    obtain ⟨w, hw, hq⟩ := List.any_eq_true.mp hp
    have := hi.wok w hw
    cases w with
    | rmCrit => cases hq
    | tail a b c =>
      cases c with
      | none => rw [this.2] at hr; cases hr
      | some i =>
        obtain ⟨o, e, -, h1, -⟩ := this
        rw [hr] at e; cases e; omega

theorem not_pend {s : State} (h : s.writers = []) : s.pend = false := by simp [State.pend, h]

theorem acquire_inv {s : State} (hi : Inv s) {it : Item} (hr : s.ram = some it) (n : Nat)
    (hn : ∀ w ∈ s.writers, Writer.holds it.id w = true → 1 ≤ n) :
    Inv { s with ram := some { it with refs := n } } := by
  obtain ⟨acc, one, cbs, quiet, wfq, rem, clean, tokE, ramE, tokR, wok, fil, filQ, candR, candN, ramN, evt⟩ := hi
  refine ⟨?_, one, cbs, quiet, wfq, rem, ?_, tokE, ?_, ?_, ?_, fil, filQ, ?_, candN, ?_, evt⟩
  · intro v
    have := acc v
    simpa [State.total, hr, ramCnt, Item.cnt, ramIn, Item.inNvm] using this
  · intro it' h hc
    cases h
    exact clean it hr hc
  · intro it' h hc
    cases h
    exact ramE it hr hc
  · intro h
    rcases tokR h with h | h
    · rw [hr] at h; cases h
    · exact .inr h
  · intro w hw
    have := wok w hw
    cases w with
    | rmCrit => trivial
    | tail a b c =>
      cases c with
      | none => rw [hr] at this; cases this.2
      | some i =>
        obtain ⟨o, e, h1, h2, h3⟩ := this
        rw [hr] at e; cases e
        exact ⟨_, rfl, h1, hn _ hw (by simp [Writer.holds, h1]), h3⟩
  · intro c hc it' h he
    cases h
    exact candR c hc it hr he
  · intro it' h; cases h; exact ramN it hr

theorem evictCB_inv {s : State} (hi : Inv s) {u : Nat} (hn : s.nvm = some u) :
    Inv (({ s with nvm := none } : State).evictCB u false) := by
  obtain ⟨acc, one, cbs, quiet, wfq, rem, clean, tokE, ramE, tokR, wok, fil, filQ, candR, candN, ramN, evt⟩ := hi
  have fq : ∀ f, (s.fill.map fun f => ({ f with valid := false } : Fill)) = some f → f.run ≠ none → s.queue.head? = some .lookup := by
    intro f hf hr
    cases hs : s.fill with
    | none => rw [hs] at hf; cases hf
    | some g => rw [hs] at hf; cases hf; exact filQ g hs hr
  have fv : ∀ f v, (s.fill.map fun f => ({ f with valid := false } : Fill)) = some f → f.valid = true →
      f.run = some (some v) → (none : Option Nat) = some v := by
    intro f v hf hr
    cases hs : s.fill with
    | none => rw [hs] at hf; cases hf
    | some g => rw [hs] at hf; cases hf; cases hr
  have te : s.tv → endLive false s.queue = false := fun h => endLive_mono (tokE h)
  have re : ∀ it, s.ram = some it → it.inNvm = false → s.pend = false → endLive false s.queue = false :=
    fun it a b c => endLive_mono (ramE it a b c)
  obtain ⟨next, nextId, ram, gone, cand, ev, token, queue, fill, writers, tombs, nvm, cb, removed, dtor, threw⟩ := s
  simp only [State.pend, State.tv] at *
  subst hn
  rcases ram with _ | it
  · cases removed
    · refine ⟨?_, one, cbs, quiet, wf_mono wfq, ?_, ?_, te, re, tokR, wok, fv, fq, candR, candN, ramN, evt⟩
      · intro v
        have := acc v
        simp [State.total, State.evictCB, ramCnt, ramIn, nvmCnt, List.count_cons] at this ⊢
        omega
      · intro h; cases h
      · intro it h; cases h
    · refine ⟨?_, one, cbs, quiet, wf_mono wfq, ?_, ?_, te, re, tokR, wok, fv, fq, candR, candN, ramN, evt⟩
      · intro v
        have := acc v
        simp [State.total, State.evictCB, ramCnt, ramIn, nvmCnt] at this ⊢
        omega
      · intro h; cases h
      · intro it h; cases h
  · obtain ⟨id, ver, cl, ne, refs⟩ := it
    cases cl
    · cases removed
      · refine ⟨?_, one, cbs, quiet, wf_mono wfq, ?_, ?_, te, re, tokR, wok, fv, fq, candR, candN, ramN, evt⟩
        · intro v
          have := acc v
          simp [State.total, State.evictCB, ramCnt, ramIn, nvmCnt, List.count_cons, Item.inNvm] at this ⊢
          omega
        · intro h; cases h
        · intro it h h2; cases h; cases h2
      · refine ⟨?_, one, cbs, quiet, wf_mono wfq, ?_, ?_, te, re, tokR, wok, fv, fq, candR, candN, ramN, evt⟩
        · intro v
          have := acc v
          simp [State.total, State.evictCB, ramCnt, ramIn, nvmCnt, Item.inNvm] at this ⊢
          omega
        · intro h; cases h
        · intro it h h2; cases h; cases h2
    · obtain ⟨h1, h2, h3⟩ := clean _ rfl rfl
      subst h3
      cases ne
      · refine ⟨?_, one, cbs, quiet, wf_mono wfq, ?_, ?_, te, ?_, ?_, ?_, fv, fq, ?_, candN, ?_, evt⟩
        · intro v
          have := acc v
          simp [State.total, State.evictCB, ramCnt, ramIn, nvmCnt, Item.inNvm, Item.cnt] at this ⊢
          omega
        · intro h; cases h
        · intro it h hc; cases h; exact ⟨rfl, h2, rfl⟩
        · intro it h _ _; exact endLive_no_insert h2
        · intro h
          rcases tokR h with h | h
          · cases h
          · exact .inr h
        · intro w hw
          have := wok w hw
          cases w with
          | rmCrit => trivial
          | tail a b c =>
            cases c with
            | none => cases this.2
            | some i => obtain ⟨o, e, h1, h2, h3⟩ := this; cases e; cases h3
        · intro c hc it h he; cases h; rfl
        · intro it h; cases h; have := ramN _ rfl; exact this
      · cases h1

theorem token_dead {t : Option Bool} : t.map (fun _ => false) ≠ some true := by cases t <;> simp

theorem nvmRemove_inv {s s' : State} (hi : Inv s) (wr : List Writer) (n : Nat) (hl : wr.length ≤ 1) (hw : ∀ w ∈ wr, w ∈ s.writers)
    {skip : Bool} (he : ({ s with writers := wr, tombs := n } : State).nvmRemove skip = some s') : Inv s' := by
  obtain ⟨acc, one, cbs, quiet, wfq, rem, clean, tokE, ramE, tokR, wok, fil, filQ, candR, candN, ramN, evt⟩ := hi
  obtain ⟨next, nextId, ram, gone, cand, ev, token, queue, fill, writers, tombs, nvm, cb, removed, dtor, threw⟩ := s
  simp only [State.pend, State.tv] at *
  cases skip with
  | true =>
    simp only [State.nvmRemove, if_true] at he
    split at he
    · rename_i h
      cases he
      obtain ⟨h1, h2⟩ := h
      subst h1
      have h3 := no_insert_of_any h2
      refine ⟨acc, hl, cbs, quiet, wfq, ?_, clean, fun h => absurd h token_dead, ?_, fun h => absurd h token_dead,
        fun w h => wok w (hw w h), fil, filQ, candR, candN, ramN, evt⟩
      · intro h; cases (rem h).1
      · intro it _ _ _; exact endLive_no_insert h3
    · cases he
  | false =>
    simp only [State.nvmRemove, Bool.false_eq_true, if_false] at he
    cases he
    refine ⟨?_, hl, cbs, quiet, wf_append_remove wfq, ?_, ?_, fun h => absurd h token_dead, ?_, fun h => absurd h token_dead,
      fun w h => wok w (hw w h), fil, ?_, candR, candN, ramN, evt⟩
    · intro v
      have := acc v
      simp [State.total, Job.own] at this ⊢
      omega
    · intro h; exact ⟨(rem h).1, .inl (by simp)⟩
    · intro it h hc
      obtain ⟨a, b, c⟩ := clean it h hc
      refine ⟨a, ?_, c⟩
      intro v hv
      simp at hv
      exact b v hv
    · intro it _ _ _; exact endLive_append_remove
    · intro f h1 h2
      have := filQ f h1 h2
      cases queue with
      | nil => cases this
      | cons x l => exact this

theorem if_succ (v n : Nat) : (if v < n + 1 then 1 else 0) = (if v < n then 1 else 0) + (if n = v then 1 else 0) := by
  repeat' split
  all_goals omega

theorem insert_inv {s : State} (hi : Inv s) (hw : s.writers = []) :
    Inv (({ s with next := s.next + 1, nextId := s.nextId + 1 } : State).insertCrit
      { id := s.nextId, ver := s.next, clean := false, nvmEv := false, refs := 1 }) := by
  obtain ⟨acc, one, cbs, quiet, wfq, rem, clean, tokE, ramE, tokR, wok, fil, filQ, candR, candN, ramN, evt⟩ := hi
  obtain ⟨next, nextId, ram, gone, cand, ev, token, queue, fill, writers, tombs, nvm, cb, removed, dtor, threw⟩ := s
  simp only [State.pend, State.tv] at *
  subst hw
  have cr : ∀ c ∈ cand, ∀ it, some ({ id := nextId, ver := next, clean := false, nvmEv := false, refs := 1 } : Item) = some it →
      c = (it.id, true) → it.inNvm = false := by intro c hc it h _; cases h; rfl
  have cn : ∀ c ∈ cand, c.1 < nextId + 1 := fun c hc => Nat.lt_succ_of_lt (candN c hc)
  have rn : ∀ it, some ({ id := nextId, ver := next, clean := false, nvmEv := false, refs := 1 } : Item) = some it →
      it.id < nextId + 1 := by intro it h; cases h; exact Nat.lt_succ_self _
  rcases ram with _ | o
  · refine ⟨?_, Nat.le_refl _, cbs, quiet, wfq, ?_, ?_, tokE, ?_, ?_, ?_, fil, filQ, cr, cn, rn, evt⟩
    · intro v
      have hx := if_succ v next
      have := acc v
      refine Eq.trans ?_ hx.symm
      simp only [State.total, State.insertCrit, ramCnt, ramIn, nvmCnt, Item.inNvm, Item.cnt] at this ⊢
      rw [← this]
      simp
      omega
    · intro h; exact ⟨(rem h).1, .inr rfl⟩
    · intro it h hc; cases h; cases hc
    · intro it h _ hp; cases hp
    · intro h; right; rfl
    · intro w h; cases List.mem_singleton.mp h; exact ⟨_, rfl, rfl, Nat.le_refl _, rfl⟩
  · refine ⟨?_, Nat.le_refl _, cbs, quiet, wfq, ?_, ?_, tokE, ?_, ?_, ?_, fil, filQ, cr, cn, rn, evt⟩
    · intro v
      have hx := if_succ v next
      have := acc v
      refine Eq.trans ?_ hx.symm
      obtain ⟨id, ver, cl, ne, refs⟩ := o
      simp only [State.total, State.insertCrit, ramCnt, ramIn, nvmCnt, Item.inNvm, Item.cnt, List.countP_cons] at this ⊢
      rw [← this]
      cases cl <;> cases ne <;> cases removed <;> cases nvm <;> simp <;> omega
    · intro h
      cases hin : o.inNvm with
      | false =>
        have h' : removed = true := by simpa [State.insertCrit, hin] using h
        have := rem h'
        refine ⟨this.1, .inl ?_⟩; rcases this.2 with h | h
        · exact h
        · cases h
      | true =>
        have hc : o.clean = true ∧ o.nvmEv = false := by simpa [Item.inNvm] using hin
        have := (clean o rfl hc.1).1
        rw [hc.2] at this
        subst this
        exact ⟨rfl, .inr (by simp [State.pend, State.insertCrit, Writer.pend, hc.1])⟩
    · intro it h hc; cases h; cases hc
    · intro it h _ hp
      have hc : o.clean = false := by
        cases h : o.clean with
        | false => rfl
        | true => simp [State.pend, State.insertCrit, Writer.pend, h] at hp
      exact ramE o rfl (by simp [Item.inNvm, hc]) rfl
    · intro h
      rcases tokR h with h | h <;> cases h
    · intro w h; cases List.mem_singleton.mp h; exact ⟨_, rfl, rfl, Nat.le_refl _, rfl⟩

theorem removeCrit_inv {s : State} (hi : Inv s) (hw : s.writers = [.rmCrit]) :
    Inv { s.removeCrit.1 with writers := [s.removeCrit.2] } := by
  obtain ⟨acc, one, cbs, quiet, wfq, rem, clean, tokE, ramE, tokR, wok, fil, filQ, candR, candN, ramN, evt⟩ := hi
  obtain ⟨next, nextId, ram, gone, cand, ev, token, queue, fill, writers, tombs, nvm, cb, removed, dtor, threw⟩ := s
  simp only [State.pend, State.tv] at *
  subst hw
  rcases ram with _ | o
  · refine ⟨acc, Nat.le_refl _, cbs, quiet, wfq, ?_, ?_, tokE, ?_, ?_, ?_, fil, filQ, candR, candN, ramN, evt⟩
    · intro h; exact ⟨(rem h).1, .inr rfl⟩
    · intro it h hc; cases h
    · intro it h _ hp; cases hp
    · intro h; right; rfl
    · intro w h; cases List.mem_singleton.mp h; exact ⟨rfl, rfl⟩
  · refine ⟨?_, Nat.le_refl _, cbs, quiet, wfq, ?_, ?_, tokE, ?_, ?_, ?_, fil, filQ, ?_, candN, ?_, evt⟩
    · intro v
      have := acc v
      obtain ⟨id, ver, cl, ne, refs⟩ := o
      refine Eq.trans ?_ this
      clear this
      simp only [State.total, State.removeCrit, ramCnt, ramIn, nvmCnt, Item.inNvm, Item.cnt, List.countP_cons]
      cases cl <;> cases ne <;> cases removed <;> cases nvm <;> simp <;> omega
    · intro h
      cases hin : o.inNvm with
      | false =>
        have h' : removed = true := by simpa [State.removeCrit, hin] using h
        have := rem h'
        refine ⟨this.1, .inl ?_⟩; rcases this.2 with h | h
        · exact h
        · cases h
      | true =>
        have hc : o.clean = true ∧ o.nvmEv = false := by simpa [Item.inNvm] using hin
        have := (clean o rfl hc.1).1
        rw [hc.2] at this
        subst this
        exact ⟨rfl, .inr (by simp [State.pend, State.removeCrit, Writer.pend, hc.1])⟩
    · intro it h hc; cases h
    · intro it h _ hp; cases h
    · intro h; left; rfl
    · intro w h; cases List.mem_singleton.mp h; exact ⟨rfl, rfl⟩
    · intro c _ it h; cases h
    · intro it h; cases h

theorem mutate_inv {s : State} (hi : Inv s) (hw : s.writers = []) {it : Item} (hr : s.ram = some it) (h1 : 0 < it.refs)
    (h2 : it.clean = true) :
    Inv { s with ram := some { it with clean := false }, removed := s.removed || it.inNvm,
                 writers := .tail true false (some it.id) :: s.writers } := by
  obtain ⟨acc, one, cbs, quiet, wfq, rem, clean, tokE, ramE, tokR, wok, fil, filQ, candR, candN, ramN, evt⟩ := hi
  obtain ⟨next, nextId, ram, gone, cand, ev, token, queue, fill, writers, tombs, nvm, cb, removed, dtor, threw⟩ := s
  simp only [State.pend, State.tv] at *
  subst hw hr
  obtain ⟨id, ver, cl, ne, refs⟩ := it
  dsimp only at h1 h2
  subst h2
  obtain ⟨a, b, c⟩ := clean _ rfl rfl
  dsimp only at a b c
  subst a c
  refine ⟨?_, Nat.le_refl _, cbs, quiet, wfq, ?_, ?_, tokE, ?_, ?_, ?_, fil, filQ, ?_, candN, ?_, evt⟩
  · intro v
    have := acc v
    simp [State.total, ramCnt, ramIn, nvmCnt, Item.inNvm, Item.cnt] at this ⊢
    cases ne <;> simp at this ⊢ <;> omega
  · intro h
    cases ne
    · exact ⟨rfl, .inr rfl⟩
    · cases h
  · intro it h hc; cases h; cases hc
  · intro it h _ hp; cases hp
  · intro h; right; rfl
  · intro w h; cases List.mem_singleton.mp h; exact ⟨_, rfl, rfl, h1, rfl⟩
  · intro c _ it h _; cases h; rfl
  · intro it h; cases h; have := ramN _ rfl; exact this

end Verif.Destructor
