/-
Every step keeps the invariant (continued).
-/
import Verif.Destructor.Step
namespace Verif.Destructor

theorem tomb_queue {s : State} (h : s.hasTomb = false) : Job.remove ∉ s.queue := by
  intro h'; simp [State.hasTomb, h'] at h

theorem tomb_writers {s : State} (h : s.hasTomb = false) : ∀ w ∈ s.writers, w.tombstone = false := by
  intro w hw
  cases hx : w.tombstone with
  | false => rfl
  | true =>
    have : s.writers.any Writer.tombstone = true := List.any_eq_true.mpr ⟨w, hw, hx⟩
    simp [State.hasTomb, this] at h

theorem mark_inv {s : State} (hi : Inv s) {it : Item} (hr : s.ram = some it) (h0 : it.refs = 0) {want tok : Bool}
    (hc : (it.id, want) ∈ s.cand) (ht : tok = true → want = true ∧ s.token = none) :
    Inv { s with ram := none, ev := { it, tok } :: s.ev, token := if tok then some true else s.token } := by
  have hp := pend_ram hi hr h0
  obtain ⟨acc, one, cbs, quiet, wfq, rem, clean, tokE, ramE, tokR, wok, fil, filQ, candR, candN, ramN, evt⟩ := hi
  obtain ⟨next, nextId, ram, gone, cand, ev, token, queue, fill, writers, tombs, nvm, cb, removed, dtor, threw⟩ := s
  simp only [State.pend, State.tv] at *
  subst hr
  have hin : tok = true → it.inNvm = false := fun h => candR _ hc it rfl (by rw [(ht h).1])
  refine ⟨?_, one, cbs, quiet, wfq, rem, ?_, ?_, ?_, fun _ => .inl rfl, ?_, fil, filQ, ?_, candN, ?_, ?_⟩
  · intro v
    refine Eq.trans ?_ (acc v)
    by_cases hn : it.inNvm = false
    · simp [State.total, ramCnt, ramIn, List.countP_cons, Item.cnt, Ev.own, hn]; omega
    · simp only [Bool.not_eq_false] at hn
      obtain ⟨h1, h2⟩ : it.clean = true ∧ it.nvmEv = false := by simpa [Item.inNvm] using hn
      obtain ⟨a, b, c⟩ := clean it rfl h1
      rw [h2] at a
      subst a c
      simp [State.total, ramCnt, ramIn, List.countP_cons, Item.cnt, Ev.own, hn, nvmCnt]
      omega
  · intro _ h; cases h
  · intro h
    cases tok with
    | false => exact tokE h
    | true => exact ramE it rfl (hin rfl) hp
  · intro _ h; cases h
  · intro w hw
    have := wok w hw
    cases w with
    | rmCrit => trivial
    | tail a b c =>
      cases c with
      | none => cases this.2
      | some i => obtain ⟨o, e, -, h1, -⟩ := this; cases e; omega
  · intro _ _ _ h; cases h
  · intro _ h; cases h
  · intro e he h1 h2
    rcases List.mem_cons.mp he with e' | e'
    · subst e'; exact hin h1
    · exact evt e e' h1 h2

theorem mem_set {α : Type} {l : List α} {i : Nat} {a x : α} (h : x ∈ l.set i a) : x ∈ l ∨ x = a := List.mem_or_eq_of_mem_set h

/-- put without an insert. -/
theorem putNo_inv {s : State} (hi : Inv s) {i : Nat} {e : Ev} (hg : s.ev[i]? = some e) {t : Option Bool}
    (ht : t = some true → s.token = some true) :
    Inv { s with ev := s.ev.set i { e with done := true }, token := t } := by
  obtain ⟨acc, one, cbs, quiet, wfq, rem, clean, tokE, ramE, tokR, wok, fil, filQ, candR, candN, ramN, evt⟩ := hi
  refine ⟨?_, one, cbs, quiet, wfq, rem, clean, fun h => tokE (ht h), ramE, fun h => tokR (ht h), wok, fil, filQ, candR, candN, ramN, ?_⟩
  · intro v
    refine Eq.trans ?_ (acc v)
    have := countP_set' (Ev.own v) (b := { e with done := true }) hg
    have h2 : Ev.own v { e with done := true } = Ev.own v e := rfl
    rw [h2] at this
    simp only [State.total]
    omega
  · intro x hx h1 h2
    rcases mem_set hx with h | h
    · exact evt x h h1 h2
    · subst h; cases h2

theorem putYes_inv {s : State} (hi : Inv s) {i : Nat} {e : Ev} (hg : s.ev[i]? = some e) (hn : e.it.inNvm = false)
    (hT : s.hasTomb = false) (ht : s.token = some true) :
    Inv { s with ev := s.ev.set i { e with it := { e.it with clean := true, nvmEv := false }, done := true }, token := none,
                 queue := s.queue ++ [.insert e.it.ver] } := by
  have hq := tomb_queue hT
  obtain ⟨acc, one, cbs, quiet, wfq, rem, clean, tokE, ramE, tokR, wok, fil, filQ, candR, candN, ramN, evt⟩ := hi
  have hE := tokE ht
  refine ⟨?_, one, cbs, quiet, wf_append_insert wfq hE, ?_, ?_, ?_, ?_, ?_, wok, fil, ?_, candR, candN, ramN, ?_⟩
  · intro v
    refine Eq.trans ?_ (acc v)
    have := countP_set' (Ev.own v) (b := { e with it := { e.it with clean := true, nvmEv := false }, done := true }) hg
    have h2 : Ev.own v { e with it := { e.it with clean := true, nvmEv := false }, done := true } = false := rfl
    have h3 : Ev.own v e = (e.it.ver == v) := by simp [Ev.own, hn]
    rw [h2, h3] at this
    simp [State.total, Job.own] at this ⊢
    omega
  · intro h
    have h' := rem h
    rw [h'.1, endLive_no_remove hq] at hE
    cases hE
  · intro it h hc
    rcases tokR ht with h' | h'
    · rw [h'] at h; cases h
    · obtain ⟨w, hw, hp⟩ := List.any_eq_true.mp h'
      have := wok w hw
      cases w with
      | rmCrit => cases hp
      | tail a b c =>
        cases c with
        | none => have h3 := this.2; dsimp only at h; rw [h3] at h; cases h
        | some j =>
          obtain ⟨o, e', h1, h2, h3⟩ := this
          dsimp only at h
          rw [h] at e'; cases e'; rw [h3] at hc; cases hc
  · intro h; cases h
  · intro it h h1 h2
    rcases tokR ht with h' | h'
    · dsimp only at h; rw [h'] at h; cases h
    · have : s.pend = false := h2
      rw [h'] at this; cases this
  · intro h; cases h
  · intro f h1 h2
    have := filQ f h1 h2
    cases hqq : s.queue with
    | nil => rw [hqq] at this; cases this
    | cons x l => rw [hqq] at this; exact this
  · intro x hx h1 h2
    rcases mem_set hx with h | h
    · exact evt x h h1 h2
    · subst h; cases h2

theorem free_inv {s : State} (hi : Inv s) {i : Nat} {e : Ev} (hg : s.ev[i]? = some e) :
    Inv (({ s with ev := s.ev.eraseIdx i } : State).freeItem true e.it) := by
  obtain ⟨acc, one, cbs, quiet, wfq, rem, clean, tokE, ramE, tokR, wok, fil, filQ, candR, candN, ramN, evt⟩ := hi
  have ht : ∀ x ∈ s.ev.eraseIdx i, x.tok = true → x.done = false → x.it.inNvm = false :=
    fun x hx => evt x (List.mem_of_mem_eraseIdx hx)
  have hc := fun v => countP_erase (Ev.own v) hg
  cases hn : e.it.inNvm with
  | true =>
    have : (({ s with ev := s.ev.eraseIdx i } : State).freeItem true e.it) = { s with ev := s.ev.eraseIdx i } := by
      have : skipDtor true e.it = true := by simpa [skipDtor, Item.inNvm] using hn
      simp [State.freeItem, this]
    rw [this]
    refine ⟨?_, one, cbs, quiet, wfq, rem, clean, tokE, ramE, tokR, wok, fil, filQ, candR, candN, ramN, ht⟩
    intro v
    refine Eq.trans ?_ (acc v)
    have h3 : Ev.own v e = false := by simp [Ev.own, hn]
    have := hc v
    rw [h3] at this
    simp [State.total] at this ⊢
    omega
  | false =>
    have : (({ s with ev := s.ev.eraseIdx i } : State).freeItem true e.it)
        = { s with ev := s.ev.eraseIdx i, dtor := e.it.ver :: s.dtor } := by
      have : skipDtor true e.it = false := by simpa [skipDtor, Item.inNvm] using hn
      simp [State.freeItem, this]
    rw [this]
    refine ⟨?_, one, cbs, quiet, wfq, rem, clean, tokE, ramE, tokR, wok, fil, filQ, candR, candN, ramN, ht⟩
    intro v
    refine Eq.trans ?_ (acc v)
    have h3 : Ev.own v e = (e.it.ver == v) := by simp [Ev.own, hn]
    have := hc v
    rw [h3] at this
    simp [State.total, List.count_cons] at this ⊢
    omega

theorem releaseGone_inv {s : State} (hi : Inv s) {i : Nat} {it : Item} (hg : s.gone[i]? = some it) :
    Inv (({ s with gone := s.gone.eraseIdx i } : State).freeItem false it) := by
  obtain ⟨acc, one, cbs, quiet, wfq, rem, clean, tokE, ramE, tokR, wok, fil, filQ, candR, candN, ramN, evt⟩ := hi
  have hc := fun v => countP_erase (fun x : Item => x.ver == v) hg
  refine ⟨?_, one, cbs, quiet, wfq, rem, clean, tokE, ramE, tokR, wok, fil, filQ, candR, candN, ramN, evt⟩
  intro v
  refine Eq.trans ?_ (acc v)
  have := hc v
  simp [State.total, State.freeItem, skipDtor, List.count_cons] at this ⊢
  omega

theorem setGone_inv {s : State} (hi : Inv s) {i : Nat} {it : Item} (hg : s.gone[i]? = some it) (n : Nat) :
    Inv { s with gone := s.gone.set i { it with refs := n } } := by
  obtain ⟨acc, one, cbs, quiet, wfq, rem, clean, tokE, ramE, tokR, wok, fil, filQ, candR, candN, ramN, evt⟩ := hi
  have hc := fun v => countP_set' (fun x : Item => x.ver == v) (b := { it with refs := n }) hg
  refine ⟨?_, one, cbs, quiet, wfq, rem, clean, tokE, ramE, tokR, wok, fil, filQ, candR, candN, ramN, evt⟩
  intro v
  refine Eq.trans ?_ (acc v)
  have := hc v
  simp [State.total] at this ⊢
  omega

theorem move_inv {s : State} (hi : Inv s) {it : Item} (hr : s.ram = some it) (h0 : it.refs = 0) :
    Inv { s with ram := some { it with id := s.nextId }, nextId := s.nextId + 1 } := by
  obtain ⟨acc, one, cbs, quiet, wfq, rem, clean, tokE, ramE, tokR, wok, fil, filQ, candR, candN, ramN, evt⟩ := hi
  obtain ⟨next, nextId, ram, gone, cand, ev, token, queue, fill, writers, tombs, nvm, cb, removed, dtor, threw⟩ := s
  simp only [State.pend, State.tv] at *
  subst hr
  refine ⟨acc, one, cbs, quiet, wfq, rem, ?_, tokE, ?_, ?_, ?_, fil, filQ, ?_, ?_, ?_, evt⟩
  · intro x h hc; cases h; exact clean it rfl hc
  · intro x h hc; cases h; exact ramE it rfl hc
  · intro h
    rcases tokR h with h' | h'
    · cases h'
    · exact .inr h'
  · intro w hw
    have := wok w hw
    cases w with
    | rmCrit => trivial
    | tail a b c =>
      cases c with
      | none => cases this.2
      | some i => obtain ⟨o, e, -, h1, -⟩ := this; cases e; omega
  · intro c hc x h he
    cases h
    have := candN c hc
    subst he
    exact absurd this (Nat.lt_irrefl _)
  · exact fun c hc => Nat.lt_succ_of_lt (candN c hc)
  · intro x h; cases h; exact Nat.lt_succ_self _

theorem look_inv {s : State} (hi : Inv s) {it : Item} (hr : s.ram = some it) :
    Inv { s with cand := (it.id, !it.inNvm) :: s.cand } := by
  obtain ⟨acc, one, cbs, quiet, wfq, rem, clean, tokE, ramE, tokR, wok, fil, filQ, candR, candN, ramN, evt⟩ := hi
  refine ⟨acc, one, cbs, quiet, wfq, rem, clean, tokE, ramE, tokR, wok, fil, filQ, ?_, ?_, ramN, evt⟩
  · intro c hc x h he
    rcases List.mem_cons.mp hc with h' | h'
    · dsimp only at h; rw [hr] at h; cases h; subst h'
      simpa using he
    · exact candR c h' x h he
  · intro c hc
    rcases List.mem_cons.mp hc with h' | h'
    · subst h'; exact ramN it hr
    · exact candN c h'

theorem lookup_inv {s : State} (hi : Inv s) :
    Inv { s with fill := some { valid := true }, queue := s.queue ++ [.lookup] } := by
  obtain ⟨acc, one, cbs, quiet, wfq, rem, clean, tokE, ramE, tokR, wok, fil, filQ, candR, candN, ramN, evt⟩ := hi
  refine ⟨?_, one, cbs, quiet, wf_append_lookup wfq, ?_, ?_, ?_, ?_, tokR, wok, ?_, ?_, candR, candN, ramN, evt⟩
  · intro v
    refine Eq.trans ?_ (acc v)
    simp [State.total, Job.own]
  · intro h
    have := rem h
    exact ⟨this.1, this.2.imp (fun h => List.mem_append_left _ h) id⟩
  · intro it h hc
    obtain ⟨a, b, c⟩ := clean it h hc
    refine ⟨a, fun v hv => ?_, c⟩
    simp at hv
    exact b v hv
  · intro h; exact endLive_append_lookup.trans (tokE h)
  · intro it a b c; exact endLive_append_lookup.trans (ramE it a b c)
  · intro f v h h1 h2; cases h; cases h2
  · intro f h h2; cases h; exact absurd rfl h2

theorem evictCB_fail (s : State) (v : Nat) (hcl : ∀ it, s.ram = some it → it.clean = false) :
    s.evictCB v true = { s with fill := s.fill.map (fun f => ({ f with valid := false } : Fill)), dtor := v :: s.dtor } := by
  cases hr : s.ram with
  | none => simp [State.evictCB, hr]
  | some it => simp [State.evictCB, hr, hcl it hr]

theorem jobInsert_inv {s : State} (hi : Inv s) {v : Nat} {q : List Job} (hq : s.queue = .insert v :: q) :
    s.nvm = none ∧ Inv { s with nvm := some v, queue := q } ∧ Inv (({ s with queue := q } : State).evictCB v true) := by
  obtain ⟨acc, one, cbs, quiet, wfq, rem, clean, tokE, ramE, tokR, wok, fil, filQ, candR, candN, ramN, evt⟩ := hi
  obtain ⟨next, nextId, ram, gone, cand, ev, token, queue, fill, writers, tombs, nvm, cb, removed, dtor, threw⟩ := s
  simp only [State.pend, State.tv] at *
  subst hq
  cases nvm with
  | some u => cases wfq.1
  | none =>
  have hrm : removed = false := by
    cases removed with
    | false => rfl
    | true => cases (rem rfl).1
  subst hrm
  have hcl : ∀ it, ram = some it → it.clean = false := by
    intro it h
    cases hc : it.clean with
    | false => rfl
    | true => exact absurd List.mem_cons_self ((clean it h hc).2.1 v)
  have hri : ramIn ram = false := by
    cases ram with
    | none => rfl
    | some it => simp [ramIn, Item.inNvm, hcl it rfl]
  have hf : ∀ f, fill = some f → f.run = none := by
    intro f h
    cases hr : f.run with
    | none => rfl
    | some r => have := filQ f h (by rw [hr]; simp); cases this
  refine ⟨rfl, ?_, ?_⟩
  · refine ⟨?_, one, cbs, quiet, wfq.2, ?_, ?_, tokE, ramE, tokR, wok, ?_, ?_, candR, candN, ramN, evt⟩
    · intro x
      refine Eq.trans ?_ (acc x)
      simp only [State.total, hri, nvmCnt, List.countP_cons, Job.own]
      simp
      omega
    · intro h; cases h
    · intro it h hc; rw [hcl it h] at hc; cases hc
    · intro f v h _ h2; rw [hf f h] at h2; cases h2
    · intro f h h2; exact absurd (hf f h) h2
  · rw [evictCB_fail _ v hcl]
    refine ⟨?_, one, cbs, quiet, wf_mono wfq.2, ?_, ?_, ?_, ?_, tokR, wok, ?_, ?_, candR, candN, ramN, evt⟩
    · intro x
      refine Eq.trans ?_ (acc x)
      simp [State.total, nvmCnt, List.countP_cons, Job.own, List.count_cons]
      omega
    · intro h; cases h
    · intro it h hc; rw [hcl it h] at hc; cases hc
    · intro h; have h2 := tokE h; exact endLive_mono (b := true) h2
    · intro it a b c; have h2 := ramE it a b c; exact endLive_mono (b := true) h2
    · intro f v h _ h2
      cases fill with
      | none => cases h
      | some g => cases h; have := hf g rfl; dsimp only at h2; rw [this] at h2; cases h2
    · intro f h h2
      cases fill with
      | none => cases h
      | some g => cases h; exact absurd (hf g rfl) h2

/-- The queued remove runs: nothing there. -/
theorem jobRemove_none {s : State} (hi : Inv s) {q : List Job} (hq : s.queue = .remove :: q) (hn : s.nvm = none) :
    Inv { s with queue := q } := by
  obtain ⟨acc, one, cbs, quiet, wfq, rem, clean, tokE, ramE, tokR, wok, fil, filQ, candR, candN, ramN, evt⟩ := hi
  obtain ⟨next, nextId, ram, gone, cand, ev, token, queue, fill, writers, tombs, nvm, cb, removed, dtor, threw⟩ := s
  simp only [State.pend, State.tv] at *
  subst hq hn
  have hrm : removed = false := by
    cases removed with
    | false => rfl
    | true => cases (rem rfl).1
  subst hrm
  refine ⟨?_, one, cbs, quiet, wfq, ?_, ?_, tokE, ramE, tokR, wok, fil, ?_, candR, candN, ramN, evt⟩
  · intro x
    refine Eq.trans ?_ (acc x)
    simp [State.total, Job.own]
  · intro h; cases h
  · intro it h hc
    obtain ⟨a, b, c⟩ := clean it h hc
    exact ⟨a, fun v hv => b v (List.mem_cons_of_mem _ hv), c⟩
  · intro f h h2; cases filQ f h h2

theorem evictCB_queue (s : State) (u : Nat) (b : Bool) (q : List Job) :
    ({ s with queue := q } : State).evictCB u b = { s.evictCB u b with queue := q } := by
  simp only [State.evictCB]
  repeat' split
  all_goals first | rfl | simp_all

theorem jobRemove_some {s : State} (hi : Inv s) {q : List Job} (hq : s.queue = .remove :: q) {u : Nat} (hn : s.nvm = some u) :
    Inv (({ s with nvm := none, queue := q } : State).evictCB u false) := by
  have h1 := evictCB_inv hi hn
  have e := evictCB_queue ({ s with nvm := none } : State) u false q
  have e' : ({ ({ s with nvm := none } : State) with queue := q } : State) = { s with nvm := none, queue := q } := rfl
  rw [e'] at e
  rw [e]
  have hq' : (({ s with nvm := none } : State).evictCB u false).queue = .remove :: q := by
    rw [← hq]; simp only [State.evictCB]; repeat' split
    all_goals rfl
  have hn' : (({ s with nvm := none } : State).evictCB u false).nvm = none := by
    simp only [State.evictCB]; repeat' split
    all_goals rfl
  exact jobRemove_none h1 hq' hn'

theorem jobLookup_inv {s : State} (hi : Inv s) {q : List Job} (hq : s.queue = .lookup :: q) {f : Fill} (ok : Bool) :
    Inv { s with fill := some { f with run := some (if ok then s.nvm else none) } } := by
  obtain ⟨acc, one, cbs, quiet, wfq, rem, clean, tokE, ramE, tokR, wok, fil, filQ, candR, candN, ramN, evt⟩ := hi
  refine ⟨acc, one, cbs, quiet, wfq, rem, clean, tokE, ramE, tokR, wok, ?_, ?_, candR, candN, ramN, evt⟩
  · intro g v h _ h2
    cases h
    cases ok with
    | true => simpa using h2
    | false => simp at h2
  · intro g h h2; rw [show ({ s with fill := some { f with run := some (if ok then s.nvm else none) } } : State).queue = s.queue from rfl, hq]; rfl

theorem fillNo_inv {s : State} (hi : Inv s) {q : List Job} (hq : s.queue = .lookup :: q) : Inv { s with queue := q, fill := none } := by
  obtain ⟨acc, one, cbs, quiet, wfq, rem, clean, tokE, ramE, tokR, wok, fil, filQ, candR, candN, ramN, evt⟩ := hi
  obtain ⟨next, nextId, ram, gone, cand, ev, token, queue, fill, writers, tombs, nvm, cb, removed, dtor, threw⟩ := s
  simp only [State.pend, State.tv] at *
  subst hq
  refine ⟨?_, one, cbs, quiet, wfq, ?_, ?_, tokE, ramE, tokR, wok, ?_, ?_, candR, candN, ramN, evt⟩
  · intro x
    refine Eq.trans ?_ (acc x)
    simp [State.total, Job.own]
  · intro h
    have := rem h
    refine ⟨this.1, this.2.imp (fun h => ?_) id⟩
    rcases List.mem_cons.mp h with h | h
    · cases h
    · exact h
  · intro it h hc
    obtain ⟨a, b, c⟩ := clean it h hc
    exact ⟨a, fun v hv => b v (List.mem_cons_of_mem _ hv), c⟩
  · intro _ _ h; cases h
  · intro _ h; cases h

theorem fillYes_inv {s : State} (hi : Inv s) {q : List Job} (hq : s.queue = .lookup :: q) {f : Fill} {v : Nat} (hf : s.fill = some f)
    (hv : f.valid = true) (hr : f.run = some (some v)) (hT : s.hasTomb = false) (hram : s.ram = none) (n : Nat) :
    Inv { s with ram := some { id := s.nextId, ver := v, clean := true, nvmEv := false, refs := n }, nextId := s.nextId + 1,
                 queue := q, fill := none } := by
  have tq := tomb_queue hT
  have tw := tomb_writers hT
  have hnvm := hi.fil f v hf hv hr
  have hpend : s.pend = false := by
    cases hp : s.pend with
    | false => rfl
    | true =>
      obtain ⟨w, hw, hp⟩ := List.any_eq_true.mp hp
      have := hi.wok w hw
      have t := tw w hw
      cases w with
      | rmCrit => cases hp
      | tail a b c =>
        cases c with
        | none => rw [this.1] at t; cases t
        | some j => obtain ⟨o, e, -⟩ := this; rw [hram] at e; cases e
  have hrm : s.removed = false := by
    cases h : s.removed with
    | false => rfl
    | true =>
      rcases (hi.rem h).2 with h' | h'
      · exact absurd h' tq
      · rw [hpend] at h'; cases h'
  have hi2 := fillNo_inv hi hq
  obtain ⟨acc, one, cbs, quiet, wfq, rem, clean, tokE, ramE, tokR, wok, fil, filQ, candR, candN, ramN, evt⟩ := hi2
  obtain ⟨next, nextId, ram, gone, cand, ev, token, queue, fill, writers, tombs, nvm, cb, removed, dtor, threw⟩ := s
  simp only [State.pend, State.tv] at *
  subst hq hram hnvm hrm
  have tq' : Job.remove ∉ q := fun h => tq (List.mem_cons_of_mem _ h)
  have hw0 : ∀ w ∈ writers, ∀ a b c, w ≠ .tail a b c := by
    intro w hw a b c e
    subst e
    have t := tw _ hw
    have := wok _ hw
    cases c with
    | none => have h := this.1; subst h; cases t
    | some j => obtain ⟨o, e, -⟩ := this; cases e
  refine ⟨?_, one, cbs, quiet, wfq, ?_, ?_, tokE, ?_, ?_, ?_, fil, filQ, ?_, ?_, ?_, evt⟩
  · intro x
    refine Eq.trans ?_ (acc x)
    simp [State.total, ramCnt, ramIn, nvmCnt, Item.inNvm, Item.cnt]
    omega
  · intro h; cases h
  · intro it h _
    cases h
    exact ⟨rfl, wf_no_remove wfq tq', rfl⟩
  · intro it h h1; cases h; cases h1
  · intro h
    have := tokE h
    have e : endLive true q = false := this
    rw [endLive_no_remove tq'] at e
    cases e
  · intro w hw
    cases w with
    | rmCrit => trivial
    | tail a b c => exact absurd rfl (hw0 _ hw a b c)
  · intro c hc x h he
    cases h
    have := candN c hc
    subst he
    exact absurd this (Nat.lt_irrefl _)
  · exact fun c hc => Nat.lt_succ_of_lt (candN c hc)
  · intro x h; cases h; exact Nat.lt_succ_self _

theorem rmWriter_inv {s : State} (hi : Inv s) {w : Nat} {t : Bool} {h : Option Nat} (hw : s.writers[w]? = some (.tail false t h)) :
    Inv { s with writers := s.writers.eraseIdx w } := by
  have hs : s.writers = [.tail false t h] ∧ w = 0 := by
    have := hi.one
    match hx : s.writers, w, hw with
    | [], w, hw => simp [hx] at hw
    | [x], 0, hw => simp [hx] at hw; exact ⟨by rw [hw], rfl⟩
    | [x], w + 1, hw => simp [hx] at hw
    | _ :: _ :: _, _, _ => simp [hx] at this
  obtain ⟨acc, one, cbs, quiet, wfq, rem, clean, tokE, ramE, tokR, wok, fil, filQ, candR, candN, ramN, evt⟩ := hi
  obtain ⟨next, nextId, ram, gone, cand, ev, token, queue, fill, writers, tombs, nvm, cb, removed, dtor, threw⟩ := s
  simp only [State.pend, State.tv] at *
  obtain ⟨h1, h2⟩ := hs
  subst h1 h2
  refine ⟨acc, Nat.zero_le _, cbs, quiet, wfq, rem, clean, tokE, ramE, tokR, ?_, fil, filQ, candR, candN, ramN, evt⟩
  intro w hw; cases hw

theorem rmCrit_only {s : State} (hi : Inv s) {w : Nat} {x : Writer} (hw : s.writers[w]? = some x) :
    s.writers = [x] ∧ w = 0 := by
  have := hi.one
  match hx : s.writers, w, hw with
  | [], w, hw => simp [hx] at hw
  | [y], 0, hw => simp [hx] at hw; exact ⟨by rw [hw], rfl⟩
  | [y], w + 1, hw => simp [hx] at hw
  | _ :: _ :: _, _, _ => simp [hx] at this

theorem wTomb_inv {s : State} (hi : Inv s) {w : Nat} {h : Option Nat} (hw : s.writers[w]? = some (.tail true false h)) :
    Inv { s with writers := s.writers.set w (.tail true true h) } := by
  obtain ⟨h1, h2⟩ := rmCrit_only hi hw
  obtain ⟨acc, one, cbs, quiet, wfq, rem, clean, tokE, ramE, tokR, wok, fil, filQ, candR, candN, ramN, evt⟩ := hi
  obtain ⟨next, nextId, ram, gone, cand, ev, token, queue, fill, writers, tombs, nvm, cb, removed, dtor, threw⟩ := s
  simp only [State.pend, State.tv] at *
  subst h1 h2
  refine ⟨acc, Nat.le_refl _, cbs, quiet, wfq, rem, clean, tokE, ramE, tokR, ?_, fil, filQ, candR, candN, ramN, evt⟩
  intro w hw
  cases List.mem_singleton.mp hw
  have := wok _ (List.mem_singleton.mpr rfl)
  cases h with
  | none => exact ⟨rfl, this.2⟩
  | some i => exact this

theorem serial_nil {s : State} (h : ¬ (true && s.writers != []) = true) : s.writers = [] := by
  cases hx : s.writers with
  | nil => rfl
  | cons a l => exact absurd (by rw [hx]; rfl) h

/-- Every step, when none of the excluded behaviours occurs. -/
theorem step_inv {s s' : State} (hi : Inv s) {a : Act} (he : s.exec {} a = some s') : Inv s' := by
  cases a with
  | insert =>
    simp only [State.exec] at he
    split at he
    · cases he
    · rename_i h
      cases he
      exact insert_inv hi (serial_nil h)
  | reinsert i => simp [State.exec] at he
  | removeStart =>
    simp only [State.exec] at he
    split at he
    · cases he
    · rename_i h
      cases he
      have hw := serial_nil h
      obtain ⟨acc, one, cbs, quiet, wfq, rem, clean, tokE, ramE, tokR, wok, fil, filQ, candR, candN, ramN, evt⟩ := hi
      obtain ⟨next, nextId, ram, gone, cand, ev, token, queue, fill, writers, tombs, nvm, cb, removed, dtor, threw⟩ := s
      simp only [State.pend, State.tv] at *
      subst hw
      refine ⟨acc, Nat.le_refl _, cbs, quiet, wfq, rem, clean, tokE, ramE, tokR, ?_, fil, filQ, candR, candN, ramN, evt⟩
      intro w hw
      cases List.mem_singleton.mp hw
      trivial
  | removeCrit w =>
    simp only [State.exec] at he
    split at he
    · rename_i h
      cases he
      obtain ⟨h1, h2⟩ := rmCrit_only hi h
      have := removeCrit_inv hi h1
      subst h2
      rw [h1]
      exact this
    · cases he
  | mutate =>
    simp only [State.exec] at he
    split at he
    · cases he
    · rename_i h
      split at he
      · rename_i it hr
        split at he
        · rename_i h2
          cases he
          exact mutate_inv hi (serial_nil h) hr h2.1 h2.2
        · cases he
      · cases he
  | wTomb w =>
    simp only [State.exec] at he
    split at he
    · rename_i h
      cases he
      exact wTomb_inv hi h
    · cases he
  | wFinish w skip =>
    simp only [State.exec] at he
    split at he
    · rename_i h
      obtain ⟨h1, h2⟩ := rmCrit_only hi h
      exact nvmRemove_inv hi (s.writers.eraseIdx w) s.tombs (by rw [h1, h2]; exact Nat.zero_le _)
        (fun x hx => List.mem_of_mem_eraseIdx hx) he
    · rename_i h
      cases he
      exact rmWriter_inv hi h
    · cases he
  | otherStart =>
    simp only [State.exec, Option.some.injEq] at he
    subst he
    obtain ⟨acc, one, cbs, quiet, wfq, rem, clean, tokE, ramE, tokR, wok, fil, filQ, candR, candN, ramN, evt⟩ := hi
    exact ⟨acc, one, cbs, quiet, wfq, rem, clean, tokE, ramE, tokR, wok, fil, filQ, candR, candN, ramN, evt⟩
  | otherFinish skip =>
    simp only [State.exec] at he
    split at he
    · cases he
    · exact nvmRemove_inv hi s.writers (s.tombs - 1) hi.one (fun _ h => h) he
  | acquire =>
    simp only [State.exec] at he
    split at he
    · rename_i it hr
      cases he
      exact acquire_inv hi hr _ (fun _ _ _ => Nat.le_add_left _ _)
    · cases he
  | release =>
    simp only [State.exec] at he
    split at he
    · rename_i it hr
      split at he
      · rename_i h
        cases he
        refine acquire_inv hi hr _ (fun w hw h2 => ?_)
        have : s.held it.id = 1 := by
          unfold State.held
          rw [if_pos (List.any_eq_true.mpr ⟨w, hw, h2⟩)]
        omega
      · cases he
    · cases he
  | releaseGone i =>
    simp only [State.exec] at he
    split at he
    · rename_i it hg
      split at he
      · cases he; exact releaseGone_inv hi hg
      · cases he; exact setGone_inv hi hg _
    · cases he
  | reap => simp [State.exec] at he
  | move =>
    simp only [State.exec] at he
    split at he
    · rename_i it hr
      split at he
      · rename_i h
        cases he
        exact move_inv hi hr h
      · cases he
    · cases he
  | look =>
    simp only [State.exec] at he
    split at he
    · rename_i it hr
      cases he
      exact look_inv hi hr
    · cases he
  | mark want tok =>
    simp only [State.exec] at he
    split at he
    · rename_i it hr
      split at he
      · rename_i h
        cases he
        exact mark_inv hi hr h.1 h.2.1 h.2.2
      · cases he
    · cases he
  | put i admit =>
    simp only [State.exec] at he
    split at he
    · rename_i e hg
      split at he
      · cases he
      · rename_i hd
        split at he
        · cases he; exact putNo_inv hi hg id
        · rename_i ht
          split at he
          · cases he; exact putNo_inv hi hg (fun h => by cases h)
          · have hn : e.it.inNvm = false :=
              hi.evt e (List.mem_of_getElem? hg) (by simpa using ht) (by simpa using hd)
            rw [hn] at he
            simp only [Bool.false_eq_true, if_false] at he
            split at he
            · cases he; exact putNo_inv hi hg (fun h => by cases h)
            · rename_i h
              cases he
              simp only [Bool.or_eq_true, bne_iff_ne, ne_eq, not_or, Bool.not_eq_true, Decidable.not_not] at h
              exact putYes_inv hi hg hn h.1 h.2
    · cases he
  | free i =>
    simp only [State.exec] at he
    split at he
    · rename_i e hg
      split at he
      · cases he; exact free_inv hi hg
      · cases he
    · cases he
  | invalidate =>
    simp only [State.exec, Option.some.injEq] at he
    subst he
    obtain ⟨acc, one, cbs, quiet, wfq, rem, clean, tokE, ramE, tokR, wok, fil, filQ, candR, candN, ramN, evt⟩ := hi
    exact ⟨acc, one, cbs, quiet, wfq, rem, clean, fun h => absurd h token_dead, ramE, fun h => absurd h token_dead, wok, fil, filQ,
      candR, candN, ramN, evt⟩
  | lookup =>
    simp only [State.exec] at he
    split at he
    · cases he; exact lookup_inv hi
    · cases he
  | jobInsert ok big =>
    simp only [State.exec] at he
    split at he
    · rename_i v q hq
      obtain ⟨h1, h2, h3⟩ := jobInsert_inv hi hq
      split at he
      · rw [h1] at he
        cases he
        exact h2
      · cases he; exact h3
    · cases he
  | jobRemove ok =>
    simp only [State.exec] at he
    split at he
    · rename_i q hq
      split at he
      · split at he
        · rename_i u hu
          cases he
          exact jobRemove_some hi hq hu
        · rename_i hu
          cases he
          exact jobRemove_none hi hq hu
      · simp at he
    · cases he
  | jobLookup ok =>
    simp only [State.exec] at he
    split at he
    · rename_i q f hq hf
      split at he
      · cases he; exact jobLookup_inv hi hq ok
      · cases he
    · cases he
  | fillEnd keep n =>
    simp only [State.exec] at he
    split at he
    · rename_i q f hq hf
      split at he
      · cases he
      · rename_i r hr
        split at he
        · split at he
          · rename_i v h
            cases he
            simp only [Bool.and_eq_true, Bool.not_eq_true', Option.isNone_iff_eq_none] at h
            exact fillYes_inv hi hq hf h.1.1.2 hr h.1.2 h.2 n
          · cases he; exact fillNo_inv hi hq
        · cases he; exact fillNo_inv hi hq
    · cases he
  | evict =>
    simp only [State.exec] at he
    split at he
    · rename_i u hu
      cases he
      exact evictCB_inv hi hu
    · cases he
  | drop => simp [State.exec] at he
  | callback i => simp [State.exec, hi.cbs] at he

theorem init_inv : Inv {} := by
  constructor <;> simp [State.total, ramCnt, nvmCnt, wf, State.tv]

theorem reach_inv {s : State} (h : Reach {} s) : Inv s := by
  induction h with
  | init => exact init_inv
  | step a _ he ih => exact step_inv ih he

end Verif.Destructor
