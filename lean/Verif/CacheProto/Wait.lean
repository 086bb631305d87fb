import Verif.CacheProto.Step5
/-! Accounting of the wait contexts, and the invariant of all runs. -/
namespace Verif.CacheProto
open Verif.Refcount

variable {s s' : State} {i : Nat} {p p' : PC} {a : Addr}

theorem mmRemove_ctl (s : State) (a : Addr) : (mmRemove s a).1.thr = s.thr ∧ (mmRemove s a).1.mctx = s.mctx ∧
    (mmRemove s a).1.mail = s.mail ∧ (mmRemove s a).1.nextW = s.nextW ∧ (mmRemove s a).1.done = s.done ∧
    (mmRemove s a).1.lost = s.lost := by
  unfold mmRemove; split <;> exact ⟨rfl, rfl, rfl, rfl, rfl, rfl⟩

theorem mmAdd_ctl (s : State) (a : Addr) : (mmAdd s a).1.thr = s.thr ∧ (mmAdd s a).1.mctx = s.mctx ∧
    (mmAdd s a).1.mail = s.mail ∧ (mmAdd s a).1.nextW = s.nextW ∧ (mmAdd s a).1.done = s.done ∧
    (mmAdd s a).1.lost = s.lost := by
  unfold mmAdd; split <;> exact ⟨rfl, rfl, rfl, rfl, rfl, rfl⟩

theorem acRemove_ctl (s : State) (a : Addr) : (acRemove s a).thr = s.thr ∧ (acRemove s a).mctx = s.mctx ∧
    (acRemove s a).mail = s.mail ∧ (acRemove s a).nextW = s.nextW ∧ (acRemove s a).done = s.done ∧
    (acRemove s a).lost = s.lost := by
  unfold acRemove; split
  · split <;> exact ⟨rfl, rfl, rfl, rfl, rfl, rfl⟩
  · exact ⟨rfl, rfl, rfl, rfl, rfl, rfl⟩

theorem free_ctl (s : State) (a : Addr) : (free s a).thr = s.thr ∧ (free s a).mctx = s.mctx ∧
    (free s a).mail = s.mail ∧ (free s a).nextW = s.nextW ∧ (free s a).done = s.done ∧ (free s a).lost = s.lost := by
  unfold free; split <;> exact ⟨rfl, rfl, rfl, rfl, rfl, rfl⟩

/-- a step that leaves wait contexts alone -/
theorem W.ctl (h : W s) (hp : s.thr[i]? = some p) (he : s'.thr = s.thr ∧ s'.mctx = s.mctx ∧
    s'.mail = s.mail ∧ s'.nextW = s.nextW ∧ s'.done = s.done ∧ s'.lost = s.lost)
    (hw : ∀ w k, p'.wp w k = true → p.wp w k = true) (hpe : p'.pend = p.pend)
    (hpw : ∀ k, p.pw k = true → p'.pw k = true) : W (at_ s' i p') :=
  W.pc h hp he.1 he.2.1 he.2.2.1 he.2.2.2.1 he.2.2.2.2.1 he.2.2.2.2.2 hw hpe hpw

theorem W.drop (h : W s) (hp : s.thr[i]? = some p) {us : List Hdl} {p0 p1 : PC}
    (h0 : (∀ w k, p0.wp w k = true → p.wp w k = true) ∧ p0.pend = p.pend ∧ ∀ k, p.pw k = true → p0.pw k = true)
    (h1 : (∀ w k, p1.wp w k = true → p.wp w k = true) ∧ p1.pend = p.pend ∧ ∀ k, p.pw k = true → p1.pw k = true) :
    W (drop { s with usr := us } i a p0 p1) := by
  unfold Verif.CacheProto.drop
  split
  · exact (W.congr (s' := { s with usr := us }) h rfl rfl rfl rfl rfl rfl).bad
  · split
    · exact W.pc h hp rfl rfl rfl rfl rfl rfl h0.1 h0.2.1 h0.2.2
    · exact W.pc h hp rfl rfl rfl rfl rfl rfl h1.1 h1.2.1 h1.2.2

/-- side conditions about concrete program counters -/
macro "wps" : tactic => `(tactic| (simp [PC.wp, PC.pend, PC.pw, Cont.pw]))

/-- a step that leaves wait contexts alone -/
macro "ctl" h:ident hp:ident : tactic =>
  `(tactic| first
    | exact $h
    | exact W.bad $h
    | exact W.ctl $h $hp ⟨rfl, rfl, rfl, rfl, rfl, rfl⟩ (by wps) (by wps) (by wps)
    | exact W.ctl $h $hp (mmRemove_ctl _ _) (by wps) (by wps) (by wps)
    | exact W.ctl $h $hp (mmAdd_ctl _ _) (by wps) (by wps) (by wps)
    | exact W.ctl $h $hp (acRemove_ctl _ _) (by wps) (by wps) (by wps)
    | exact W.ctl $h $hp (free_ctl _ _) (by wps) (by wps) (by wps))

/-- somebody is moving an item that is marked as moving -/
theorem Inv.mover (h : Inv s) (hm : isMoving (s.word a) = true) : ∃ q ∈ s.thr, q.pw (s.key a) = true := by
  obtain ⟨h1, h2⟩ := (isMoving_iff _).mp hm
  have h3 : 1 ≤ tot (·.mo a) s.thr := by rw [← h.exh a h1]; exact h2
  have h4 : ∃ q ∈ s.thr, 1 ≤ q.mo a := by
    apply Classical.byContradiction
    intro hne
    have := tot_zero_of_all (·.mo a) (l := s.thr) (fun q hq => by
      apply Classical.byContradiction
      intro hh; exact hne ⟨q, hq, by omega⟩)
    omega
  obtain ⟨q, hq, h5⟩ := h4
  obtain ⟨k, h6, h7⟩ := mo_pw q a h5
  refine ⟨q, hq, ?_⟩
  rw [(h.fct q hq).kat a k h6]; exact h7

theorem go_W (h : Inv s) (hW : W s) (hp : s.thr[i]? = some p) (ch : Ch) : W (go cfgOk s i ch p) := by
  cases p with
  | idle => exact hW
  | alloc k c =>
    cases ch with
    | go => exact hW
    | alt => cases c <;> exact W.ctl hW hp ⟨rfl, rfl, rfl, rfl, rfl, rfl⟩ (by simp [allocFail, PC.wp]) (by simp [allocFail, PC.pend]) (by simp [allocFail, PC.pw, Cont.pw])
    | fresh b w => simp only [go]; split <;> ctl hW hp
    | evict v =>
      simp only [go]; split
      · apply W.touch hW; split <;> ctl hW hp
      · exact hW
  | mem a k c =>
    cases ch <;> cases c <;> simp only [go] <;> first | (apply W.touch hW; ctl hW hp) | ctl hW hp
  | ctor a k c =>
    simp only [go]; apply W.touch hW; split
    · cases c <;> ctl hW hp
    · ctl hW hp
  | ev1 v k c => simp only [go]; apply W.touch hW; ctl hW hp
  | ev2 v k c =>
    simp only [go]; split
    · apply W.touch hW; ctl hW hp
    · exact hW
  | ev3 v k c => simp only [go]; apply W.touch hW; ctl hW hp
  | ev4 v k c => simp only [go]; apply W.touch hW; ctl hW hp
  | find k a => simp only [go]; apply W.touch hW; split <;> ctl hW hp
  | findW k a =>
    simp only [go]; apply W.touch hW; split
    · rename_i hm; exact W.add hW hp _ (by wps) (by wps) (by wps) (h.mover hm)
    · ctl hW hp
  | rel1 a rc => simp only [go]; apply W.touch hW; split <;> cases rc <;> ctl hW hp
  | rel2 a rc => cases rc <;> simp only [go] <;> ctl hW hp
  | ins1 k a => simp only [go]; apply W.touch hW; split <;> ctl hW hp
  | ins2 k a => simp only [go]; apply W.touch hW; split <;> ctl hW hp
  | ins3 k a =>
    simp only [go]; split
    · apply W.touch hW; split <;> ctl hW hp
    · exact hW
  | ins4 k a => simp only [go]; apply W.touch hW; ctl hW hp
  | ior1 k a => simp only [go]; apply W.touch hW; split <;> ctl hW hp
  | ior2 k a => simp only [go]; apply W.touch hW; split <;> ctl hW hp
  | ior3 k a =>
    simp only [go]; split
    · apply W.touch hW; split <;> ctl hW hp
    · exact hW
  | ior4 k a o => simp only [go]; apply W.touch hW; split <;> ctl hW hp
  | ior4w k a o =>
    have hk := (h.idx_mem ((h.facts hp).iat k (some o) (by simp [PC.iat]))).2.2
    simp only [go]; apply W.touch hW; split
    · rename_i hm
      refine W.add hW hp _ (by wps) ?_ (by wps) (h.mover hm)
      rw [hk]; simp [PC.wp]
    · ctl hW hp
  | ior5 k a o r => simp only [go]; apply W.touch hW; cases r <;> ctl hW hp
  | ior6 k a o r => simp only [go]; apply W.touch hW; cases r <;> ctl hW hp
  | ior7 k a x => simp only [go]; apply W.touch hW; exact W.ctl hW hp (mmRemove_ctl s x) (by wps) (by wps) (by wps)
  | iorWait k a w =>
    simp only [go]; split
    · exact hW
    · rename_i m hm
      have hmem := List.mem_of_find?_eq_some hm
      have key := hW.consume (ml := s.mail.erase m) (w0 := m.w) (us := s.usr) (fun g hg => List.mem_of_mem_erase hg)
        (fun w => count_erase hmem w)
      split
      · exact W.ctl key hp ⟨rfl, rfl, rfl, rfl, rfl, rfl⟩ (by wps) (by wps) (by wps)
      · exact W.ctl key hp ⟨rfl, rfl, rfl, rfl, rfl, rfl⟩ (by wps) (by wps) (by wps)
  | iorX k a => simp only [go]; apply W.touch hW; ctl hW hp
  | rm1 k a =>
    simp only [go]; split
    · apply W.touch hW; ctl hW hp
    · exact hW
  | rm2 k a => simp only [go]; apply W.touch hW; ctl hW hp
  | rx1 k a =>
    simp only [go]; split
    · apply W.touch hW; split <;> ctl hW hp
    · exact hW
  | rx2 k a => simp only [go]; apply W.touch hW; split <;> ctl hW hp
  | rx3 k a => simp only [go]; apply W.touch hW; ctl hW hp
  | rx4 k a => simp only [go]; apply W.touch hW; ctl hW hp
  | rx5 k a => simp only [go]; apply W.touch hW; exact W.drop (us := s.usr) hW hp (by wps) (by wps)
  | rp1 k o n =>
    simp only [go]; split
    · apply W.touch hW; split <;> ctl hW hp
    · exact hW
  | rp2 k o n => simp only [go]; apply W.touch hW; ctl hW hp
  | rp3 k o n => simp only [go]; apply W.touch hW; split <;> ctl hW hp
  | rp4 k o n => simp only [go]; apply W.touch hW; split <;> ctl hW hp
  | rp5 k o n =>
    simp only [go]; split
    · apply W.touch hW; ctl hW hp
    · exact hW
  | rp6 k o n => simp only [go]; apply W.touch hW; split <;> ctl hW hp
  | rp7 k o n => simp only [go]; apply W.touch hW; ctl hW hp
  | mv1 k a => simp only [go]; split <;> ctl hW hp
  | mv2 k a n => simp only [go]; apply W.touch hW; apply W.touch hW; split <;> ctl hW hp
  | mv3 k a n =>
    simp only [go]; split
    · apply W.touch hW; split <;> ctl hW hp
    · exact hW
  | mv3b k a n => simp only [go]; apply W.touch hW; ctl hW hp
  | mvF k a n => simp only [go]; apply W.touch hW; ctl hW hp
  | mvF2 k a n => simp only [go]; apply W.touch hW; exact W.drop (us := s.usr) hW hp (by wps) (by wps)
  | mv4 k a n => simp only [go]; apply W.touch hW; ctl hW hp
  | mv5 k a n => simp only [go]; apply W.touch hW; ctl hW hp
  | mv6 k a n =>
    have hk := (h.facts hp).kat a k (by simp [PC.kat])
    simp only [go]; apply W.touch hW
    refine W.collect hW hp (s.key a) (by wps) (by wps) ?_ ?_
    · simp [PC.wp, hk]
    · simp [PC.pw, hk]
  | mv7 k a n ws ov =>
    cases ws with
    | nil => simp only [go]; ctl hW hp
    | cons w ws =>
      simp only [go]
      split
      · exact W.pop (p' := .mv7 k a n ws true) (w0 := w) (k0 := k) hW hp (by wps) (by wps) none
          (by simp [PC.wp]; intro w h1; exact Or.inr h1) (by wps) true (us := s.usr) (wd := s.word)
      · apply W.touch hW; split
        · exact W.pop (p' := .mv7 k a n ws true) (w0 := w) (k0 := k) hW hp (by wps) (by wps) none
            (by simp [PC.wp]; intro w h1; exact Or.inr h1) (by wps) false (us := s.usr) (wd := s.word)
        · rename_i v _
          exact W.pop (p' := .mv7 k a n ws false) (w0 := w) (k0 := k) hW hp (by wps) (by wps) (some n)
            (by simp [PC.wp]; intro w h1; exact Or.inr h1) (by wps) true (us := s.usr) (wd := upd s.word n v)
        · exact hW.bad
  | mv8 k a n => simp only [go]; apply W.touch hW; exact W.drop (us := s.usr) hW hp (by wps) (by wps)
  | mv9 a => simp only [go]; apply W.touch hW; ctl hW hp
  | me1 k a => simp only [go]; apply W.touch hW; ctl hW hp
  | me2 k a =>
    simp only [go]; split
    · apply W.touch hW; ctl hW hp
    · exact hW
  | me3 k a => simp only [go]; apply W.touch hW; ctl hW hp
  | me4 k a => simp only [go]; apply W.touch hW; ctl hW hp
  | me5 k a =>
    have hk := (h.facts hp).kat a k (by simp [PC.kat])
    simp only [go]; apply W.touch hW
    refine W.collect hW hp (s.key a) (by wps) (by wps) ?_ ?_
    · simp [PC.wp, hk]
    · simp [PC.pw, hk]
  | me6 k a ws =>
    cases ws with
    | nil => simp only [go]; ctl hW hp
    | cons w ws =>
      simp only [go]
      exact W.pop (p' := .me6 k a ws) (w0 := w) (k0 := k) hW hp (by wps) (by wps) none
          (by simp [PC.wp]; intro w h1; exact Or.inr h1) (by wps) true (us := s.usr) (wd := s.word)

theorem start_W (hW : W s) (hp : s.thr[i]? = some .idle) (op : Op) : W (start cfgOk s i op) := by
  cases op with
  | allocate k => simp only [start]; ctl hW hp
  | find k => simp only [start]; split <;> (try split) <;> ctl hW hp
  | clone j =>
    simp only [start]; split
    · exact hW
    · apply W.touch hW; split
      · exact hW
      · exact hW.congr rfl rfl rfl rfl rfl rfl
      · exact hW.bad
  | release j =>
    simp only [start]; split
    · exact hW
    · split
      · apply W.touch hW; exact W.drop hW hp (by wps) (by wps)
      · exact hW
  | insert j =>
    simp only [start]; split
    · exact hW
    · split
      · apply W.touch hW; split <;> ctl hW hp
      · exact hW
  | insertOrReplace j =>
    simp only [start]; split
    · exact hW
    · split
      · apply W.touch hW; split <;> ctl hW hp
      · exact hW
  | remove j => simp only [start]; split <;> ctl hW hp
  | removeIfExpired j => simp only [start]; split <;> ctl hW hp
  | replace j j' => simp only [start]; split <;> (try split) <;> ctl hW hp
  | slabRelease a =>
    simp only [start]; split
    · split
      · split <;> ctl hW hp
      · exact hW
    · exact hW
  | take j =>
    simp only [start]; split
    · exact hW
    · rename_i m hm
      split
      · exact hW
      · split
        · exact hW.consume (us := s.usr) (fun g hg => List.mem_of_mem_eraseIdx hg) (fun w => count_eraseIdx hm w)
        · rename_i x _
          exact hW.consume (us := ⟨m.k, x⟩ :: s.usr) (fun g hg => List.mem_of_mem_eraseIdx hg) (fun w => count_eraseIdx hm w)

theorem init_inv (n : Nat) : Inv (init n) := by
  have hm : ∀ q ∈ (init n).thr, q = .idle := by
    intro q hq; exact (List.mem_replicate.mp hq).2
  have ht : ∀ f : PC → Nat, f .idle = 0 → tot f (init n).thr = 0 :=
    fun f hf => tot_zero_of_all f (fun q hq => by rw [hm q hq]; exact hf)
  obtain ⟨z1, z2, z3, z4⟩ := acc_zero
  refine ⟨?_, ?_, ?_, ?_, ?_, ?_, ?_, ?_, ?_, ?_, ?_, ?_, ?_, ?_, rfl⟩
  · intro a; rw [ht _ rfl, ht _ rfl]; exact z1
  · intro a; rw [ht _ rfl]; show ind (bit 20 (0 : Word) = true) = 0; rw [z4]; rfl
  · intro a hb; have hb : bit 20 (0 : Word) = true := hb; rw [z4] at hb; cases hb
  · intro a; rw [ht _ rfl]
    show 0 + ind (¬ (acc (0 : Word) = 0 ∧ bit 18 (0 : Word) = false ∧ bit 19 (0 : Word) = false ∧ bit 20 (0 : Word) = false)) = ind (false = true)
    rw [z1, z2, z3, z4]; simp [ind]
  · intro a; exact z2
  · intro k a h; cases h
  · intro a hb; have hb : bit 19 (0 : Word) = true := hb; rw [z3] at hb; cases hb
  · intro a; rw [ht _ (by simp [PC.inserting, ind])]; omega
  · intro a; rw [ht _ (by simp [PC.lx, ind])]; omega
  · intro k _; exact ht _ (by simp [PC.ls, ind])
  · intro q hq a hb; rw [hm q hq] at hb; cases hb
  · intro h hh; cases hh
  · intro h hh; cases hh
  · intro q hq; rw [hm q hq]; exact ⟨nofun, nofun, nofun, nofun, nofun, nofun, nofun, trivial⟩

theorem init_W (n : Nat) : W (init n) := by
  have hm : ∀ q ∈ (init n).thr, q = .idle := by
    intro q hq; exact (List.mem_replicate.mp hq).2
  refine ⟨fun _ => [], nofun, nofun, ?_, ?_, ?_⟩
  · intro q hq w k h; rw [hm q hq] at h; cases h
  · intro w
    rw [tot_zero_of_all _ (fun q hq => by rw [hm q hq]; rfl)]
    simp [init, ind]
  · intro k h; exact absurd rfl h

/-- Invariant of all runs. -/
theorem run_inv (n : Nat) (as : List Act) : Inv (run cfgOk (init n) as) ∧ W (run cfgOk (init n) as) := by
  suffices ∀ (as : List Act) (s : State), Inv s → W s → Inv (run cfgOk s as) ∧ W (run cfgOk s as) from
    this as _ (init_inv n) (init_W n)
  intro as
  induction as with
  | nil => exact fun s h1 h2 => ⟨h1, h2⟩
  | cons x as ih =>
    intro s h1 h2
    have : Inv (step cfgOk s x) ∧ W (step cfgOk s x) := by
      cases x with
      | start i op =>
        simp only [step]
        split
        · rename_i hp; exact ⟨start_inv h1 hp op, start_W h2 hp op⟩
        · exact ⟨h1, h2⟩
      | go i ch =>
        simp only [step]
        split
        · exact ⟨h1, h2⟩
        · rename_i p hp; exact ⟨go_inv h1 h2 hp ch, go_W h1 h2 hp ch⟩
    exact ih _ this.1 this.2

end Verif.CacheProto
