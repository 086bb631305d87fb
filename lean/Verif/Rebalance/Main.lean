import Verif.Rebalance.Props
/-!
C42: the theorems.
-/
namespace Verif.Rebalance
open Verif

variable {p p' : Pool} {r : Round}

theorem WF.nodup (h : WF p r) : r.ids.Nodup := by rw [h.ids]; exact List.nodup_range

theorem WF.lt (h : WF p r) {c : ClassId} : c ∈ r.ids ↔ c < r.ids.length := by
  constructor
  · intro hc; rw [h.ids] at hc; simpa using hc
  · intro hc; rw [h.ids]; simpa using hc

/-- LruTailAge: what it returns -/
theorem lruImpl_spec (hn : r.ids.Nodup) {m f d : Nat} {w : Bool} {ctx : Ctx} (h : lruImpl p r m f d w = some (p', ctx)) :
    Same p p' ∧ p'.ents = p.ents ∧ Hold p r 1 p' ∧
    (∀ v, ctx.victim = some v →
      Chosen m (fun _ => f ≠ 0) p r v ∧ (f = 0 → m < Spec.slabs r v) ∧
      ∃ x, ctx.receiver = some x ∧ x ≠ v ∧ x ∈ r.ids ∧ r.freeSlabs x = 0 ∧ r.evictions x ≠ (p.info x).evictions ∧ (p'.info x).holdOff = 10 ∧
        (w = false → r.oldAge x + d ≤ r.projAge v)) ∧
    (∀ x, ctx.receiver = some x → ∃ v, ctx.victim = some v) := by
  unfold lruImpl at h
  split at h
  · simp only [Option.some.injEq, Prod.mk.injEq] at h
    obtain ⟨rfl, rfl⟩ := h
    exact ⟨Same.refl _, rfl, Hold.refl _, by simp [noOp], by simp [noOp]⟩
  · cases hv : lruPickVictim p r m f with
    | none => rw [hv] at h; cases h
    | some q =>
      obtain ⟨q, v⟩ := q
      rw [hv] at h
      obtain ⟨h1, h2, h3, h4⟩ := lruPickVictim_spec hn hv
      dsimp only at h
      have nop : (p', ctx) = (q, noOp) → Same p p' ∧ p'.ents = p.ents ∧ Hold p r 1 p' ∧
          (∀ v, ctx.victim = some v →
            Chosen m (fun _ => f ≠ 0) p r v ∧ (f = 0 → m < Spec.slabs r v) ∧
            ∃ x, ctx.receiver = some x ∧ x ≠ v ∧ x ∈ r.ids ∧ r.freeSlabs x = 0 ∧ r.evictions x ≠ (p.info x).evictions ∧ (p'.info x).holdOff = 10 ∧
              (w = false → r.oldAge x + d ≤ r.projAge v)) ∧
          (∀ x, ctx.receiver = some x → ∃ v, ctx.victim = some v) := by
        intro e
        simp only [Prod.mk.injEq] at e
        obtain ⟨rfl, rfl⟩ := e
        exact ⟨h1, h2, h3, by simp [noOp], by simp [noOp]⟩
      cases v with
      | none =>
        dsimp only at h
        simp only [Option.some.injEq] at h
        exact nop h.symm
      | some v =>
        cases hr : lruPickReceiver q r (some v) with
        | none =>
          rw [hr] at h; dsimp only at h
          simp only [Option.some.injEq] at h
          exact nop h.symm
        | some x =>
          rw [hr] at h; dsimp only at h
          split at h
          · simp only [Option.some.injEq] at h; exact nop h.symm
          · rename_i hne
            split at h
            · simp only [Option.some.injEq] at h; exact nop h.symm
            · rename_i hw
              simp only [Option.some.injEq, Prod.mk.injEq] at h
              obtain ⟨rfl, rfl⟩ := h
              obtain ⟨g1, g2, g3, g4⟩ := lruReceiver_spec hr
              refine ⟨h1.trans (startHoldOff_same q x), h2, h3.start x, ?_, fun _ _ => ⟨v, rfl⟩⟩
              intro v' hv'
              simp only [Option.some.injEq] at hv'
              subst hv'
              refine ⟨(h4 v rfl).1, (h4 v rfl).2, x, rfl, fun e => hne e.symm, g1, g3, by rw [← (h1 x).2.1]; exact g4, by simp [startHoldOff, upd], ?_⟩
              intro hwf
              subst hwf
              simp only [Bool.not_false, Bool.true_and, Bool.not_eq_true, Bool.or_eq_false_iff, decide_eq_false_iff_not] at hw
              omega

/-- HitsPerSlab: what it returns -/
theorem hitsImpl_spec (hn : r.ids.Nodup) {g : HitsCfg} {ctx : Ctx} (h : hitsImpl p r g = some (p', ctx)) :
    Same p p' ∧ p'.ents = p.ents ∧ Hold p r 1 p' ∧
    (∀ v, ctx.victim = some v →
      Chosen g.minSlabs (AgeOK g r) p r v ∧ ((g.byFreeMem = false ∨ g.numSlabsFreeMem = 0) → g.minSlabs < Spec.slabs r v) ∧
      ∃ x, ctx.receiver = some x ∧ x ≠ v ∧ x ∈ r.ids ∧ r.freeSlabs x = 0 ∧ r.evictions x ≠ (p.info x).evictions ∧ (p'.info x).holdOff = 10 ∧
        0 < Spec.slabs r x) ∧
    (∀ x, ctx.receiver = some x → ∃ v, ctx.victim = some v) := by
  unfold hitsImpl at h
  split at h
  · simp only [Option.some.injEq, Prod.mk.injEq] at h
    obtain ⟨rfl, rfl⟩ := h
    exact ⟨Same.refl _, rfl, Hold.refl _, by simp [noOp], by simp [noOp]⟩
  · cases hv : hitsPickVictim p r g with
    | none => rw [hv] at h; cases h
    | some q =>
      obtain ⟨q, v⟩ := q
      rw [hv] at h
      obtain ⟨h1, h2, h3, h4⟩ := hitsPickVictim_spec hn hv
      dsimp only at h
      have nop : ∀ q', Same q q' → q'.ents = q.ents → Hold p r 1 q' → (p', ctx) = (q', noOp) → Same p p' ∧ p'.ents = p.ents ∧ Hold p r 1 p' ∧
          (∀ v, ctx.victim = some v →
            Chosen g.minSlabs (AgeOK g r) p r v ∧ ((g.byFreeMem = false ∨ g.numSlabsFreeMem = 0) → g.minSlabs < Spec.slabs r v) ∧
            ∃ x, ctx.receiver = some x ∧ x ≠ v ∧ x ∈ r.ids ∧ r.freeSlabs x = 0 ∧ r.evictions x ≠ (p.info x).evictions ∧ (p'.info x).holdOff = 10 ∧
              0 < Spec.slabs r x) ∧
          (∀ x, ctx.receiver = some x → ∃ v, ctx.victim = some v) := by
        intro q' s1 s2 s3 e
        simp only [Prod.mk.injEq] at e
        obtain ⟨rfl, rfl⟩ := e
        exact ⟨h1.trans s1, s2.trans h2, s3, by simp [noOp], by simp [noOp]⟩
      have nop0 := nop q (Same.refl q) rfl h3
      cases hr : hitsPickReceiver q r g v with
      | none => rw [hr] at h; cases v <;> cases h
      | some x =>
        rw [hr] at h
        cases v with
        | none => simp only [Option.some.injEq] at h; exact nop0 h.symm
        | some v =>
          cases x with
          | none => dsimp only at h; simp only [Option.some.injEq] at h; exact nop0 h.symm
          | some x =>
            dsimp only at h
            split at h
            · simp only [Option.some.injEq] at h; exact nop0 h.symm
            · rename_i hne
              split at h
              · cases h
              · split at h
                · simp only [Option.some.injEq] at h
                  split at h
                  · exact nop _ (updateHits_same q _) rfl (h3.hits _) h.symm
                  · exact nop0 h.symm
                · simp only [Option.some.injEq, Prod.mk.injEq] at h
                  obtain ⟨rfl, rfl⟩ := h
                  obtain ⟨g1, g2, g3, g4, g5⟩ := hitsReceiver_spec hr
                  refine ⟨(h1.trans (startHoldOff_same q x)).trans (updateHits_same _ _), h2, (h3.start x).hits _, ?_, fun _ _ => ⟨v, rfl⟩⟩
                  intro v' hv'
                  simp only [Option.some.injEq] at hv'
                  subst hv'
                  refine ⟨(h4 v rfl).1, (h4 v rfl).2, x, rfl, fun e => hne e.symm, g1, g3, by rw [← (h1 x).2.1]; exact g4, ?_, g5⟩
                  simp only [updateHits, startHoldOff, upd]
                  split <;> simp

theorem manualLoop_spec (ex : Nat → Nat) (dist : List Nat) : ∀ (k : Nat) (rest : List Nat) (ctx : Ctx),
    (∀ j, rest[j]? = dist[k + j]?) →
    (∀ v, ctx.victim = some v → v < k ∧ ∃ e, dist[v]? = some e ∧ e < ex v) →
    (∀ x, ctx.receiver = some x → x < k ∧ ∃ e, dist[x]? = some e ∧ ex x < e) →
    (∀ v, (manualLoop ex k rest ctx).victim = some v → v < dist.length ∧ (∃ e, dist[v]? = some e ∧ e < ex v) ∧
      ∃ x, (manualLoop ex k rest ctx).receiver = some x ∧ x < dist.length ∧ ∃ e, dist[x]? = some e ∧ ex x < e) ∧
    (∀ x, (manualLoop ex k rest ctx).receiver = some x → ∃ v, (manualLoop ex k rest ctx).victim = some v) := by
  intro k rest
  induction rest generalizing k with
  | nil => intro ctx _ _ _; simp [manualLoop, noOp]
  | cons d ds ih =>
    intro ctx hd hv hx
    have h0 : dist[k]? = some d := by have := hd 0; simpa using this.symm
    have hd' : ∀ j, ds[j]? = dist[k + 1 + j]? := by intro j; have := hd (j + 1); simp only [List.getElem?_cons_succ] at this; rw [this]; congr 1; omega
    have lt : ∀ (v : Nat) (e : Nat), dist[v]? = some e → v < dist.length := by
      intro v e h; exact (List.getElem?_eq_some_iff.mp h).1
    simp only [manualLoop]
    generalize hc : (if d < ex k then { ctx with victim := some k } else if ex k < d then { ctx with receiver := some k } else ctx) = c
    have cv : ∀ v, c.victim = some v → v < k + 1 ∧ ∃ e, dist[v]? = some e ∧ e < ex v := by
      intro v hv'
      rw [← hc] at hv'
      split at hv'
      · simp only [Option.some.injEq] at hv'; subst hv'; exact ⟨Nat.lt_succ_self k, d, h0, by assumption⟩
      · split at hv'
        · have := hv v hv'; exact ⟨Nat.lt_succ_of_lt this.1, this.2⟩
        · have := hv v hv'; exact ⟨Nat.lt_succ_of_lt this.1, this.2⟩
    have cx : ∀ v, c.receiver = some v → v < k + 1 ∧ ∃ e, dist[v]? = some e ∧ ex v < e := by
      intro v hv'
      rw [← hc] at hv'
      split at hv'
      · have := hx v hv'; exact ⟨Nat.lt_succ_of_lt this.1, this.2⟩
      · split at hv'
        · simp only [Option.some.injEq] at hv'; subst hv'; exact ⟨Nat.lt_succ_self k, d, h0, by assumption⟩
        · have := hx v hv'; exact ⟨Nat.lt_succ_of_lt this.1, this.2⟩
    split
    · rename_i hb
      simp only [Bool.and_eq_true, Option.isSome_iff_exists] at hb
      obtain ⟨⟨v0, hv0⟩, ⟨x0, hx0⟩⟩ := hb
      refine ⟨?_, fun _ _ => ⟨v0, hv0⟩⟩
      intro v hv'
      obtain ⟨a, e, he, hlt⟩ := cv v hv'
      obtain ⟨a2, e2, he2, hlt2⟩ := cx x0 hx0
      exact ⟨lt v e he, ⟨e, he, hlt⟩, x0, hx0, lt x0 e2 he2, e2, he2, hlt2⟩
    · exact ih (k + 1) c hd' cv cx

theorem manualVictim_spec (ex : Nat → Nat) (dist : List Nat) : ∀ (k : Nat) (rest : List Nat), (∀ j, rest[j]? = dist[k + j]?) →
    ∀ v, manualVictim ex k rest = some v → v < dist.length ∧ ∃ e, dist[v]? = some e ∧ e < ex v := by
  intro k rest
  induction rest generalizing k with
  | nil => intro _ v h; cases h
  | cons d ds ih =>
    intro hd v h
    have h0 : dist[k]? = some d := by have := hd 0; simpa using this.symm
    have hd' : ∀ j, ds[j]? = dist[k + 1 + j]? := by intro j; have := hd (j + 1); simp only [List.getElem?_cons_succ] at this; rw [this]; congr 1; omega
    simp only [manualVictim] at h
    split at h
    · simp only [Option.some.injEq] at h; subst h
      exact ⟨(List.getElem?_eq_some_iff.mp h0).1, d, h0, by assumption⟩
    · exact ih (k + 1) hd' v h

/-- MarginalHits: what it returns -/
theorem marginalImpl_spec (hw : WF p r) {m f : Nat} {a : Rat} {ctx : Ctx} (h : marginalImpl p r m f a = some (p', ctx)) :
    Same p p' ∧ (∀ c ∈ p'.ents, c ∈ r.ids) ∧ Hold p r 0 p' ∧
    (∀ v, ctx.victim = some v → v ∈ r.ids ∧ m < Spec.slabs r v ∧
      ∃ x, ctx.receiver = some x ∧ x ≠ v ∧ x ∈ r.ids ∧ r.freeMem x < f * kSlab) ∧
    (∀ x, ctx.receiver = some x → ∃ v, ctx.victim = some v) := by
  unfold marginalImpl at h
  split at h
  · simp only [Option.some.injEq, Prod.mk.injEq] at h
    obtain ⟨rfl, rfl⟩ := h
    exact ⟨Same.refl _, hw.ents, Hold.refl _, by simp [noOp], by simp [noOp]⟩
  · dsimp only at h
    generalize hq : (if p.ents = [] then { p with ents := r.ids, ranks := fun c => if c ∈ r.ids then 0 else p.ranks c } else p : Pool) = q at *
    have qi : q.info = p.info := by rw [← hq]; split <;> rfl
    have qe : ∀ c ∈ q.ents, c ∈ r.ids := by
      intro c hc
      rw [← hq] at hc
      split at hc
      · exact hc
      · exact hw.ents c hc
    simp only [Option.some.injEq, Prod.mk.injEq] at h
    obtain ⟨rfl, rfl⟩ := h
    refine ⟨?_, qe, ?_, ?_, ?_⟩
    · intro c; dsimp only; rw [qi]; exact ⟨rfl, rfl, rfl⟩
    · intro c _; dsimp only; rw [qi]; omega
    · intro v hv
      obtain ⟨a, b, -, x, hx, hne, c, d, -⟩ := checkedPick_spec hv
      simp only [decide_eq_true_eq] at b d
      exact ⟨qe v a, b, x, hx, hne, qe x c, d⟩
    · intro x hx; exact checkedPick_recv hx

/-- the facts about all strategies -/
theorem pickImpl_spec (hw : WF p r) (st : Strategy) {ctx : Ctx} (h : pickImpl st p r = some (p', ctx)) :
    Same p p' ∧ (∀ c ∈ p'.ents, c ∈ r.ids) ∧ Hold p r 1 p' ∧
    (∀ v, ctx.victim = some v → v ∈ r.ids ∧ (Spec.Idle st p r → Spec.Enough st r v)) ∧
    (∀ x, ctx.receiver = some x → x ∈ r.ids) ∧
    (∀ v x, ctx.victim = some v → ctx.receiver = some x → x ≠ v) := by
  have hn := hw.nodup
  cases st with
  | nothing =>
    simp only [pickImpl, Option.some.injEq, Prod.mk.injEq] at h
    obtain ⟨rfl, rfl⟩ := h
    exact ⟨Same.refl _, hw.ents, Hold.refl _, by simp [noOp], by simp [noOp], by simp [noOp]⟩
  | lru m f d w =>
    obtain ⟨h1, h2, h3, h4, h5⟩ := lruImpl_spec hn (show lruImpl p r m f d w = some (p', ctx) from h)
    refine ⟨h1, by rw [h2]; exact hw.ents, h3, ?_, ?_, ?_⟩
    · intro v hv
      obtain ⟨⟨a, b⟩, c, -⟩ := h4 v hv
      refine ⟨a, ?_⟩
      intro hid
      simp only [Spec.Idle, Spec.Enough] at hid ⊢
      rcases b with b | ⟨b1, b2⟩
      · exact b.1
      · rcases hid with hid | ⟨c', i1, i2, i3, i4⟩
        · exact c hid
        · by_cases hf : f = 0
          · exact c hf
          · exact absurd (b2 c' i1 i2 hf i3) i4
    · intro x hx
      obtain ⟨v, hv⟩ := h5 x hx
      obtain ⟨-, -, y, hy, -, hm, -⟩ := h4 v hv
      rw [hy] at hx; cases hx; exact hm
    · intro v x hv hx
      obtain ⟨-, -, y, hy, hne, -⟩ := h4 v hv
      rw [hy] at hx; cases hx; exact hne
  | hits g =>
    obtain ⟨h1, h2, h3, h4, h5⟩ := hitsImpl_spec hn (show hitsImpl p r g = some (p', ctx) from h)
    refine ⟨h1, by rw [h2]; exact hw.ents, h3, ?_, ?_, ?_⟩
    · intro v hv
      obtain ⟨⟨a, b⟩, c, -⟩ := h4 v hv
      refine ⟨a, ?_⟩
      intro hid
      simp only [Spec.Idle, Spec.Enough] at hid ⊢
      rcases b with b | ⟨b1, b2⟩
      · exact b.1
      · rcases hid with hid | hid | ⟨c', i1, i2, i3, i4, i5, i6⟩
        · exact c (.inl hid)
        · exact c (.inr hid)
        · exact absurd (b2 c' i1 i2 ⟨i5, i6⟩ i3) i4
    · intro x hx
      obtain ⟨v, hv⟩ := h5 x hx
      obtain ⟨-, -, y, hy, -, hm, -⟩ := h4 v hv
      rw [hy] at hx; cases hx; exact hm
    · intro v x hv hx
      obtain ⟨-, -, y, hy, hne, -⟩ := h4 v hv
      rw [hy] at hx; cases hx; exact hne
  | marginal m f a =>
    obtain ⟨h1, h2, h3, h4, h5⟩ := marginalImpl_spec hw (show marginalImpl p r m f a = some (p', ctx) from h)
    refine ⟨h1, h2, h3.mono (by omega), ?_, ?_, ?_⟩
    · intro v hv; obtain ⟨a, b, -⟩ := h4 v hv; exact ⟨a, fun _ => b⟩
    · intro x hx
      obtain ⟨v, hv⟩ := h5 x hx
      obtain ⟨-, -, y, hy, -, hm, -⟩ := h4 v hv
      rw [hy] at hx; cases hx; exact hm
    · intro v x hv hx
      obtain ⟨-, -, y, hy, hne, -⟩ := h4 v hv
      rw [hy] at hx; cases hx; exact hne
  | freeMem m f u =>
    simp only [pickImpl, freeMemImpl] at h
    have nop : some (p, noOp) = some (p', ctx) →
      Same p p' ∧ (∀ c ∈ p'.ents, c ∈ r.ids) ∧ Hold p r 1 p' ∧
      (∀ v, ctx.victim = some v → v ∈ r.ids ∧ (Spec.Idle (.freeMem m f u) p r → Spec.Enough (.freeMem m f u) r v)) ∧
      (∀ x, ctx.receiver = some x → x ∈ r.ids) ∧ (∀ v x, ctx.victim = some v → ctx.receiver = some x → x ≠ v) := by
      intro h
      simp only [Option.some.injEq, Prod.mk.injEq] at h
      obtain ⟨rfl, rfl⟩ := h
      exact ⟨Same.refl _, hw.ents, Hold.refl _, by simp [noOp], by simp [noOp], by simp [noOp]⟩
    split at h
    · exact nop h
    · split at h
      · exact nop h
      · split at h
        · cases h
        · exact nop h
        · rename_i v hv
          simp only [Option.some.injEq, Prod.mk.injEq] at h
          obtain ⟨rfl, rfl⟩ := h
          refine ⟨Same.refl _, hw.ents, Hold.refl _, ?_, by simp, by simp⟩
          intro v' hv'
          simp only [Option.some.injEq] at hv'
          subst hv'
          obtain ⟨g1, g2, g3, g4⟩ := freeMem_spec hv
          refine ⟨g1, ?_⟩
          intro hid
          simp only [Spec.Idle, Spec.Enough] at hid ⊢
          rcases g4 with ⟨g4, -, -⟩ | ⟨g4, g5⟩
          · exact (mem_filterSlabs.mp g4).2
          · rcases hid with rfl | ⟨c, i1, i2, i3⟩
            · simp at g3
            · exact absurd (g5 c (mem_filterSlabs.mpr ⟨i1, i2⟩)) i3
  | random m =>
    simp only [pickImpl, randomImpl, Option.some.injEq, Prod.mk.injEq] at h
    obtain ⟨rfl, rfl⟩ := h
    refine ⟨Same.refl _, hw.ents, Hold.refl _, ?_, ?_, ?_⟩
    · intro v hv
      have := mem_filterSlabs.mp (List.mem_of_getElem? hv)
      exact ⟨this.1, fun _ => this.2⟩
    · intro x hx; exact (List.mem_filter.mp (List.mem_of_getElem? hx)).1
    · intro v x hv hx
      have := (List.mem_filter.mp (List.mem_of_getElem? hx)).2
      dsimp only at hv
      rw [hv] at this
      intro e
      subst e
      simp at this
  | manual dist =>
    simp only [pickImpl, manualImpl] at h
    split at h
    · simp only [Option.some.injEq, Prod.mk.injEq] at h
      obtain ⟨rfl, rfl⟩ := h
      exact ⟨Same.refl _, hw.ents, Hold.refl _, by simp [noOp], by simp [noOp], by simp [noOp]⟩
    · rename_i hl
      have hl : dist.length = r.ids.length := Classical.not_not.mp hl
      simp only [Option.some.injEq, Prod.mk.injEq] at h
      obtain ⟨rfl, rfl⟩ := h
      obtain ⟨g1, g2⟩ := manualLoop_spec r.slabs dist 0 dist noOp (by intro j; simp) (by simp [noOp]) (by simp [noOp])
      refine ⟨Same.refl _, hw.ents, Hold.refl _, ?_, ?_, ?_⟩
      · intro v hv
        obtain ⟨a, ⟨e, he, hlt⟩, -⟩ := g1 v hv
        exact ⟨hw.lt.mpr (hl ▸ a), fun _ => ⟨e, he, hlt⟩⟩
      · intro x hx
        obtain ⟨v, hv⟩ := g2 x hx
        obtain ⟨-, -, y, hy, hlt, -⟩ := g1 v hv
        rw [hy] at hx; cases hx; exact hw.lt.mpr (hl ▸ hlt)
      · intro v x hv hx
        obtain ⟨-, ⟨e, he, hlt⟩, y, hy, -, e2, he2, hlt2⟩ := g1 v hv
        rw [hy] at hx; cases hx
        rintro rfl
        rw [he] at he2; cases he2; omega
  | resize m =>
    simp only [pickImpl, Option.some.injEq, Prod.mk.injEq] at h
    obtain ⟨rfl, rfl⟩ := h
    exact ⟨Same.refl _, hw.ents, Hold.refl _, by simp [noOp], by simp [noOp], by simp [noOp]⟩

/-- the victim alone -/
theorem victimImpl_spec (hw : WF p r) (st : Strategy) {v : Option ClassId} (h : victimImpl st p r = some (p', v)) :
    Same p p' ∧ (∀ c ∈ p'.ents, c ∈ r.ids) ∧ Hold p r 1 p' ∧
    (∀ x, v = some x → x ∈ r.ids ∧ (Spec.Idle st p r → Spec.Enough st r x)) := by
  have hn := hw.nodup
  cases st with
  | nothing | freeMem _ _ _ | random _ =>
    simp only [victimImpl, Option.some.injEq, Prod.mk.injEq] at h
    obtain ⟨rfl, rfl⟩ := h
    exact ⟨Same.refl _, hw.ents, Hold.refl _, by simp⟩
  | lru m f d w =>
    obtain ⟨h1, h2, h3, h4⟩ := lruPickVictim_spec hn (show lruPickVictim p r m f = some (p', v) from h)
    refine ⟨h1, by rw [h2]; exact hw.ents, h3, ?_⟩
    intro v hv
    obtain ⟨⟨a, b⟩, c⟩ := h4 v hv
    refine ⟨a, ?_⟩
    intro hid
    simp only [Spec.Idle, Spec.Enough] at hid ⊢
    rcases b with b | ⟨b1, b2⟩
    · exact b.1
    · rcases hid with hid | ⟨c', i1, i2, i3, i4⟩
      · exact c hid
      · by_cases hf : f = 0
        · exact c hf
        · exact absurd (b2 c' i1 i2 hf i3) i4
  | hits g =>
    simp only [victimImpl] at h
    cases hp : hitsPickVictim p r g with
    | none => rw [hp] at h; cases h
    | some q =>
      obtain ⟨q, u⟩ := q
      rw [hp] at h
      simp only [Option.some.injEq, Prod.mk.injEq] at h
      obtain ⟨rfl, rfl⟩ := h
      obtain ⟨h1, h2, h3, h4⟩ := hitsPickVictim_spec hn hp
      refine ⟨h1.trans (updateHits_same _ _), by intro c hc; exact hw.ents c (by rw [← h2]; exact hc), h3.hits _, ?_⟩
      intro v hv
      obtain ⟨⟨a, b⟩, c⟩ := h4 v hv
      refine ⟨a, ?_⟩
      intro hid
      simp only [Spec.Idle, Spec.Enough] at hid ⊢
      rcases b with b | ⟨b1, b2⟩
      · exact b.1
      · rcases hid with hid | hid | ⟨c', i1, i2, i3, i4, i5, i6⟩
        · exact c (.inl hid)
        · exact c (.inr hid)
        · exact absurd (b2 c' i1 i2 ⟨i5, i6⟩ i3) i4
  | marginal m f a =>
    simp only [victimImpl] at h
    cases hp : marginalImpl p r m f a with
    | none => rw [hp] at h; cases h
    | some q =>
      obtain ⟨q, ctx⟩ := q
      rw [hp] at h
      simp only [Option.some.injEq, Prod.mk.injEq] at h
      obtain ⟨rfl, rfl⟩ := h
      obtain ⟨h1, h2, h3, h4, h5⟩ := marginalImpl_spec hw hp
      refine ⟨h1, h2, h3.mono (by omega), ?_⟩
      intro x hx
      obtain ⟨a, b, -⟩ := h4 x hx
      exact ⟨a, fun _ => b⟩
  | manual d =>
    simp only [victimImpl, Option.some.injEq, Prod.mk.injEq] at h
    obtain ⟨rfl, rfl⟩ := h
    refine ⟨Same.refl _, hw.ents, Hold.refl _, ?_⟩
    intro x hx
    split at hx
    · cases hx
    · rename_i hl
      have hl : d.length = r.ids.length := Classical.not_not.mp hl
      obtain ⟨a, e, he, hlt⟩ := manualVictim_spec r.slabs d 0 d (by intro j; simp) x hx
      exact ⟨hw.lt.mpr (hl ▸ a), fun _ => ⟨e, he, hlt⟩⟩
  | resize m =>
    simp only [victimImpl, Option.some.injEq, Prod.mk.injEq] at h
    obtain ⟨rfl, rfl⟩ := h
    refine ⟨Same.refl _, hw.ents, Hold.refl _, ?_⟩
    intro x hx
    have := mem_filterSlabs.mp (maxElement_mem hx)
    exact ⟨this.1, fun _ => this.2⟩

theorem totalSlabs_spec {v : ClassId} (h : totalSlabsPick r = some (some v)) :
    v ∈ r.ids ∧ 0 < Spec.slabs r v ∧ ∀ c ∈ r.ids, Spec.slabs r c ≤ Spec.slabs r v := by
  unfold totalSlabsPick at h
  split at h
  · cases h
  · rename_i c hc
    simp only [Option.some.injEq] at h
    split at h
    · cases h
    · rename_i h0
      simp only [Option.some.injEq] at h
      subst h
      refine ⟨maxElement_mem hc, ?_, maxElement_max (f := r.slabs) hc⟩
      exact Nat.pos_of_ne_zero h0

theorem fallback_spec {fb : Fallback} {v : ClassId} (h : fallback fb r = some (some v)) :
    v ∈ r.ids ∧ Spec.FallbackOK fb r v := by
  cases fb with
  | totalSlabs =>
    have := totalSlabs_spec (show totalSlabsPick r = some (some v) from h)
    exact ⟨this.1, .inl this.2⟩
  | allocationSize m n =>
    simp only [fallback] at h
    split at h
    · have := totalSlabs_spec h
      exact ⟨this.1, .inl this.2⟩
    · simp only [Option.some.injEq] at h
      have := List.mem_of_getElem? h
      rw [List.mem_insertionSort, List.mem_filter] at this
      exact ⟨this.1, .inr (of_decide_eq_true this.2)⟩

theorem idle_same {q : Pool} {st : Strategy} (hs : Same p q)
    (hh : ∀ c, (p.info c).holdOff = 0 → (q.info c).holdOff = 0) (h : Spec.Idle st p r) : Spec.Idle st q r := by
  cases st with
  | lru m f d w =>
    rcases h with h | ⟨c, h1, h2, h3, h4⟩
    · exact .inl h
    · exact .inr ⟨c, h1, h2, hh c h3, by simp only [Spec.Evicting]; rw [(hs c).2.1]; exact h4⟩
  | hits g =>
    rcases h with h | h | ⟨c, h1, h2, h3, h4, h5⟩
    · exact .inl h
    · exact .inr (.inl h)
    · exact .inr (.inr ⟨c, h1, h2, hh c h3, by simp only [Spec.Evicting]; rw [(hs c).2.1]; exact h4, h5⟩)
  | freeMem m f u =>
    rcases h with h | ⟨c, h1, h2, h4⟩
    · exact .inl h
    · exact .inr ⟨c, h1, h2, by simp only [Spec.Evicting]; rw [(hs c).2.1]; exact h4⟩
  | _ => trivial

theorem hitsPickVictim_pool {g : HitsCfg} {v : Option ClassId} (h : hitsPickVictim p r g = some (p', v)) :
    p' = (filterHoldOff p r.toStats (filterSlabs r.toStats r.ids g.minSlabs)).1 := by
  unfold hitsPickVictim at h
  dsimp only at h
  generalize filterHoldOff p r.toStats (filterSlabs r.toStats r.ids g.minSlabs) = w at *
  generalize (List.filter _ (if g.minLruTailAge ≠ 0 then _ else w.2)) = l2 at *
  split at h
  · simp only [Option.some.injEq, Prod.mk.injEq] at h; exact h.1.symm
  · split at h
    · cases h
    · simp only [Option.some.injEq, Prod.mk.injEq] at h; exact h.1.symm
    · simp only [Option.some.injEq, Prod.mk.injEq] at h; exact h.1.symm

/-- picking a victim alone does not start a hold-off -/
theorem victimImpl_zero (hw : WF p r) (st : Strategy) {v : Option ClassId} (h : victimImpl st p r = some (p', v)) :
    ∀ c, (p.info c).holdOff = 0 → (p'.info c).holdOff = 0 := by
  have hn := hw.nodup
  have key : ∀ m, ∀ c, (p.info c).holdOff = 0 → ((filterHoldOff p r.toStats (filterSlabs r.toStats r.ids m)).1.info c).holdOff = 0 := by
    intro m c hc
    obtain ⟨-, -, -, -, -, h6⟩ := filterHoldOff_spec p r.toStats (filterSlabs r.toStats r.ids m) (filterSlabs_nodup hn m)
    rw [h6 c]
    simp only [hc]
    split
    · split <;> rfl
    · rfl
  cases st with
  | nothing | freeMem _ _ _ | random _ | manual _ | resize _ =>
    simp only [victimImpl, Option.some.injEq, Prod.mk.injEq] at h
    obtain ⟨rfl, rfl⟩ := h
    exact fun _ h => h
  | lru m f d w =>
    have h : lruPickVictim p r m f = some (p', v) := h
    unfold lruPickVictim at h
    dsimp only at h
    have k := key m
    generalize filterHoldOff p r.toStats (filterSlabs r.toStats r.ids m) = q at *
    split at h
    · simp only [Option.some.injEq, Prod.mk.injEq] at h; obtain ⟨rfl, -⟩ := h; exact k
    · split at h
      · cases h
      · simp only [Option.some.injEq, Prod.mk.injEq] at h; obtain ⟨rfl, -⟩ := h; exact k
      · simp only [Option.some.injEq, Prod.mk.injEq] at h; obtain ⟨rfl, -⟩ := h; exact k
  | hits g =>
    simp only [victimImpl] at h
    cases hp : hitsPickVictim p r g with
    | none => rw [hp] at h; cases h
    | some q =>
      obtain ⟨q, u⟩ := q
      rw [hp] at h
      simp only [Option.some.injEq, Prod.mk.injEq] at h
      obtain ⟨rfl, rfl⟩ := h
      have hq : ∀ c, (p.info c).holdOff = 0 → (q.info c).holdOff = 0 := by
        rw [hitsPickVictim_pool hp]; exact key g.minSlabs
      intro c hc
      simp only [updateHits]
      split
      · exact hq c hc
      · exact hq c hc
  | marginal m f a =>
    simp only [victimImpl] at h
    cases hp : marginalImpl p r m f a with
    | none => rw [hp] at h; cases h
    | some q =>
      obtain ⟨q, ctx⟩ := q
      rw [hp] at h
      simp only [Option.some.injEq, Prod.mk.injEq] at h
      obtain ⟨rfl, rfl⟩ := h
      unfold marginalImpl at hp
      split at hp
      · simp only [Option.some.injEq, Prod.mk.injEq] at hp; obtain ⟨rfl, -⟩ := hp; exact fun _ h => h
      · simp only [Option.some.injEq, Prod.mk.injEq] at hp
        obtain ⟨rfl, -⟩ := hp
        intro c hc
        dsimp only
        split <;> exact hc

theorem recvFail_spec {x : ClassId} (h : pickReceiverWithAllocFailures p r.toStats = some x) :
    x ∈ r.ids ∧ Spec.Failing p r x ∧ ∀ c ∈ r.ids, r.allocFailures c - (p.info c).allocFailures ≤ r.allocFailures x - (p.info x).allocFailures := by
  have hd : ∀ c, deltaAllocFailures p r.toStats c = r.allocFailures c - (p.info c).allocFailures := by
    intro c; simp only [deltaAllocFailures]; split <;> omega
  have hm : ∀ c, c ∈ filterAllocFailure p r.toStats r.ids ↔ c ∈ r.ids ∧ r.allocFailures c - (p.info c).allocFailures ≠ 0 := by
    intro c; unfold filterAllocFailure; rw [List.mem_filter, not_decide, hd]
  unfold pickReceiverWithAllocFailures at h
  have h1 := (hm x).mp (maxElement_mem h)
  refine ⟨h1.1, by unfold Spec.Failing; omega, ?_⟩
  intro c hc
  by_cases h0 : r.allocFailures c - (p.info c).allocFailures = 0
  · omega
  · have := maxElement_max (f := deltaAllocFailures p r.toStats) h c ((hm c).mpr ⟨hc, h0⟩)
    rw [hd, hd] at this
    exact this

/-- the body of pickVictimAndReceiver -/
theorem pickBody_spec (hw : WF p r) (fb : Fallback) (st : Strategy) {ctx : Ctx} (h : pickBody fb st p r = some (p', ctx)) :
    Same p p' ∧ (∀ c ∈ p'.ents, c ∈ r.ids) ∧ Hold p r 2 p' ∧
    (∀ v, ctx.victim = some v → v ∈ r.ids ∧ (Spec.Idle st p r → Spec.Enough st r v ∨
      (Spec.FallbackOK fb r v ∧ 1 < (p.info v).nSlabs ∧ ∃ x, ctx.receiver = some x ∧ Spec.Failing p r x ∧
        ∀ c ∈ r.ids, r.allocFailures c - (p.info c).allocFailures ≤ r.allocFailures x - (p.info x).allocFailures))) ∧
    (∀ x, ctx.receiver = some x → x ∈ r.ids) ∧
    (∀ v x, ctx.victim = some v → ctx.receiver = some x → x ≠ v) := by
  unfold pickBody at h
  split at h
  · obtain ⟨h1, h2, h3, h4, h5, h6⟩ := pickImpl_spec hw st h
    exact ⟨h1, h2, h3.mono (by omega), fun v hv => ⟨(h4 v hv).1, fun i => .inl ((h4 v hv).2 i)⟩, h5, h6⟩
  · rename_i x hx
    have hrx := recvFail_spec hx
    split at h
    · cases h
    · rename_i q v hv
      obtain ⟨h1, h2, h3, h4⟩ := victimImpl_spec hw st hv
      have hz := victimImpl_zero hw st hv
      have hw' : WF q r := ⟨hw.ids, hw.ne, h2⟩
      have again : pickImpl st q r = some (p', ctx) → _ := fun h => pickImpl_spec hw' st h
      have fin : pickImpl st q r = some (p', ctx) → Same p p' ∧ (∀ c ∈ p'.ents, c ∈ r.ids) ∧ Hold p r 2 p' ∧
          (∀ v, ctx.victim = some v → v ∈ r.ids ∧ (Spec.Idle st p r → Spec.Enough st r v ∨
            (Spec.FallbackOK fb r v ∧ 1 < (p.info v).nSlabs ∧ ∃ x, ctx.receiver = some x ∧ Spec.Failing p r x ∧
              ∀ c ∈ r.ids, r.allocFailures c - (p.info c).allocFailures ≤ r.allocFailures x - (p.info x).allocFailures))) ∧
          (∀ x, ctx.receiver = some x → x ∈ r.ids) ∧
          (∀ v x, ctx.victim = some v → ctx.receiver = some x → x ≠ v) := by
        intro h
        obtain ⟨g1, g2, g3, g4, g5, g6⟩ := again h
        exact ⟨h1.trans g1, g2, h3.trans h1 g3, fun v hv => ⟨(g4 v hv).1, fun i => .inl ((g4 v hv).2 (idle_same h1 hz i))⟩, g5, g6⟩
      split at h
      · cases h
      · rename_i u hu
        split at h
        · rename_i hc
          simp only [Option.some.injEq, Prod.mk.injEq] at h
          obtain ⟨rfl, rfl⟩ := h
          refine ⟨h1.trans (startHoldOff_same q x), h2, (h3.start x).mono (by omega), ?_, ?_, ?_⟩
          · intro v' hv'
            simp only [Option.some.injEq] at hv'
            subst hv'
            have hns : 1 < (p.info u).nSlabs := by rw [← (h1 u).1]; exact hc.2
            cases v with
            | some v0 =>
              simp only [Option.some.injEq] at hu
              subst hu
              exact ⟨(h4 v0 rfl).1, fun i => .inl ((h4 v0 rfl).2 i)⟩
            | none =>
              have := fallback_spec hu
              exact ⟨this.1, fun _ => .inr ⟨this.2, hns, x, rfl, hrx.2⟩⟩
          · intro y hy; simp only [Option.some.injEq] at hy; subst hy; exact hrx.1
          · intro v' y hv' hy
            simp only [Option.some.injEq] at hv' hy
            subst hv'; subst hy
            exact fun e => hc.1 e.symm
        · exact fin h
      · exact fin h

/-! ### the claims -/

/-- **C42a.** No strategy ever returns the same class as victim and receiver, and both are classes of the pool. -/
theorem victim_ne_receiver (fb : Fallback) (st : Strategy) (s : Option Pool) (hw : ∀ p, s = some p → WF p r) (q : Pool) (ctx : Ctx)
    (h : pick fb st s r = some (q, ctx)) :
    (∀ v x, ctx.victim = some v → ctx.receiver = some x → v ≠ x) ∧
    (∀ v, ctx.victim = some v → v ∈ r.ids) ∧ (∀ x, ctx.receiver = some x → x ∈ r.ids) := by
  cases s with
  | none =>
    simp only [pick, Option.some.injEq, Prod.mk.injEq] at h
    obtain ⟨-, rfl⟩ := h
    simp [noOp]
  | some p =>
    simp only [pick] at h
    split at h
    · cases h
    · rename_i p1 c1 hb
      simp only [Option.some.injEq, Prod.mk.injEq] at h
      obtain ⟨-, rfl⟩ := h
      obtain ⟨-, -, -, h4, h5, h6⟩ := pickBody_spec (hw p rfl) fb st hb
      exact ⟨fun v x a b => fun e => h6 v x a b e.symm, fun v hv => (h4 v hv).1, h5⟩

/-- **C42b.** A victim has as many slabs as its strategy requires; only when some class has new allocation failures can it instead be the
choice of the fall-back strategy, and then the receiver is the class with the most failures and the victim had more than one slab at the last
round.  The full claim has no hypothesis `Idle`; without it, it is false (`violated_min_slabs`). -/
theorem victim_has_slabs_partial (fb : Fallback) (st : Strategy) (p : Pool) (hw : WF p r) (hi : Spec.Idle st p r) (q : Pool) (ctx : Ctx)
    (h : pick fb st (some p) r = some (q, ctx)) (v : ClassId) (hv : ctx.victim = some v) :
    Spec.Enough st r v ∨
    (Spec.FallbackOK fb r v ∧ 1 < (p.info v).nSlabs ∧ ∃ x, ctx.receiver = some x ∧ Spec.Failing p r x ∧
      ∀ c ∈ r.ids, r.allocFailures c - (p.info c).allocFailures ≤ r.allocFailures x - (p.info x).allocFailures) := by
  simp only [pick] at h
  split at h
  · cases h
  · rename_i p1 c1 hb
    simp only [Option.some.injEq, Prod.mk.injEq] at h
    obtain ⟨-, rfl⟩ := h
    obtain ⟨-, -, -, h4, -, -⟩ := pickBody_spec hw fb st hb
    exact (h4 v hv).2 hi

/-- **C42c.** For resizing: the victim is a class of the pool with as many slabs as the strategy requires, or the choice of the fall-back
strategy on the newest statistics. -/
theorem resize_victim_partial (fb : Fallback) (st : Strategy) (s : Option Pool) (r2 : Round) (hw : ∀ p, s = some p → WF p r)
    (hi : ∀ p, s = some p → Spec.Idle st p r) (q : Pool) (v : ClassId) (h : pickForResizing fb st s r r2 = some (q, some v)) :
    (v ∈ r.ids ∧ Spec.Enough st r v) ∨ (v ∈ r2.ids ∧ Spec.FallbackOK fb r2 v) := by
  unfold pickForResizing at h
  split at h
  · cases h
  · rename_i p1 v1 hs
    simp only [Option.some.injEq, Prod.mk.injEq] at h
    obtain ⟨-, rfl⟩ := h
    cases s with
    | none => simp at hs
    | some p =>
      dsimp only at hs
      split at hs
      · cases hs
      · rename_i p2 v2 hb
        simp only [Option.some.injEq, Prod.mk.injEq] at hs
        obtain ⟨-, rfl⟩ := hs
        obtain ⟨-, -, -, h4⟩ := victimImpl_spec (hw p rfl) st hb
        exact .inl ⟨(h4 v1 rfl).1, (h4 v1 rfl).2 (hi p rfl)⟩
  · split at h
    · cases h
    · rename_i u hu
      simp only [Option.some.injEq, Prod.mk.injEq] at h
      obtain ⟨-, rfl⟩ := h
      exact .inr (fallback_spec hu)

/-- **C42d.** Without weights, LruTailAge moves a slab only if the victim's projected age exceeds the receiver's age by the configured
difference; the receiver is evicting and has no free slab.  (The rebalancing by allocation failures has priority.) -/
theorem lru_improves (m f d : Nat) (p : Pool) (hw : WF p r) (fb : Fallback) (q : Pool) (v x : ClassId)
    (hnf : ∀ c ∈ r.ids, ¬ Spec.Failing p r c)
    (h : pick fb (.lru m f d false) (some p) r = some (q, ⟨some v, some x⟩)) :
    r.oldAge x + d ≤ r.projAge v ∧ r.freeSlabs x = 0 ∧ r.evictions x ≠ (p.info x).evictions := by
  simp only [pick, pickBody] at h
  cases hp : pickReceiverWithAllocFailures p r.toStats with
  | some y => exact absurd (recvFail_spec hp).2.1 (hnf y (recvFail_spec hp).1)
  | none =>
    rw [hp] at h
    dsimp only at h
    split at h
    · cases h
    · rename_i p1 c1 hb
      simp only [Option.some.injEq, Prod.mk.injEq] at h
      obtain ⟨-, rfl⟩ := h
      obtain ⟨-, -, -, h4, -⟩ := lruImpl_spec hw.nodup (show lruImpl p r m f d false = some _ from hb)
      obtain ⟨-, -, y, hy, -, -, g1, g2, -, g3⟩ := h4 v rfl
      simp only [Option.some.injEq] at hy
      subst hy
      exact ⟨g3 rfl, g1, g2⟩

/-- **C42e.** A round started from nothing (the pool is seen for the first time) picks nothing. -/
theorem first_round (fb : Fallback) (st : Strategy) : ∃ q, pick fb st none r = some (q, ⟨none, none⟩) := ⟨_, rfl⟩

/-- Rounds with the same strategy: the state before each round, its statistics, and the choice. -/
def rounds (fb : Fallback) (st : Strategy) : Pool → List Round → Option (List (Pool × Round × Ctx))
  | _, [] => some []
  | p, r :: rs =>
    match pick fb st (some p) r with
    | none => none
    | some (q, ctx) =>
      match rounds fb st q rs with
      | none => none
      | some l => some ((p, r, ctx) :: l)

theorem Chosen.not_held {m : Nat} {ok : ClassId → Prop} {x : ClassId} (h : Chosen m ok p r x) (hc : 0 < (p.info x).holdOff)
    (he : r.evictions x = (p.info x).evictions) : x = r.junk ∧ ∀ c ∈ r.ids, m < Spec.slabs r c → ok c → (p.info c).holdOff = 0 → Spec.Evicting p r c := by
  rcases h.2 with ⟨_, h | h⟩ | h
  · omega
  · exact absurd he h
  · exact h

theorem Chosen.idle_lru {m f d : Nat} {w : Bool} {x : ClassId} (h : Chosen m (fun _ => f ≠ 0) p r x) (hf : f ≠ 0) (hi : Spec.Idle (.lru m f d w) p r) :
    (p.info x).holdOff = 0 ∨ r.evictions x ≠ (p.info x).evictions := by
  rcases h.2 with h | ⟨-, h⟩
  · exact h.2
  · rcases hi with hi | ⟨c, h1, h2, h3, h4⟩
    · exact absurd hi hf
    · exact absurd (h c h1 h2 hf h3) h4

/-- LruTailAge and HitsPerSlab never choose a class on hold-off that does not evict. -/
theorem held_not_chosen (hw : WF p r) (st : Strategy) (hst : (∃ m f d w, st = .lru m f d w) ∨ ∃ g, st = .hits g)
    (hi : Spec.Idle st p r) (c : ClassId) (hc : 0 < (p.info c).holdOff) (he : r.evictions c = (p.info c).evictions) :
    (∀ v, victimImpl st p r = some (p', v) → v ≠ some c) ∧ (∀ ctx, pickImpl st p r = some (p', ctx) → ctx.victim ≠ some c) := by
  have lru : ∀ m f d w, st = .lru m f d w → ∀ x, Chosen m (fun _ => f ≠ 0) p r x → (f = 0 → x ∈ r.ids) → x = c → f = 0 := by
    rintro m f d w rfl x hx - rfl
    apply Classical.byContradiction
    intro hf
    have := hx.idle_lru hf hi
    omega
  rcases hst with ⟨m, f, d, w, rfl⟩ | ⟨g, rfl⟩
  · -- with f = 0 the free-memory search is off, and the victim is one of the filtered classes
    have key : ∀ q v, lruPickVictim p r m f = some (q, v) → v ≠ some c := by
      intro q v h hv
      subst hv
      have hf := filterHoldOff_spec p r.toStats (filterSlabs r.toStats r.ids m) (filterSlabs_nodup hw.nodup m)
      have hch := (lruPickVictim_spec hw.nodup h).2.2.2 c rfl
      by_cases hf0 : f = 0
      · unfold lruPickVictim at h
        dsimp only at h
        generalize filterHoldOff p r.toStats (filterSlabs r.toStats r.ids m) = w at *
        obtain ⟨-, -, -, -, h5, -⟩ := hf
        split at h
        · simp at h
        · split at h
          · cases h
          · rename_i hv; have := (freeMem_spec hv).2.2.1; rw [hf0] at this; simp at this
          · simp only [Option.some.injEq, Prod.mk.injEq] at h
            have := ((h5 c).mp (maxElement_mem h.2)).2
            omega
      · exact hf0 (lru m f d w rfl c hch.1 (fun h => absurd h hf0) rfl)
    refine ⟨fun v h => key p' v h, ?_⟩
    intro ctx h hv
    have h : lruImpl p r m f d w = some (p', ctx) := h
    unfold lruImpl at h
    split at h
    · simp only [Option.some.injEq, Prod.mk.injEq] at h; rw [← h.2] at hv; cases hv
    · cases hp : lruPickVictim p r m f with
      | none => rw [hp] at h; cases h
      | some q =>
        obtain ⟨q, v⟩ := q
        have := key q v hp
        rw [hp] at h
        dsimp only at h
        split at h
        · split at h
          · simp only [Option.some.injEq, Prod.mk.injEq] at h; rw [← h.2] at hv; cases hv
          · split at h
            · simp only [Option.some.injEq, Prod.mk.injEq] at h; rw [← h.2] at hv; cases hv
            · simp only [Option.some.injEq, Prod.mk.injEq] at h; rw [← h.2] at hv; exact this hv
        · simp only [Option.some.injEq, Prod.mk.injEq] at h; rw [← h.2] at hv; cases hv
  · have key : ∀ q v, hitsPickVictim p r g = some (q, v) → v ≠ some c := by
      intro q v h hv
      subst hv
      have hch := (hitsPickVictim_spec hw.nodup h).2.2.2 c rfl
      obtain ⟨hj, hall⟩ := hch.1.not_held hc he
      rcases hi with h0 | h0 | ⟨c', i1, i2, i3, i4, i5, i6⟩
      all_goals try exact absurd (hall c' i1 i2 ⟨i5, i6⟩ i3) i4
      all_goals
        have hf := filterHoldOff_spec p r.toStats (filterSlabs r.toStats r.ids g.minSlabs) (filterSlabs_nodup hw.nodup _)
        unfold hitsPickVictim at h
        dsimp only at h
        generalize filterHoldOff p r.toStats (filterSlabs r.toStats r.ids g.minSlabs) = w at *
        obtain ⟨-, -, -, -, h5, -⟩ := hf
        generalize hl1 : (if g.minLruTailAge ≠ 0 then w.2.filter (fun i => !decide (r.evictionAge i < g.minLruTailAge)) else w.2) = l1 at *
        have m1 : ∀ x, x ∈ l1 → x ∈ w.2 := by
          intro x hx; rw [← hl1] at hx; split at hx
          · exact (List.mem_filter.mp hx).1
          · exact hx
        split at h
        · simp at h
        · split at h
          · cases h
          · rename_i hv
            split at hv
            · rename_i hby
              first
                | (rw [hby] at h0; cases h0; done)
                | (have := (freeMem_spec hv).2.2.1; rw [h0] at this; simp at this; done)
            · cases hv
          · simp only [Option.some.injEq, Prod.mk.injEq] at h
            have hx := minElement_mem h.2
            have : c ∈ w.2 := by
              split at hx
              · exact m1 c (List.mem_filter.mp (List.mem_filter.mp hx).1).1
              · exact m1 c (List.mem_filter.mp hx).1
            have := ((h5 c).mp this).2
            omega
    refine ⟨?_, ?_⟩
    · intro v h hv
      simp only [victimImpl] at h
      cases hp : hitsPickVictim p r g with
      | none => rw [hp] at h; cases h
      | some q =>
        obtain ⟨q, u⟩ := q
        rw [hp] at h
        simp only [Option.some.injEq, Prod.mk.injEq] at h
        exact key q u hp (h.2.trans hv)
    · intro ctx h hv
      have h : hitsImpl p r g = some (p', ctx) := h
      unfold hitsImpl at h
      split at h
      · simp only [Option.some.injEq, Prod.mk.injEq] at h; rw [← h.2] at hv; cases hv
      · cases hp : hitsPickVictim p r g with
        | none => rw [hp] at h; cases h
        | some q =>
          obtain ⟨q, v⟩ := q
          have := key q v hp
          rw [hp] at h
          dsimp only at h
          split at h
          · cases h
          · split at h
            · simp only [Option.some.injEq, Prod.mk.injEq] at h; rw [← h.2] at hv; cases hv
            · split at h
              · cases h
              · split at h
                · simp only [Option.some.injEq, Prod.mk.injEq] at h; rw [← h.2] at hv; cases hv
                · simp only [Option.some.injEq, Prod.mk.injEq] at h; rw [← h.2] at hv; exact this hv
          · simp only [Option.some.injEq, Prod.mk.injEq] at h; rw [← h.2] at hv; cases hv

/-- One round: a class on hold-off (for at least two more attempts) that does not evict is a victim only by the fall-back strategy, and its
hold-off goes down by at most two. -/
theorem holdoff_round (hw : WF p r) (fb : Fallback) (st : Strategy) (hst : (∃ m f d w, st = .lru m f d w) ∨ ∃ g, st = .hits g)
    (hi : Spec.Idle st p r) (c : ClassId) (hc : 2 ≤ (p.info c).holdOff) (he : r.evictions c = (p.info c).evictions)
    (q : Pool) (ctx : Ctx) (h : pick fb st (some p) r = some (q, ctx)) :
    (ctx.victim = some c → ∃ d ∈ r.ids, d ≠ c ∧ Spec.Failing p r d ∧ ctx.receiver = some d ∧ Spec.FallbackOK fb r c) ∧
    min (p.info c).holdOff 10 ≤ (q.info c).holdOff + 2 ∧ (q.info c).evictions = (p.info c).evictions ∧ (∀ e ∈ q.ents, e ∈ r.ids) := by
  simp only [pick] at h
  split at h
  · cases h
  · rename_i p1 c1 hb
    simp only [Option.some.injEq, Prod.mk.injEq] at h
    obtain ⟨rfl, rfl⟩ := h
    obtain ⟨h1, h2, h3, -, -, -⟩ := pickBody_spec hw fb st hb
    refine ⟨?_, ?_, ?_, h2⟩
    · intro hv
      unfold pickBody at hb
      split at hb
      · exact absurd hv ((held_not_chosen hw st hst hi c (by omega) he).2 _ hb)
      · rename_i x hx
        have hrx := recvFail_spec hx
        split at hb
        · cases hb
        · rename_i q0 v hvi
          obtain ⟨k1, k2, k3, -⟩ := victimImpl_spec hw st hvi
          have hz := victimImpl_zero hw st hvi
          have hw' : WF q0 r := ⟨hw.ids, hw.ne, k2⟩
          have again : pickImpl st q0 r = some (p1, c1) → False := by
            intro h
            have hk := k3 c he
            exact (held_not_chosen hw' st hst (idle_same k1 hz hi) c (by omega) (by rw [(k1 c).2.1]; exact he)).2 _ h hv
          split at hb
          · cases hb
          · rename_i u hu
            split at hb
            · simp only [Option.some.injEq, Prod.mk.injEq] at hb
              obtain ⟨-, rfl⟩ := hb
              simp only [Option.some.injEq] at hv
              subst hv
              cases v with
              | some v0 =>
                simp only [Option.some.injEq] at hu
                exact absurd (by rw [hu]) ((held_not_chosen hw st hst hi u (by omega) he).1 _ hvi)
              | none => rename_i hcc; exact ⟨x, hrx.1, fun e => hcc.1 e.symm, hrx.2.1, rfl, (fallback_spec hu).2⟩
            · exact absurd hb again
          · exact absurd hb again
    · have := h3 c he
      simp only [record]
      split
      · dsimp only; omega
      · omega
    · simp only [record]
      split
      · exact he
      · exact (h1 c).2.1

/-- several rounds -/
theorem holdoff_rounds (fb : Fallback) (st : Strategy) (hst : (∃ m f d w, st = .lru m f d w) ∨ ∃ g, st = .hits g)
    (c : ClassId) (k : Nat) (hk : 0 < k) (rs : List Round) : ∀ (p : Pool) (n : Nat), rs.length ≤ n → n ≤ 5 → 2 * n ≤ (p.info c).holdOff →
    (∀ r ∈ rs, r.evictions c = (p.info c).evictions) →
    (∀ r ∈ rs, r.ids = List.range k) → (∀ e ∈ p.ents, e < k) →
    ∀ (l : List (Pool × Round × Ctx)), rounds fb st p rs = some l → (∀ t ∈ l, Spec.Idle st t.1 t.2.1) →
      ∀ t ∈ l, t.2.2.victim = some c →
        ∃ d ∈ t.2.1.ids, d ≠ c ∧ Spec.Failing t.1 t.2.1 d ∧ t.2.2.receiver = some d ∧ Spec.FallbackOK fb t.2.1 c := by
  induction rs with
  | nil =>
    intro p n _ _ _ _ _ _ l h _ t hl
    simp only [rounds, Option.some.injEq] at h
    rw [← h] at hl; cases hl
  | cons r rs ih =>
    intro p n hn h5 h2 he hids hents l h hid t hl hv
    simp only [rounds] at h
    split at h
    · cases h
    · rename_i q1 c1 h1
      split at h
      · cases h
      · rename_i l2 hr
        simp only [Option.some.injEq] at h
        subst h
        simp only [List.length_cons] at hn
        have hr0 := hids r (by simp)
        have hw : WF p r := ⟨by rw [hr0]; simp, by rw [hr0]; simp; omega, by intro e h; rw [hr0]; simpa using hents e h⟩
        obtain ⟨a1, a2, a3, a4⟩ := holdoff_round hw fb st hst (hid (p, r, c1) (by simp)) c (by omega) (he r (by simp)) q1 c1 h1
        simp only [List.mem_cons] at hl
        rcases hl with rfl | hl
        · exact a1 hv
        · exact ih q1 (n - 1) (by omega) (by omega) (by omega) (fun r' hr' => by rw [a3]; exact he r' (by simp [hr']))
            (fun r' hr' => hids r' (by simp [hr'])) (by intro e h; have := a4 e h; rw [hr0] at this; simpa using this)
            l2 hr (fun t ht => hid t (by simp [ht])) t hl hv

end Verif.Rebalance
