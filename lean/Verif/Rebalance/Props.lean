import Verif.Rebalance.Lemmas
import Mathlib.Data.List.Nodup
/-!
C42: what the rebalancing strategies may choose.
-/
namespace Verif.Rebalance
open Verif

namespace Spec

/-- slabs of a class -/
abbrev slabs (r : Round) (c : ClassId) : Nat := r.freeSlabs c + r.usedSlabs c

/-- the class evicted something since the last round -/
abbrev Evicting (p : Pool) (r : Round) (c : ClassId) : Prop := (p.info c).evictions < r.evictions c

/-- The class has as many slabs as the strategy requires of a victim. -/
def Enough (st : Strategy) (r : Round) (v : ClassId) : Prop :=
  match st with
  | .nothing => False
  | .lru m _ _ _ => m < slabs r v
  | .hits c => c.minSlabs < slabs r v
  | .marginal m _ _ => m < slabs r v
  | .freeMem m _ _ => m < slabs r v
  | .random m => m < slabs r v
  | .manual d => ∃ e, d[v]? = some e ∧ e < slabs r v
  | .resize m => m < slabs r v

/-- The search by free memory is off, or some class that may be a victim is not evicting. -/
def Idle (st : Strategy) (p : Pool) (r : Round) : Prop :=
  match st with
  | .lru m f _ _ => f = 0 ∨ ∃ c ∈ r.ids, m < slabs r c ∧ (p.info c).holdOff = 0 ∧ ¬ Evicting p r c
  | .hits g => g.byFreeMem = false ∨ g.numSlabsFreeMem = 0 ∨
      ∃ c ∈ r.ids, g.minSlabs < slabs r c ∧ (p.info c).holdOff = 0 ∧ ¬ Evicting p r c ∧
        g.minLruTailAge ≤ r.evictionAge c ∧ ∀ t, g.target.lookup c = some t → t ≤ r.evictionAge c
  | .freeMem m f _ => f = 0 ∨ ∃ c ∈ r.ids, m < slabs r c ∧ ¬ Evicting p r c
  | _ => True

/-- the class has more allocation failures than at the last round -/
def Failing (p : Pool) (r : Round) (c : ClassId) : Prop := (p.info c).allocFailures < r.allocFailures c

/-- what the fall-back strategy may choose -/
def FallbackOK (fb : Fallback) (r : Round) (v : ClassId) : Prop :=
  (0 < slabs r v ∧ ∀ c ∈ r.ids, slabs r c ≤ slabs r v) ∨
  match fb with
  | .totalSlabs => False
  | .allocationSize m _ => m ≤ slabs r v

end Spec

/-- The class ids of a pool are 0, ..., n-1 with n > 0, the same in every round. -/
structure WF (p : Pool) (r : Round) : Prop where
  ids : r.ids = List.range r.ids.length
  ne : r.ids ≠ []
  ents : ∀ c ∈ p.ents, c ∈ r.ids

/-- records after a call: hold-off of classes that do not evict goes down by at most one, or is started -/
def Hold (p : Pool) (r : Round) (n : Nat) (q : Pool) : Prop :=
  ∀ c, r.evictions c = (p.info c).evictions → min (p.info c).holdOff 10 ≤ (q.info c).holdOff + n

/-- the facts about a victim chosen by LruTailAge or HitsPerSlab -/
def Chosen (m : Nat) (ok : ClassId → Prop) (p : Pool) (r : Round) (x : ClassId) : Prop :=
  x ∈ r.ids ∧
  ((m < Spec.slabs r x ∧ ((p.info x).holdOff = 0 ∨ r.evictions x ≠ (p.info x).evictions)) ∨
   (x = r.junk ∧ ∀ c ∈ r.ids, m < Spec.slabs r c → ok c → (p.info c).holdOff = 0 → Spec.Evicting p r c))

variable {p p' : Pool} {r : Round}

theorem hold_of_filter {l : List ClassId} (hn : l.Nodup) : Hold p r 1 (filterHoldOff p r.toStats l).1 := by
  obtain ⟨-, -, -, -, -, h6⟩ := filterHoldOff_spec p r.toStats l hn
  intro c hc
  rw [h6 c]
  simp only [hc, if_true]
  split <;> omega

theorem Hold.mono {n k : Nat} (h : Hold p r n p') (hk : n ≤ k) : Hold p r k p' := fun c hc => by have := h c hc; omega

theorem Hold.refl (n : Nat) : Hold p r n p := fun c _ => by omega

theorem Hold.trans {q : Pool} {n k : Nat} (h : Hold p r n q) (hs : Same p q) (g : Hold q r k p') : Hold p r (n + k) p' := by
  intro c hc
  have h1 := h c hc
  have h2 := g c (by rw [(hs c).2.1]; exact hc)
  omega

theorem Hold.start {n : Nat} (h : Hold p r n p') (x : ClassId) : Hold p r n (startHoldOff p' x) := by
  intro c hc
  have := h c hc
  simp only [startHoldOff, upd]
  split
  · dsimp only; omega
  · exact this

theorem Hold.hits {n : Nat} (h : Hold p r n p') (s : Stats) : Hold p r n (updateHits p' s) := by
  intro c hc
  have := h c hc
  simp only [updateHits]
  split
  · exact this
  · exact this

theorem filterSlabs_nodup (hn : r.ids.Nodup) (m : Nat) : (filterSlabs r.toStats r.ids m).Nodup := hn.filter _

theorem lruPickVictim_spec (hn : r.ids.Nodup) {m f : Nat} {v : Option ClassId} (h : lruPickVictim p r m f = some (p', v)) :
    Same p p' ∧ p'.ents = p.ents ∧ Hold p r 1 p' ∧
    ∀ x, v = some x → Chosen m (fun _ => f ≠ 0) p r x ∧ (f = 0 → m < Spec.slabs r x) := by
  have hf := filterHoldOff_spec p r.toStats (filterSlabs r.toStats r.ids m) (filterSlabs_nodup hn m)
  have hh : Hold p r 1 _ := hold_of_filter (filterSlabs_nodup hn m)
  unfold lruPickVictim at h
  dsimp only at h
  generalize filterHoldOff p r.toStats (filterSlabs r.toStats r.ids m) = q at *
  obtain ⟨h1, h2, h3, h4, h5, h6⟩ := hf
  have mem : ∀ x ∈ q.2, x ∈ r.ids ∧ m < Spec.slabs r x ∧ ((p.info x).holdOff = 0 ∨ r.evictions x ≠ (p.info x).evictions) := by
    intro x hx
    have := (h5 x).mp hx
    have g := mem_filterSlabs.mp this.1
    exact ⟨g.1, g.2, this.2⟩
  split at h
  · simp only [Option.some.injEq, Prod.mk.injEq] at h
    obtain ⟨rfl, rfl⟩ := h
    exact ⟨h1, h2, hh, by simp⟩
  · split at h
    · cases h
    · rename_i v' hv
      simp only [Option.some.injEq, Prod.mk.injEq] at h
      obtain ⟨rfl, rfl⟩ := h
      refine ⟨h1, h2, hh, ?_⟩
      intro x hx
      cases hx
      obtain ⟨g1, g2, g3, g4⟩ := freeMem_spec hv
      have hf0 : f ≠ 0 := by rintro rfl; simp at g3
      refine ⟨⟨g1, ?_⟩, fun h => absurd h hf0⟩
      rcases g4 with ⟨g4, -, -⟩ | ⟨g4, g5⟩
      · exact .inl (mem _ g4).2
      · right
        refine ⟨g4, ?_⟩
        intro c hc hcm _ hch
        have := g5 c ((h5 c).mpr ⟨mem_filterSlabs.mpr ⟨hc, hcm⟩, .inl hch⟩)
        rw [(h1 c).2.1] at this
        exact this
    · simp only [Option.some.injEq, Prod.mk.injEq] at h
      obtain ⟨rfl, rfl⟩ := h
      refine ⟨h1, h2, hh, ?_⟩
      intro x hx
      have := mem x (maxElement_mem hx)
      exact ⟨⟨this.1, .inl this.2⟩, fun _ => this.2.1⟩

theorem lookup_isSome {l : List (Nat × Nat)} {c : Nat} : (∀ t, l.lookup c ≠ some t) ∨ ∃ t, l.lookup c = some t := by
  cases h : l.lookup c with
  | none => left; simp
  | some t => exact .inr ⟨t, rfl⟩

/-- the condition on the age of a class for it to be a victim of HitsPerSlab -/
def AgeOK (g : HitsCfg) (r : Round) (c : ClassId) : Prop :=
  g.minLruTailAge ≤ r.evictionAge c ∧ ∀ t, g.target.lookup c = some t → t ≤ r.evictionAge c

theorem hitsPickVictim_spec (hn : r.ids.Nodup) {g : HitsCfg} {v : Option ClassId} (h : hitsPickVictim p r g = some (p', v)) :
    Same p p' ∧ p'.ents = p.ents ∧ Hold p r 1 p' ∧
    ∀ x, v = some x → Chosen g.minSlabs (AgeOK g r) p r x ∧
      ((g.byFreeMem = false ∨ g.numSlabsFreeMem = 0) → g.minSlabs < Spec.slabs r x) := by
  have hf := filterHoldOff_spec p r.toStats (filterSlabs r.toStats r.ids g.minSlabs) (filterSlabs_nodup hn _)
  have hh : Hold p r 1 _ := hold_of_filter (filterSlabs_nodup hn g.minSlabs)
  unfold hitsPickVictim at h
  dsimp only at h
  generalize filterHoldOff p r.toStats (filterSlabs r.toStats r.ids g.minSlabs) = q at *
  obtain ⟨h1, h2, h3, h4, h5, h6⟩ := hf
  generalize hl1 : (if g.minLruTailAge ≠ 0 then q.2.filter (fun i => !decide (r.evictionAge i < g.minLruTailAge)) else q.2) = l1 at *
  have m1 : ∀ x, x ∈ l1 ↔ x ∈ q.2 ∧ g.minLruTailAge ≤ r.evictionAge x := by
    intro x; rw [← hl1]
    split
    · rw [List.mem_filter, not_decide]; constructor
      · rintro ⟨a, b⟩; exact ⟨a, by omega⟩
      · rintro ⟨a, b⟩; exact ⟨a, by omega⟩
    · constructor
      · intro a; exact ⟨a, by omega⟩
      · exact fun a => a.1
  generalize hl2 : (l1.filter fun i => match g.target.lookup i with
    | some t => !decide (r.evictionAge i < t)
    | none => true) = l2 at *
  have m2 : ∀ x, x ∈ l2 ↔ x ∈ q.2 ∧ AgeOK g r x := by
    intro x; rw [← hl2, List.mem_filter, m1]
    unfold AgeOK
    cases hlk : g.target.lookup x with
    | none => simp
    | some t =>
      simp only [not_decide, Option.some.injEq]
      constructor
      · rintro ⟨⟨a, b⟩, c⟩; exact ⟨a, b, fun u hu => by omega⟩
      · rintro ⟨a, b, c⟩; exact ⟨⟨a, b⟩, by have := c t rfl; omega⟩
  clear m1 hl1 hl2
  have mem : ∀ x ∈ l2, x ∈ r.ids ∧ g.minSlabs < Spec.slabs r x ∧ ((p.info x).holdOff = 0 ∨ r.evictions x ≠ (p.info x).evictions) := by
    intro x hx
    have := (h5 x).mp ((m2 x).mp hx).1
    have g := mem_filterSlabs.mp this.1
    exact ⟨g.1, g.2, this.2⟩
  split at h
  · simp only [Option.some.injEq, Prod.mk.injEq] at h
    obtain ⟨rfl, rfl⟩ := h
    exact ⟨h1, h2, hh, by simp⟩
  · split at h
    · cases h
    · rename_i v' hv
      simp only [Option.some.injEq, Prod.mk.injEq] at h
      obtain ⟨rfl, rfl⟩ := h
      refine ⟨h1, h2, hh, ?_⟩
      intro x hx
      cases hx
      split at hv
      · rename_i hby
        obtain ⟨g1, g2, g3, g4⟩ := freeMem_spec hv
        have hf0 : g.numSlabsFreeMem ≠ 0 := by intro h0; rw [h0] at g3; simp at g3
        refine ⟨⟨g1, ?_⟩, by rintro (h | h); { rw [hby] at h; cases h }; { exact absurd h hf0 }⟩
        rcases g4 with ⟨g4, -, -⟩ | ⟨g4, g5⟩
        · exact .inl (mem _ g4).2
        · right
          refine ⟨g4, ?_⟩
          intro c hc hcm hok hch
          have := g5 c ((m2 c).mpr ⟨(h5 c).mpr ⟨mem_filterSlabs.mpr ⟨hc, hcm⟩, .inl hch⟩, hok⟩)
          rw [(h1 c).2.1] at this
          exact this
      · cases hv
    · simp only [Option.some.injEq, Prod.mk.injEq] at h
      obtain ⟨rfl, rfl⟩ := h
      refine ⟨h1, h2, hh, ?_⟩
      intro x hx
      have hx := minElement_mem hx
      have : x ∈ l2 := by
        split at hx
        · exact (List.mem_filter.mp hx).1
        · exact hx
      have := mem x this
      exact ⟨⟨this.1, .inl this.2⟩, fun _ => this.2.1⟩

/-- receivers of LruTailAge -/
theorem lruReceiver_spec {v : Option ClassId} {x : ClassId} (h : lruPickReceiver p r v = some x) :
    x ∈ r.ids ∧ some x ≠ v ∧ r.freeSlabs x = 0 ∧ r.evictions x ≠ (p.info x).evictions := by
  unfold lruPickReceiver at h
  have := mem_filterNoEvictions.mp (minElement_mem h)
  have h2 := List.mem_filter.mp this.1
  exact ⟨h2.1, by simpa using h2.2, this.2⟩

theorem hitsReceivers_spec {g : HitsCfg} {v : Option ClassId} {x : ClassId} (h : x ∈ hitsReceivers p r g v) :
    x ∈ r.ids ∧ some x ≠ v ∧ r.freeSlabs x = 0 ∧ r.evictions x ≠ (p.info x).evictions ∧ 0 < Spec.slabs r x := by
  have key : ∀ x ∈ filterSlabs r.toStats (filterNoEvictions p r.toStats (r.ids.filter fun c => some c ≠ v)) 0,
      x ∈ r.ids ∧ some x ≠ v ∧ r.freeSlabs x = 0 ∧ r.evictions x ≠ (p.info x).evictions ∧ 0 < Spec.slabs r x := by
    intro x hx
    have h1 := mem_filterSlabs.mp hx
    have h2 := mem_filterNoEvictions.mp h1.1
    have h3 := List.mem_filter.mp h2.1
    exact ⟨h3.1, by simpa using h3.2, h2.2.1, h2.2.2, h1.2⟩
  apply key
  unfold hitsReceivers at h
  dsimp only at h
  generalize filterSlabs r.toStats (filterNoEvictions p r.toStats (r.ids.filter fun c => some c ≠ v)) 0 = l at *
  clear key
  generalize hl1 : (if g.maxLruTailAge ≠ 0 ∧ (l.filter fun i => !decide (g.maxLruTailAge < r.evictionAge i)) ≠ [] then
    (l.filter fun i => !decide (g.maxLruTailAge < r.evictionAge i)) else l) = l1 at *
  have s1 : ∀ y ∈ l1, y ∈ l := by
    intro y hy; rw [← hl1] at hy; split at hy
    · exact (List.mem_filter.mp hy).1
    · exact hy
  generalize hb : (l1.filter fun i => match g.target.lookup i with
    | some t => decide (r.evictionAge i < t)
    | none => false) = b at *
  have s2 : ∀ y ∈ b, y ∈ l1 := by intro y hy; rw [← hb] at hy; exact (List.mem_filter.mp hy).1
  generalize hl2 : (if g.target ≠ [] then (if b ≠ [] then b else l1.filter fun i => (g.target.lookup i).isNone) else l1) = l2 at *
  have s3 : ∀ y ∈ l2, y ∈ l1 := by
    intro y hy; rw [← hl2] at hy
    split at hy
    · split at hy
      · exact s2 y hy
      · exact (List.mem_filter.mp hy).1
    · exact hy
  split at h
  · exact s1 x (s3 x (List.mem_filter.mp h).1)
  · exact s1 x (s3 x h)

theorem hitsReceiver_ok (g : HitsCfg) (v : Option ClassId) : hitsPickReceiver p r g v ≠ none := by
  unfold hitsPickReceiver
  have : (hitsReceivers p r g v).all (fun i => (deltaHitsPerSlab p r.toStats i).isSome) = true := by
    rw [List.all_eq_true]
    intro x hx
    have : 0 < r.freeSlabs x + r.usedSlabs x := (hitsReceivers_spec hx).2.2.2.2
    unfold deltaHitsPerSlab Stats.slabs
    split
    · omega
    · rfl
  simp only [this, if_true]
  simp

theorem hitsReceiver_spec {g : HitsCfg} {v : Option ClassId} {x : ClassId} (h : hitsPickReceiver p r g v = some (some x)) :
    x ∈ r.ids ∧ some x ≠ v ∧ r.freeSlabs x = 0 ∧ r.evictions x ≠ (p.info x).evictions ∧ 0 < Spec.slabs r x := by
  unfold hitsPickReceiver at h
  dsimp only at h
  split at h
  · simp only [Option.some.injEq] at h
    exact hitsReceivers_spec (maxElement_mem h)
  · cases h

/-! ### choice by rank -/

theorem pickFromRankings_spec (ents : List Nat) (ranks : Nat → Rat) (vV vR : Nat → Bool) :
    (∀ v, (pickFromRankings ents ranks vV vR).1 = some v → v ∈ ents ∧ vV v = true ∧ ∀ e ∈ ents, vV e = true → ranks v ≤ ranks e) ∧
    (∀ v, (pickFromRankings ents ranks vV vR).2 = some v → v ∈ ents ∧ vR v = true ∧ ∀ e ∈ ents, vR e = true → ranks e ≤ ranks v) ∧
    ((pickFromRankings ents ranks vV vR).1 = none → ∀ e ∈ ents, vV e = true → (ents.length : Rat) ≤ ranks e) ∧
    ((pickFromRankings ents ranks vV vR).2 = none → ∀ e ∈ ents, vR e = true → ranks e ≤ -1) := by
  unfold pickFromRankings
  dsimp only
  generalize hz0 : ((none, (ents.length : Rat)), ((none : Option Nat), (-1 : Rat))) = z0
  -- generalised over the elements already seen
  have key : ∀ (l done : List Nat) (z : (Option Nat × Rat) × (Option Nat × Rat)),
      (∀ v, z.1.1 = some v → z.1.2 = ranks v ∧ v ∈ done ∧ vV v = true ∧ ∀ e ∈ done, vV e = true → ranks v ≤ ranks e) →
      (∀ v, z.2.1 = some v → z.2.2 = ranks v ∧ v ∈ done ∧ vR v = true ∧ ∀ e ∈ done, vR e = true → ranks e ≤ ranks v) →
      (z.1.1 = none → z.1.2 = z0.1.2 ∧ ∀ e ∈ done, vV e = true → z0.1.2 ≤ ranks e) →
      (z.2.1 = none → z.2.2 = z0.2.2 ∧ ∀ e ∈ done, vR e = true → ranks e ≤ z0.2.2) →
      let w := l.foldl (fun (z : (Option Nat × Rat) × (Option Nat × Rat)) e =>
        (if vV e && decide (ranks e < z.1.2) then (some e, ranks e) else z.1,
         if vR e && decide (z.2.2 < ranks e) then (some e, ranks e) else z.2)) z
      (∀ v, w.1.1 = some v → v ∈ done ++ l ∧ vV v = true ∧ ∀ e ∈ done ++ l, vV e = true → ranks v ≤ ranks e) ∧
      (∀ v, w.2.1 = some v → v ∈ done ++ l ∧ vR v = true ∧ ∀ e ∈ done ++ l, vR e = true → ranks e ≤ ranks v) ∧
      (w.1.1 = none → ∀ e ∈ done ++ l, vV e = true → z0.1.2 ≤ ranks e) ∧
      (w.2.1 = none → ∀ e ∈ done ++ l, vR e = true → ranks e ≤ z0.2.2) := by
    intro l
    induction l with
    | nil =>
      intro done z h1 h2 h3 h4
      simp only [List.foldl_nil, List.append_nil]
      exact ⟨fun v hv => (h1 v hv).2, fun v hv => (h2 v hv).2, fun h => (h3 h).2, fun h => (h4 h).2⟩
    | cons x xs ih =>
      intro done z h1 h2 h3 h4
      have := ih (done ++ [x]) (if vV x && decide (ranks x < z.1.2) then (some x, ranks x) else z.1,
         if vR x && decide (z.2.2 < ranks x) then (some x, ranks x) else z.2) ?_ ?_ ?_ ?_
      · simp only [List.append_assoc, List.singleton_append] at this
        exact this
      · dsimp only
        split
        · rename_i hx
          simp only [Bool.and_eq_true, decide_eq_true_eq] at hx
          intro v hv
          simp only [Option.some.injEq] at hv
          subst hv
          refine ⟨rfl, by simp, hx.1, ?_⟩
          intro e he hve
          simp only [List.mem_append, List.mem_singleton] at he
          rcases he with he | rfl
          · cases hz : z.1.1 with
            | none => have := h3 hz; have h5 := this.2 e he hve; rw [this.1] at hx; grind
            | some u => have := h1 u hz; have h5 := this.2.2.2 e he hve; rw [this.1] at hx; grind
          · exact Rat.le_refl
        · rename_i hx
          simp only [Bool.and_eq_true, decide_eq_true_eq] at hx
          intro v hv
          obtain ⟨a, b, c, d⟩ := h1 v hv
          refine ⟨a, by simp [b], c, ?_⟩
          intro e he hve
          simp only [List.mem_append, List.mem_singleton] at he
          rcases he with he | rfl
          · exact d e he hve
          · rw [a] at hx; grind
      · dsimp only
        split
        · rename_i hx
          simp only [Bool.and_eq_true, decide_eq_true_eq] at hx
          intro v hv
          simp only [Option.some.injEq] at hv
          subst hv
          refine ⟨rfl, by simp, hx.1, ?_⟩
          intro e he hve
          simp only [List.mem_append, List.mem_singleton] at he
          rcases he with he | rfl
          · cases hz : z.2.1 with
            | none => have := h4 hz; have h5 := this.2 e he hve; rw [this.1] at hx; grind
            | some u => have := h2 u hz; have h5 := this.2.2.2 e he hve; rw [this.1] at hx; grind
          · exact Rat.le_refl
        · rename_i hx
          simp only [Bool.and_eq_true, decide_eq_true_eq] at hx
          intro v hv
          obtain ⟨a, b, c, d⟩ := h2 v hv
          refine ⟨a, by simp [b], c, ?_⟩
          intro e he hve
          simp only [List.mem_append, List.mem_singleton] at he
          rcases he with he | rfl
          · exact d e he hve
          · rw [a] at hx; grind
      · dsimp only
        split
        · intro h; cases h
        · rename_i hx
          simp only [Bool.and_eq_true, decide_eq_true_eq] at hx
          intro h
          obtain ⟨a, b⟩ := h3 h
          refine ⟨a, ?_⟩
          intro e he hve
          simp only [List.mem_append, List.mem_singleton] at he
          rcases he with he | rfl
          · exact b e he hve
          · rw [a] at hx; grind
      · dsimp only
        split
        · intro h; cases h
        · rename_i hx
          simp only [Bool.and_eq_true, decide_eq_true_eq] at hx
          intro h
          obtain ⟨a, b⟩ := h4 h
          refine ⟨a, ?_⟩
          intro e he hve
          simp only [List.mem_append, List.mem_singleton] at he
          rcases he with he | rfl
          · exact b e he hve
          · rw [a] at hx; grind
  have := key ents [] z0 (by rw [← hz0]; simp) (by rw [← hz0]; simp) (by rw [← hz0]; simp) (by rw [← hz0]; simp)
  simp only [List.nil_append] at this
  rw [← hz0] at this ⊢
  exact this

theorem checkedPick_spec {ents : List Nat} {ranks : Nat → Rat} {vV vR : Nat → Bool} {v : Nat}
    (h : (checkedPick ents ranks vV vR).1 = some v) :
    v ∈ ents ∧ vV v = true ∧ (∀ e ∈ ents, vV e = true → ranks v ≤ ranks e) ∧
    ∃ x, (checkedPick ents ranks vV vR).2 = some x ∧ x ≠ v ∧ x ∈ ents ∧ vR x = true ∧ ∀ e ∈ ents, vR e = true → ranks e ≤ ranks x := by
  obtain ⟨h1, h2, -, -⟩ := pickFromRankings_spec ents ranks vV vR
  unfold checkedPick at h ⊢
  cases hp : pickFromRankings ents ranks vV vR with
  | mk a b =>
    rw [hp] at h1 h2 h
    cases a with
    | none => cases h
    | some a =>
      cases b with
      | none => cases h
      | some b =>
        dsimp only at h ⊢
        split at h
        · cases h
        · rename_i hab
          simp only [Option.some.injEq] at h
          subst h
          have := h1 a rfl
          simp only [hab, if_false]
          exact ⟨this.1, this.2.1, this.2.2, b, rfl, fun e => hab e.symm, (h2 b rfl).1, (h2 b rfl).2.1, (h2 b rfl).2.2⟩

theorem checkedPick_recv {ents : List Nat} {ranks : Nat → Rat} {vV vR : Nat → Bool} {x : Nat}
    (h : (checkedPick ents ranks vV vR).2 = some x) : ∃ v, (checkedPick ents ranks vV vR).1 = some v := by
  unfold checkedPick at h ⊢
  split at h
  · split at h
    · cases h
    · simp_all
  · cases h

end Verif.Rebalance
