import Verif.Rebalance.Main
import Mathlib.Tactic.Linarith
import Mathlib.Tactic.NormNum
import Mathlib.Algebra.Order.Ring.Rat
/-!
C42: hold-off after a slab was received, absence of faults, the counterexample, and the choices of the pool rebalancer and the pool optimizer.
-/
namespace Verif.Rebalance
open Verif

variable {p p' : Pool} {r : Round}

/-- After a round in which LruTailAge or HitsPerSlab (or the rebalancing by allocation failures) chose a receiver, its hold-off is 10. -/
theorem receiver_holdoff (hw : WF p r) (fb : Fallback) (st : Strategy) (hst : (∃ m f d w, st = .lru m f d w) ∨ ∃ g, st = .hits g)
    (q : Pool) (ctx : Ctx) (x : ClassId) (h : pick fb st (some p) r = some (q, ctx)) (hx : ctx.receiver = some x) :
    (q.info x).holdOff = 10 ∧ (q.info x).evictions = r.evictions x ∧ ∀ e ∈ q.ents, e ∈ r.ids := by
  simp only [pick] at h
  split at h
  · cases h
  · rename_i p1 c1 hb
    simp only [Option.some.injEq, Prod.mk.injEq] at h
    obtain ⟨rfl, rfl⟩ := h
    obtain ⟨-, h2, -, -, h5, -⟩ := pickBody_spec hw fb st hb
    have hxm := h5 x hx
    have key : ∀ q, WF q r → pickImpl st q r = some (p1, c1) → (p1.info x).holdOff = 10 := by
      intro q hq hp
      rcases hst with ⟨m, f, d, w, rfl⟩ | ⟨g, rfl⟩
      · obtain ⟨-, -, -, h4, h5⟩ := lruImpl_spec hq.nodup (show lruImpl q r m f d w = some (p1, c1) from hp)
        obtain ⟨v, hv⟩ := h5 x hx
        obtain ⟨-, -, y, hy, -, -, -, -, hh, -⟩ := h4 v hv
        rw [hx] at hy; cases hy; exact hh
      · obtain ⟨-, -, -, h4, h5⟩ := hitsImpl_spec hq.nodup (show hitsImpl q r g = some (p1, c1) from hp)
        obtain ⟨v, hv⟩ := h5 x hx
        obtain ⟨-, -, y, hy, -, -, -, -, hh, -⟩ := h4 v hv
        rw [hx] at hy; cases hy; exact hh
    have h10 : (p1.info x).holdOff = 10 := by
      unfold pickBody at hb
      split at hb
      · exact key p hw hb
      · split at hb
        · cases hb
        · rename_i q0 v hvi
          have hw' : WF q0 r := ⟨hw.ids, hw.ne, (victimImpl_spec hw st hvi).2.1⟩
          split at hb
          · cases hb
          · split at hb
            · simp only [Option.some.injEq, Prod.mk.injEq] at hb
              obtain ⟨rfl, rfl⟩ := hb
              simp only [Option.some.injEq] at hx
              subst hx
              simp [startHoldOff, upd]
            · exact key q0 hw' hb
          · exact key q0 hw' hb
    simp only [record, hxm, if_true]
    exact ⟨h10, trivial, h2⟩

/-- **C42f.** Hold-off: a class that was given a slab by LruTailAge or HitsPerSlab is not chosen as a victim in the next five rounds as long as
it does not evict, except by the fall-back strategy when some other class has new allocation failures. -/
theorem holdoff_five_rounds (fb : Fallback) (st : Strategy) (hst : (∃ m f d w, st = .lru m f d w) ∨ ∃ g, st = .hits g)
    (k : Nat) (hk : 0 < k) (p : Pool) (hp : ∀ e ∈ p.ents, e < k) (r : Round) (hr : r.ids = List.range k)
    (q : Pool) (ctx : Ctx) (c : ClassId) (h : pick fb st (some p) r = some (q, ctx)) (hc : ctx.receiver = some c)
    (rs : List Round) (hlen : rs.length ≤ 5) (hids : ∀ r' ∈ rs, r'.ids = List.range k) (he : ∀ r' ∈ rs, r'.evictions c = r.evictions c)
    (l : List (Pool × Round × Ctx)) (hl : rounds fb st q rs = some l) (hid : ∀ t ∈ l, Spec.Idle st t.1 t.2.1) :
    ∀ t ∈ l, t.2.2.victim = some c →
      ∃ d ∈ t.2.1.ids, d ≠ c ∧ Spec.Failing t.1 t.2.1 d ∧ t.2.2.receiver = some d ∧ Spec.FallbackOK fb t.2.1 c := by
  have hw : WF p r := ⟨by rw [hr]; simp, by rw [hr]; simp; omega, by intro e h; rw [hr]; simpa using hp e h⟩
  obtain ⟨h1, h2, h3⟩ := receiver_holdoff hw fb st hst q ctx c h hc
  exact holdoff_rounds fb st hst c k hk rs q 5 hlen (Nat.le_refl _) (by omega) (fun r' h => by rw [h2]; exact he r' h) hids
    (by intro e h; have := h3 e h; rw [hr] at this; simpa using this) l hl hid

/-! ### no fault -/

theorem lruPickVictim_ok (hw : WF p r) {m f d : Nat} {w : Bool} (hi : Spec.Idle (.lru m f d w) p r) : lruPickVictim p r m f ≠ none := by
  have hf := filterHoldOff_spec p r.toStats (filterSlabs r.toStats r.ids m) (filterSlabs_nodup hw.nodup m)
  unfold lruPickVictim
  dsimp only
  generalize filterHoldOff p r.toStats (filterSlabs r.toStats r.ids m) = q at *
  obtain ⟨h1, -, -, -, h5, -⟩ := hf
  split
  · simp
  · have := freeMem_ok (p := q.1) (r := r) (victims := q.2) (t := f * kSlab) (fun c hc => (mem_filterSlabs.mp ((h5 c).mp hc).1).1) (by
      rcases hi with hi | ⟨c, i1, i2, i3, i4⟩
      · left; rw [hi]; simp
      · right; right
        refine ⟨c, (h5 c).mpr ⟨mem_filterSlabs.mpr ⟨i1, i2⟩, .inl i3⟩, ?_⟩
        rw [(h1 c).2.1]
        exact Nat.le_of_not_lt i4)
    split
    · contradiction
    · simp
    · simp

theorem hitsPickVictim_ok (hw : WF p r) {g : HitsCfg} (hi : Spec.Idle (.hits g) p r) : hitsPickVictim p r g ≠ none := by
  have hf := filterHoldOff_spec p r.toStats (filterSlabs r.toStats r.ids g.minSlabs) (filterSlabs_nodup hw.nodup _)
  unfold hitsPickVictim
  dsimp only
  generalize filterHoldOff p r.toStats (filterSlabs r.toStats r.ids g.minSlabs) = q at *
  obtain ⟨h1, -, -, -, h5, -⟩ := hf
  generalize hl1 : (if g.minLruTailAge ≠ 0 then q.2.filter (fun i => !decide (r.evictionAge i < g.minLruTailAge)) else q.2) = l1 at *
  have m1 : ∀ x, x ∈ l1 ↔ x ∈ q.2 ∧ g.minLruTailAge ≤ r.evictionAge x := by
    intro x; rw [← hl1]
    split
    · rw [List.mem_filter, not_decide]; constructor
      · rintro ⟨a, b⟩; exact ⟨a, by omega⟩
      · rintro ⟨a, b⟩; exact ⟨a, by omega⟩
    · constructor
      · intro a; exact ⟨a, by omega⟩
      · exact fun a => a.1
  generalize hl2 : (l1.filter fun i => match g.target.lookup i with
    | some t => !decide (r.evictionAge i < t)
    | none => true) = l2 at *
  have m2 : ∀ x, x ∈ l2 ↔ x ∈ q.2 ∧ AgeOK g r x := by
    intro x; rw [← hl2, List.mem_filter, m1]
    unfold AgeOK
    cases hlk : g.target.lookup x with
    | none => simp
    | some t =>
      simp only [not_decide, Option.some.injEq]
      constructor
      · rintro ⟨⟨a, b⟩, c⟩; exact ⟨a, b, fun u hu => by omega⟩
      · rintro ⟨a, b, c⟩; exact ⟨⟨a, b⟩, by have := c t rfl; omega⟩
  clear hl1 hl2
  split
  · simp
  · split
    · rename_i hv
      split at hv
      · rename_i hby
        refine absurd hv (freeMem_ok (p := q.1) (r := r) (victims := l2) (fun c hc => (mem_filterSlabs.mp ((h5 c).mp ((m2 c).mp hc).1).1).1) ?_)
        rcases hi with hi | hi | ⟨c, i1, i2, i3, i4, i5⟩
        · rw [hby] at hi; cases hi
        · left; rw [hi]; simp
        · right; right
          refine ⟨c, (m2 c).mpr ⟨(h5 c).mpr ⟨mem_filterSlabs.mpr ⟨i1, i2⟩, .inl i3⟩, i5⟩, ?_⟩
          rw [(h1 c).2.1]
          exact Nat.le_of_not_lt i4
      · cases hv
    · simp
    · simp

theorem pickImpl_ok (hw : WF p r) (st : Strategy) (hi : Spec.Idle st p r) : pickImpl st p r ≠ none := by
  cases st with
  | nothing | random _ | resize _ => simp [pickImpl, randomImpl]
  | manual d => simp only [pickImpl, manualImpl]; split <;> simp
  | marginal m f a => simp only [pickImpl, marginalImpl]; split <;> simp
  | lru m f d w =>
    simp only [pickImpl, lruImpl]
    split
    · simp
    · cases hv : lruPickVictim p r m f with
      | none => exact absurd hv (lruPickVictim_ok hw hi)
      | some q =>
        obtain ⟨q, v⟩ := q
        dsimp only
        split
        · split
          · simp
          · split <;> simp
        · simp
  | hits g =>
    simp only [pickImpl, hitsImpl]
    split
    · simp
    · cases hv : hitsPickVictim p r g with
      | none => exact absurd hv (hitsPickVictim_ok hw hi)
      | some q =>
        obtain ⟨q, v⟩ := q
        dsimp only
        cases hr : hitsPickReceiver q r g v with
        | none => exact absurd hr (hitsReceiver_ok g v)
        | some x =>
        cases v with
        | none => simp
        | some v =>
        cases x with
        | none => simp
        | some x =>
          dsimp only
          split
          · simp
          · split
            · rename_i hd
              have : 0 < r.freeSlabs x + r.usedSlabs x := (hitsReceiver_spec hr).2.2.2.2
              unfold deltaHitsPerSlab Stats.slabs at hd
              split at hd
              · omega
              · cases hd
            · split <;> simp
  | freeMem m f u =>
    simp only [pickImpl, freeMemImpl]
    split
    · simp
    · split
      · simp
      · have := freeMem_ok (p := p) (r := r) (victims := filterSlabs r.toStats r.ids m) (t := f * kSlab) (fun c hc => (mem_filterSlabs.mp hc).1) (by
          rcases hi with hi | ⟨c, i1, i2, i4⟩
          · left; rw [hi]; simp
          · right; right
            exact ⟨c, mem_filterSlabs.mpr ⟨i1, i2⟩, Nat.le_of_not_lt i4⟩)
        split
        · contradiction
        · simp
        · simp

theorem victimImpl_ok (hw : WF p r) (st : Strategy) (hi : Spec.Idle st p r) : victimImpl st p r ≠ none := by
  cases st with
  | nothing | random _ | resize _ | manual _ | freeMem _ _ _ => simp [victimImpl]
  | marginal m f a =>
    simp only [victimImpl]
    split
    · rename_i h; exact absurd h (pickImpl_ok hw (.marginal m f a) hi)
    · simp
  | lru m f d w => exact lruPickVictim_ok hw hi
  | hits g =>
    simp only [victimImpl]
    split
    · rename_i h; exact absurd h (hitsPickVictim_ok hw hi)
    · simp

theorem fallback_ok (hne : r.ids ≠ []) (fb : Fallback) : fallback fb r ≠ none := by
  have ht : totalSlabsPick r ≠ none := by
    unfold totalSlabsPick
    split
    · rename_i h; rw [maxElement_none] at h; exact absurd h hne
    · simp
  cases fb with
  | totalSlabs => exact ht
  | allocationSize m n =>
    simp only [fallback]
    split
    · exact ht
    · simp

/-- **C42g.** A round never throws, divides by zero or dereferences the end of a container - unless the search by free memory is on and every
class that may be a victim evicted since the last round. -/
theorem no_fault_partial (fb : Fallback) (st : Strategy) (s : Option Pool) (hw : ∀ p, s = some p → WF p r) (hi : ∀ p, s = some p → Spec.Idle st p r) :
    pick fb st s r ≠ none := by
  cases s with
  | none => simp [pick]
  | some p =>
    have hw := hw p rfl
    have hi := hi p rfl
    have : pickBody fb st p r ≠ none := by
      unfold pickBody
      split
      · exact pickImpl_ok hw st hi
      · split
        · rename_i h; exact absurd h (victimImpl_ok hw st hi)
        · rename_i q v hv
          have h1 := victimImpl_spec hw st hv
          have hw' : WF q r := ⟨hw.ids, hw.ne, h1.2.1⟩
          have again := pickImpl_ok hw' st (idle_same h1.1 (victimImpl_zero hw st hv) hi)
          split
          · rename_i hn
            cases v with
            | some v => cases hn
            | none => exact absurd hn (fallback_ok hw.ne fb)
          · split
            · simp
            · exact again
          · exact again
    simp only [pick]
    split
    · contradiction
    · simp

/-- The same for resizing. -/
theorem resize_no_fault_partial (fb : Fallback) (st : Strategy) (s : Option Pool) (r2 : Round) (hne : r2.ids ≠ [])
    (hw : ∀ p, s = some p → WF p r) (hi : ∀ p, s = some p → Spec.Idle st p r) : pickForResizing fb st s r r2 ≠ none := by
  unfold pickForResizing
  split
  · rename_i h
    cases s with
    | none => cases h
    | some p =>
      dsimp only at h
      split at h
      · rename_i h'; exact absurd h' (victimImpl_ok (hw p rfl) st (hi p rfl))
      · cases h
  · simp
  · split
    · rename_i h; exact absurd h (fallback_ok hne fb)
    · simp

/-- **C42h.** Shrinking a pool always finds a victim if some class has a slab: with the default fall-back, a class without slabs is never returned
unless the strategy itself chose it. -/
theorem resize_finds (st : Strategy) (s : Option Pool) (r2 : Round) (hw : ∀ p, s = some p → WF p r) (hi : ∀ p, s = some p → Spec.Idle st p r)
    (c : ClassId) (hc : c ∈ r2.ids) (hs : 0 < Spec.slabs r2 c) :
    ∃ q v, pickForResizing .totalSlabs st s r r2 = some (q, some v) := by
  have h0 := resize_no_fault_partial .totalSlabs st s r2 (fun e => by rw [e] at hc; cases hc) hw hi
  cases h : pickForResizing .totalSlabs st s r r2 with
  | none => exact absurd h h0
  | some w =>
    obtain ⟨q, v⟩ := w
    cases v with
    | some v => exact ⟨q, v, rfl⟩
    | none =>
      exfalso
      unfold pickForResizing at h
      split at h
      · cases h
      · cases h
      · split at h
        · cases h
        · rename_i u hu
          simp only [Option.some.injEq, Prod.mk.injEq] at h
          obtain ⟨-, rfl⟩ := h
          simp only [fallback, totalSlabsPick] at hu
          split at hu
          · cases hu
          · rename_i m hm
            have hle : r2.freeSlabs c + r2.usedSlabs c ≤ r2.freeSlabs m + r2.usedSlabs m := maxElement_max (f := r2.slabs) hm c hc
            split at hu
            · rename_i hz
              have hz : r2.freeSlabs m + r2.usedSlabs m = 0 := hz
              have hs : 0 < r2.freeSlabs c + r2.usedSlabs c := hs
              omega
            · cases hu

/-- **C42k.** AllocationSizeStrategy chooses among the classes with the largest allocations: fewer than `numClassesToPickFrom` (but at least one)
of the eligible classes have strictly larger allocations than the one chosen. -/
theorem allocation_size_largest (m n : Nat) (v : ClassId) (hel : ∃ c ∈ r.ids, m ≤ Spec.slabs r c)
    (h : fallback (.allocationSize m n) r = some (some v)) :
    v ∈ r.ids ∧ m ≤ Spec.slabs r v ∧
    (r.ids.filter fun c => decide (m ≤ r.freeSlabs c + r.usedSlabs c) && decide (r.allocSize v < r.allocSize c)).length < max 1 n := by
  simp only [fallback] at h
  generalize hE : (r.ids.filter fun c => decide (m ≤ r.slabs c)) = el at *
  have hmem : ∀ c, c ∈ el ↔ c ∈ r.ids ∧ m ≤ Spec.slabs r c := by
    intro c; rw [← hE, List.mem_filter, decide_eq_true_eq]; rfl
  split at h
  · rename_i he
    obtain ⟨c, hc, hs⟩ := hel
    have := (hmem c).mpr ⟨hc, hs⟩
    rw [he] at this; cases this
  · simp only [Option.some.injEq] at h
    have hv := (hmem v).mp ((List.mem_insertionSort _).mp (List.mem_of_getElem? h))
    refine ⟨hv.1, hv.2, ?_⟩
    have hfe : (r.ids.filter fun c => decide (m ≤ r.freeSlabs c + r.usedSlabs c) && decide (r.allocSize v < r.allocSize c)) =
        el.filter fun c => decide (r.allocSize v < r.allocSize c) := by
      rw [← hE, List.filter_filter]
      congr 1
      funext c
      rw [Bool.and_comm]
      rfl
    rw [hfe]
    have hp := List.perm_insertionSort (fun a b => r.allocSize b ≤ r.allocSize a) el
    have hs : (el.insertionSort (fun a b => r.allocSize b ≤ r.allocSize a)).Pairwise (fun a b => r.allocSize b ≤ r.allocSize a) := by
      haveI : Std.Total (fun a b => r.allocSize b ≤ r.allocSize a) := ⟨fun a b => Nat.le_total _ _⟩
      haveI : IsTrans Nat (fun a b => r.allocSize b ≤ r.allocSize a) := ⟨fun a b c h g => Nat.le_trans g h⟩
      exact List.pairwise_insertionSort _ _
    generalize el.insertionSort (fun a b => r.allocSize b ≤ r.allocSize a) = l at *
    have hk : r.rand1 % max 1 (min n el.length) < max 1 n := by
      have := Nat.mod_lt r.rand1 (show 0 < max 1 (min n el.length) by omega)
      omega
    generalize r.rand1 % max 1 (min n el.length) = i at *
    rw [← (hp.filter _).length_eq]
    obtain ⟨hi, hiv⟩ := List.getElem?_eq_some_iff.mp h
    have hsplit : l = l.take i ++ v :: l.drop (i + 1) := by
      rw [← hiv, ← List.drop_eq_getElem_cons hi, List.take_append_drop]
    rw [hsplit] at hs
    have hz : (v :: l.drop (i + 1)).filter (fun c => decide (r.allocSize v < r.allocSize c)) = [] := by
      rw [List.filter_eq_nil_iff]
      intro c hc
      simp only [List.mem_cons] at hc
      rw [decide_eq_true_eq]
      rcases hc with rfl | hc
      · omega
      · have := (List.pairwise_cons.mp (List.pairwise_append.mp hs).2.1).1 c hc
        omega
    rw [hsplit, List.filter_append, hz, List.append_nil]
    have h1 := List.length_filter_le (fun c => decide (r.allocSize v < r.allocSize c)) (l.take i)
    have h2 := List.length_take_le i l
    omega

/-! ### the pool rebalancer and the pool optimizer -/

/-- smoothed ranks stay between 0 and the number of entities minus one -/
theorem ranks_bounded (ents : List Nat) (score : Nat → Nat) (param : Rat) (h0 : 0 ≤ param) (h1 : param ≤ 1) (ranks : Nat → Rat)
    (hr : ∀ e ∈ ents, 0 ≤ ranks e ∧ ranks e ≤ (ents.length : Rat) - 1) :
    ∀ e ∈ ents, 0 ≤ updateRankings ents score param ranks e ∧ updateRankings ents score param ranks e ≤ (ents.length : Rat) - 1 := by
  unfold updateRankings
  have hlen : (ents.insertionSort (fun a b => score a ≤ score b)).length = ents.length := List.length_insertionSort _ _
  generalize hN : ents.length = N at *
  have hz : ∀ q ∈ (ents.insertionSort (fun a b => score a ≤ score b)).zipIdx, q.2 < N := by
    intro q hq
    have := List.snd_lt_of_mem_zipIdx hq
    omega
  generalize (ents.insertionSort (fun a b => score a ≤ score b)).zipIdx = z at *
  induction z generalizing ranks with
  | nil => exact hr
  | cons q z ih =>
    obtain ⟨x, i⟩ := q
    simp only [List.foldl_cons]
    refine ih _ ?_ (fun q hq => hz q (by simp [hq]))
    intro e he
    have hi : i < N := hz (x, i) (by simp)
    have hb := hr e he
    by_cases hx : e = x
    · subst hx
      rw [upd_same]
      have hi1 : ((i : Nat) : Rat) ≤ (N : Rat) - 1 := by
        have : ((i + 1 : Nat) : Rat) ≤ (N : Rat) := by exact_mod_cast hi
        push_cast at this
        linarith
      have hi0 : (0 : Rat) ≤ (i : Rat) := by exact_mod_cast Nat.zero_le i
      constructor
      · have a := mul_nonneg hb.1 h0
        have b := mul_nonneg hi0 (sub_nonneg.mpr h1)
        linarith
      · have a := mul_le_mul_of_nonneg_right hb.2 h0
        have b := mul_le_mul_of_nonneg_right hi1 (sub_nonneg.mpr h1)
        linarith
    · rw [upd_ne _ _ hx]
      exact hb

/-- **C42l.** Choice by smoothed rank: with a moving-average parameter between 0 and 1, the optimizer (and MarginalHits, whose ranks are kept the
same way) chooses nothing only if no pool may be a victim, none may be a receiver, or the same pool is the lowest possible victim and the
highest possible receiver; and the ranks stay within bounds. -/
theorem optimize_complete (ents : List Nat) (size evs free score : Nat → Nat) (minSize maxFree : Nat) (param : Rat) (ranks : Nat → Rat)
    (h0 : 0 ≤ param) (h1 : param ≤ 1) (hr : ∀ e ∈ ents, 0 ≤ ranks e ∧ ranks e ≤ (ents.length : Rat) - 1) :
    (∀ e ∈ ents, 0 ≤ (optimizePools ents size evs free score minSize maxFree param ranks).1 e ∧
      (optimizePools ents size evs free score minSize maxFree param ranks).1 e ≤ (ents.length : Rat) - 1) ∧
    ((optimizePools ents size evs free score minSize maxFree param ranks).2 = (none, none) →
      (∀ e ∈ ents, ¬ (0 < evs e ∧ minSize * 4194304 < size e)) ∨ (∀ e ∈ ents, ¬ free e < maxFree * 4194304) ∨
      ∃ x ∈ ents, ∀ e ∈ ents,
        (0 < evs e → minSize * 4194304 < size e → (optimizePools ents size evs free score minSize maxFree param ranks).1 x ≤
          (optimizePools ents size evs free score minSize maxFree param ranks).1 e) ∧
        (free e < maxFree * 4194304 → (optimizePools ents size evs free score minSize maxFree param ranks).1 e ≤
          (optimizePools ents size evs free score minSize maxFree param ranks).1 x)) := by
  have hb := ranks_bounded ents score param h0 h1 ranks hr
  unfold optimizePools
  dsimp only
  generalize updateRankings ents score param ranks = rk at *
  refine ⟨hb, ?_⟩
  intro hn
  obtain ⟨p1, p2, p3, p4⟩ := pickFromRankings_spec ents rk (fun q => decide (0 < evs q) && decide (minSize * kSlab < size q)) (fun q => decide (free q < maxFree * kSlab))
  unfold checkedPick at hn
  cases hp : pickFromRankings ents rk (fun q => decide (0 < evs q) && decide (minSize * kSlab < size q)) (fun q => decide (free q < maxFree * kSlab)) with
  | mk a b =>
    rw [hp] at p1 p2 p3 p4 hn
    cases a with
    | none =>
      left
      intro e he hc
      have := p3 rfl e he (by rw [Bool.and_eq_true, decide_eq_true_eq, decide_eq_true_eq]; exact hc)
      have := (hb e he).2
      linarith
    | some a =>
      cases b with
      | none =>
        right; left
        intro e he hc
        have := p4 rfl e he (by rw [decide_eq_true_eq]; exact hc)
        have := (hb e he).1
        linarith
      | some b =>
        right; right
        dsimp only at hn
        split at hn
        · rename_i hab
          subst hab
          refine ⟨a, (p1 a rfl).1, ?_⟩
          intro e he
          refine ⟨fun g1 g2 => (p1 a rfl).2.2 e he (by rw [Bool.and_eq_true, decide_eq_true_eq, decide_eq_true_eq]; exact ⟨g1, g2⟩),
            fun g => (p2 a rfl).2.2 e he (by rw [decide_eq_true_eq]; exact g)⟩
        · cases hn

/-- **C42i.** PoolRebalancer: a class chosen because of its free allocations has more than `threshold` and more than one slab's worth of them, and
no class has more; if any class has, one is chosen. -/
theorem freeAlloc_spec (s : Stats) (threshold : Nat) :
    (∀ v, pickByFreeAlloc s threshold = some v → v ∈ s.ids ∧ threshold < s.freeAllocs v / s.allocsPerSlab v ∧ 1 < s.freeAllocs v / s.allocsPerSlab v ∧
      ∀ c ∈ s.ids, threshold < s.freeAllocs c / s.allocsPerSlab c → s.freeAllocs c / s.allocsPerSlab c ≤ s.freeAllocs v / s.allocsPerSlab v) ∧
    (pickByFreeAlloc s threshold = none → ∀ c ∈ s.ids, s.freeAllocs c / s.allocsPerSlab c ≤ max 1 threshold) := by
  unfold pickByFreeAlloc
  generalize hf : (fun c => s.freeAllocs c / s.allocsPerSlab c) = f
  have hf' : ∀ c, s.freeAllocs c / s.allocsPerSlab c = f c := fun c => by rw [← hf]
  simp only [hf']
  have key : ∀ (l pre : List ClassId) (z : Option ClassId × Nat), 1 ≤ z.2 →
      (∀ v, z.1 = some v → z.2 = f v ∧ v ∈ pre ∧ threshold < f v ∧ 1 < f v) → (z.1 = none → z.2 = 1) →
      (∀ c ∈ pre, threshold < f c → f c ≤ z.2) →
      let w := l.foldl (fun (z : Option ClassId × Nat) c => if threshold < f c ∧ z.2 < f c then (some c, f c) else z) z
      (∀ v, w.1 = some v → w.2 = f v ∧ v ∈ pre ++ l ∧ threshold < f v ∧ 1 < f v) ∧ (w.1 = none → w.2 = 1) ∧
      (∀ c ∈ pre ++ l, threshold < f c → f c ≤ w.2) := by
    intro l
    induction l with
    | nil => intro pre z h0 h1 h2 h3; simp only [List.foldl_nil, List.append_nil]; exact ⟨h1, h2, h3⟩
    | cons x xs ih =>
      intro pre z h0 h1 h2 h3
      have := ih (pre ++ [x]) (if threshold < f x ∧ z.2 < f x then (some x, f x) else z) ?_ ?_ ?_ ?_
      · simp only [List.append_assoc, List.singleton_append] at this; exact this
      · split
        · dsimp only; omega
        · exact h0
      · split
        · intro v hv; simp only [Option.some.injEq] at hv; subst hv; refine ⟨rfl, by simp, ?_, ?_⟩ <;> omega
        · intro v hv; obtain ⟨a, b, c⟩ := h1 v hv; exact ⟨a, by simp [b], c⟩
      · split
        · intro h; cases h
        · exact h2
      · intro c hc ht
        simp only [List.mem_append, List.mem_singleton] at hc
        split
        · dsimp only
          rcases hc with hc | rfl
          · have := h3 c hc ht; omega
          · omega
        · rcases hc with hc | rfl
          · exact h3 c hc ht
          · omega
  have := key s.ids [] (none, 1) (Nat.le_refl 1) (by simp) (by simp) (by simp)
  simp only [List.nil_append] at this
  obtain ⟨k1, k2, k3⟩ := this
  constructor
  · intro v hv
    obtain ⟨a, b, c, d⟩ := k1 v hv
    exact ⟨b, c, d, fun x hx ht => by have := k3 x hx ht; omega⟩
  · intro hn c hc
    have := k2 hn
    by_cases ht : threshold < f c
    · have := k3 c hc ht; omega
    · omega

/-- **C42j.** The pool optimizer: the victim and the receiver are different pools; the victim evicted and is larger than the minimum size; the
receiver has little free memory; both or neither are chosen. -/
theorem optimize_spec (ents : List Nat) (size evs free score : Nat → Nat) (minSize maxFree : Nat) (param : Rat) (ranks : Nat → Rat) :
    match (generalizing := false) (optimizePools ents size evs free score minSize maxFree param ranks).2 with
    | (some v, some x) => v ≠ x ∧ v ∈ ents ∧ x ∈ ents ∧ 0 < evs v ∧ minSize * 4194304 < size v ∧ free x < maxFree * 4194304
    | (none, none) => True
    | _ => False := by
  unfold optimizePools
  dsimp only
  generalize updateRankings ents score param ranks = rk
  generalize hV : (fun q => decide (0 < evs q) && decide (minSize * kSlab < size q)) = vV
  generalize hR : (fun q => decide (free q < maxFree * kSlab)) = vR
  have hs := @checkedPick_spec ents rk vV vR
  have hr := @checkedPick_recv ents rk vV vR
  generalize checkedPick ents rk vV vR = w at *
  obtain ⟨a, b⟩ := w
  cases a with
  | none =>
    cases b with
    | none => trivial
    | some b => obtain ⟨v, hv⟩ := hr rfl; cases hv
  | some a =>
    obtain ⟨h1, h2, -, x, hx, h4, h5, h6, -⟩ := hs rfl
    dsimp only at hx
    subst hx
    dsimp only
    rw [← hV] at h2
    rw [← hR] at h6
    simp only [Bool.and_eq_true] at h2
    exact ⟨fun e => h4 e.symm, h1, h5, of_decide_eq_true h2.1, of_decide_eq_true h2.2, of_decide_eq_true h6⟩

/-! ### examples and the counterexample -/

namespace Ex

/-- three classes; class 0 has one slab, class 1 three, class 2 two; evictions and ages as given -/
def rd (ev age : Nat → Nat) (free : Nat → Nat) (fails : Nat → Nat := fun _ => 0) : Round where
  ids := [0, 1, 2]
  freeSlabs := fun _ => 0
  usedSlabs := fun c => match c with | 0 => 1 | 1 => 3 | _ => 2
  freeAllocs := free
  allocSize := fun _ => 1024
  allocsPerSlab := fun _ => 4096
  evictions := ev
  hits := fun c => 10 * c
  tailHits := fun c => c
  allocFailures := fails
  evictionAge := age
  allAllocated := true
  unallocated := 0
  projAge := age
  oldAge := age
  lessV := fun a b => decide (a.2 < b.2)
  lessR := fun a b => decide (a.2 < b.2)
  enough := fun _ _ => true
  ratioLow := fun _ _ => false
  rand1 := 0
  rand2 := 1
  junk := 0

def zero : Nat → Nat := fun _ => 0
def ctx (w : Option (Pool × Ctx)) : Option (Option Nat × Option Nat) := w.map fun t => (t.2.victim, t.2.receiver)
def st0 : Pool := initPool (rd zero zero zero).toStats

/-- class 2 evicts and its tail is young: it gets a slab from class 1, whose tail is old -/
example : ctx (pick .totalSlabs (.lru 1 0 100 false) (some st0) (rd (fun c => if c = 2 then 5 else 0) (fun c => if c = 1 then 900 else 10) zero)) =
    some (some 1, some 2) := by decide +kernel

/-- with the search by free memory on, and class 1 not evicting, the hypotheses of the theorems hold -/
example : Spec.Idle (.lru 1 3 100 false) st0 (rd (fun c => if c = 2 then 5 else 0) (fun c => if c = 1 then 900 else 10) zero) :=
  .inr ⟨1, by decide, by decide, by decide, by decide⟩
example : WF st0 (rd zero zero zero) := ⟨by decide, by decide, by simp [st0, initPool]⟩
example : ctx (pick .totalSlabs (.lru 1 3 100 false) (some st0) (rd (fun c => if c = 2 then 5 else 0) (fun c => if c = 1 then 900 else 10) (fun _ => 50))) =
    some (some 1, some 2) := by decide +kernel

/-- allocation failures: the class with the most failures gets a slab from the class with the most slabs -/
example : ctx (pick .totalSlabs (.random 5) (some st0) (rd zero zero zero (fun c => c))) = some (some 1, some 2) := by decide +kernel

/-- hold-off: after receiving a slab class 2 is not the victim of the next round although its tail is the oldest; class 1 evicts now -/
def second : Option (Option Nat × Option Nat) :=
  match pick .totalSlabs (.lru 1 0 100 false) (some st0) (rd (fun c => if c = 2 then 5 else 0) (fun c => if c = 1 then 900 else 10) zero) with
  | none => none
  | some (q, _) => ctx (pick .totalSlabs (.lru 1 0 100 false) (some q)
      (rd (fun c => if c = 2 then 5 else if c = 0 then 5 else 0) (fun c => if c = 2 then 900 else if c = 1 then 800 else 10) zero))
example : second = some (some 1, some 0) := by decide +kernel

example : pickByFreeAlloc (rd zero zero (fun c => c * 5000)).toStats 0 = some 2 := by decide +kernel
example : ctx (pick .totalSlabs (.hits ⟨1, 0, 0, 0, [], false, false⟩) (some st0) (rd (fun c => if c = 2 then 5 else 0) zero zero)) = some (some 1, some 2) := by
  decide +kernel
example : ctx (pick .totalSlabs (.marginal 1 3 0) (some st0) (rd zero zero zero)) = some (some 1, some 2) := by decide +kernel
example : ctx (pick .totalSlabs (.manual [1, 2, 3]) (some st0) (rd zero zero zero)) = some (some 1, some 2) := by decide +kernel
example : ctx (pick .totalSlabs (.freeMem 1 1 1000) (some st0) (rd zero zero (fun c => c * 5000))) = some (some 2, none) := by decide +kernel
example : ((pickForResizing .totalSlabs (.resize 1) (some st0) (rd zero (fun c => c) zero) (rd zero zero zero)).map (·.2)) = some (some 2) := by decide +kernel

/-- all classes evict; class 0 has 13 MB of free memory outside the LRU (free allocations) and only one slab -/
def bad : Round := { rd (fun _ => 5) (fun c => if c = 2 then 10 else 900) (fun c => if c = 0 then 13000 else 0) with junk := 0 }

end Ex

/-- **Violated.** The claim "a victim has more than minSlabs slabs" is false in general: if every class that may be a victim evicted since the last
round, pickVictimByFreeMem dereferences the end iterator of an empty set (RebalanceStrategy.cpp:107-121).  Where that reads as 0 - as with
libstdc++, whose set keeps its size there - class 0 is taken although it has no more than minSlabs slabs (here 1, with minSlabs = 1 and the default
three slabs as free-memory threshold). -/
theorem violated_min_slabs :
    ∃ (p : Pool) (r : Round), WF p r ∧ r.junk = 0 ∧ (∀ c ∈ r.ids, r.allocFailures c = (p.info c).allocFailures) ∧
      Spec.slabs r 0 = 1 ∧ ∃ q x, pick .totalSlabs (.lru 1 3 100 false) (some p) r = some (q, ⟨some 0, some x⟩) := by
  refine ⟨Ex.st0, Ex.bad, ⟨by decide, by decide, by simp [Ex.st0, initPool]⟩, rfl, by decide, by decide, ?_⟩
  have h : Ex.ctx (pick .totalSlabs (.lru 1 3 100 false) (some Ex.st0) Ex.bad) = some (some 0, some 2) := by decide +kernel
  cases hp : pick .totalSlabs (.lru 1 3 100 false) (some Ex.st0) Ex.bad with
  | none => rw [hp] at h; cases h
  | some w =>
    obtain ⟨q, v, x⟩ := w
    rw [hp] at h
    simp only [Ex.ctx, Option.map_some, Option.some.injEq, Prod.mk.injEq] at h
    obtain ⟨rfl, rfl⟩ := h
    exact ⟨q, 2, rfl⟩

/-- **Limit.** And where it reads as a value that is no class id, the round throws. -/
theorem violated_no_fault : ∃ (p : Pool) (r : Round), WF p r ∧ pick .totalSlabs (.lru 1 3 100 false) (some p) r = none := by
  refine ⟨Ex.st0, { Ex.bad with junk := 77 }, ⟨by decide, by decide, by simp [Ex.st0, initPool]⟩, ?_⟩
  have h : (pick .totalSlabs (.lru 1 3 100 false) (some Ex.st0) { Ex.bad with junk := 77 }).isNone = true := by decide +kernel
  exact Option.isNone_iff_eq_none.mp h

/-- **Limit.** AllocationSizeStrategy with minSlabsForResizing = 0 may return a class that has no slab to release. -/
theorem limit_allocation_size : ∃ (r : Round) (v : ClassId), v ∈ r.ids ∧ Spec.slabs r v = 0 ∧
    ∃ q, pickForResizing (.allocationSize 0 1) .nothing none r r = some (q, some v) := by
  refine ⟨{ Ex.rd Ex.zero Ex.zero Ex.zero with usedSlabs := fun c => if c = 1 then 1 else 0 }, 0, by decide, by decide, ?_⟩
  have h : (pickForResizing (.allocationSize 0 1) .nothing none { Ex.rd Ex.zero Ex.zero Ex.zero with usedSlabs := fun c => if c = 1 then 1 else 0 }
    { Ex.rd Ex.zero Ex.zero Ex.zero with usedSlabs := fun c => if c = 1 then 1 else 0 }).map (·.2) = some (some 0) := by decide +kernel
  cases hp : pickForResizing (.allocationSize 0 1) .nothing none { Ex.rd Ex.zero Ex.zero Ex.zero with usedSlabs := fun c => if c = 1 then 1 else 0 }
    { Ex.rd Ex.zero Ex.zero Ex.zero with usedSlabs := fun c => if c = 1 then 1 else 0 } with
  | none => rw [hp] at h; cases h
  | some w =>
    obtain ⟨q, v⟩ := w
    rw [hp] at h
    simp only [Option.map_some, Option.some.injEq] at h
    subst h
    exact ⟨q, rfl⟩

/-- **Limit.** Hold-off ends at the first eviction: a class that received a slab and evicts again may be the next victim. -/
theorem limit_holdoff_evicting : ∃ (p : Pool) (r : Round) (q : Pool) (x : ClassId), WF p r ∧ (p.info 2).holdOff = 10 ∧
    pick .totalSlabs (.lru 1 0 100 false) (some p) r = some (q, ⟨some 2, some x⟩) := by
  have h : Ex.ctx (pick .totalSlabs (.lru 1 0 100 false) (some (startHoldOff Ex.st0 2))
      (Ex.rd (fun _ => 5) (fun c => if c = 2 then 900 else 10) Ex.zero)) = some (some 2, some 0) := by decide +kernel
  cases hp : pick .totalSlabs (.lru 1 0 100 false) (some (startHoldOff Ex.st0 2)) (Ex.rd (fun _ => 5) (fun c => if c = 2 then 900 else 10) Ex.zero) with
  | none => rw [hp] at h; cases h
  | some w =>
    obtain ⟨q, v, x⟩ := w
    rw [hp] at h
    simp only [Ex.ctx, Option.map_some, Option.some.injEq, Prod.mk.injEq] at h
    obtain ⟨rfl, rfl⟩ := h
    exact ⟨_, _, q, 0, ⟨by decide, by decide, by simp [Ex.st0, initPool, startHoldOff]⟩, by decide, hp⟩

end Verif.Rebalance
