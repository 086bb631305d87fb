import Verif.MM2Q.Props
/-!
Property C10, continued: bounds of queues, eviction, recordAccess, warm restart.
-/
namespace Verif.MM2Q
open Verif MultiDList

variable {N : Type} [DecidableEq N]

/-! ### Queue sizes -/

/-- C10: after a successful add or remove, hot and warm hold at most their percentage of all items. -/
theorem queue_bounds {s : State N} {u : Q2 N} (h : Link s u) (o : Op N) (ho : (∃ x now, o = .add x now) ∨ ∃ x, o = .remove x)
    {s' : State N} (hr : step s o = some (s', true)) :
    s'.len Hot ≤ s.config.hotPct * size s'.m / 100 ∧
    s'.len Warm + s'.len WarmTail ≤ (100 - s.config.hotPct - s.config.coldPct) * size s'.m / 100 := by
  have hl : u.Legal o := by rcases ho with ⟨x, now, rfl⟩ | ⟨x, rfl⟩ <;> trivial
  obtain ⟨s1, h1, h2⟩ := link_step h o hl
  rw [hr] at h1
  simp only [Option.some.injEq, Prod.mk.injEq] at h1
  obtain ⟨rfl, hb⟩ := h1
  have hv := h2.view
  have key : ∀ v w : Q2 N, v.cfg = u.cfg → w.hot = v.rebalance.hot → w.warm = v.rebalance.warm → w.cold = v.rebalance.cold →
      w.hot.length ≤ u.cfg.hotPct * w.items.length / 100 ∧
      w.warm.length ≤ (100 - u.cfg.hotPct - u.cfg.coldPct) * w.items.length / 100 := by
    intro v w hc e1 e2 e3
    have : w.items.length = v.items.length := by
      rw [← items_rebalance_len (u := v)]
      simp only [Q2.items, e1, e2, e3]
    rw [this, e1, e2, ← hc]
    simp only [Q2.rebalance, List.length_take]
    omega
  have e1 : s'.len Hot = (u.step o).1.hot.length := hv.hot.size
  have e2 : s'.len Warm + s'.len WarmTail = (u.step o).1.warm.length := by
    have a := hv.warm.size
    have b := hv.warmTail.size
    have c := hv.kw
    simp only [Q2.wtail, List.length_take, List.length_drop, State.len] at a b ⊢
    omega
  rw [e1, e2, hv.size, h.config]
  rcases ho with ⟨x, now, rfl⟩ | ⟨x, rfl⟩
  · simp only [Q2.step] at hb ⊢
    by_cases hx : x ∈ u.items
    · rw [if_pos hx] at hb; cases hb
    · rw [if_neg hx]
      exact key { u with hot := x :: u.hot } _ rfl rfl rfl rfl
  · simp only [Q2.step] at hb ⊢
    by_cases hx : x ∈ u.items
    · rw [if_pos hx]
      exact key (u.without x) _ rfl rfl rfl rfl
    · rw [if_neg hx] at hb; cases hb

/-- operations other than a change of configuration. -/
def Op.keepsConfig : Op N → Prop
  | .setConfig _ _ => False
  | _ => True

theorem hot100_step {u : Q2 N} (h : u.cfg.hotPct = 100 ∧ u.cfg.coldPct = 0 ∧ u.warm = [] ∧ u.cold = []) (o : Op N)
    (ho : o.keepsConfig) :
    (u.step o).1.cfg.hotPct = 100 ∧ (u.step o).1.cfg.coldPct = 0 ∧ (u.step o).1.warm = [] ∧ (u.step o).1.cold = [] := by
  obtain ⟨h1, h2, h3, h4⟩ := h
  cases o with
  | add x now =>
    simp only [Q2.step]
    split
    · exact ⟨h1, h2, h3, h4⟩
    · refine ⟨h1, h2, by simp [Q2.rebalance, h3], ?_⟩
      simp [Q2.rebalance, h3, h4, h1, Q2.items]
  | remove x =>
    simp only [Q2.step]
    split
    · refine ⟨h1, h2, by simp [Q2.rebalance, Q2.without, h3], ?_⟩
      simp [Q2.rebalance, Q2.without, h3, h4, h1, Q2.items]
    · exact ⟨h1, h2, h3, h4⟩
  | evict x => exact ⟨h1, h2, by simp [Q2.step, Q2.without, h3], by simp [Q2.step, Q2.without, h4]⟩
  | replace o x =>
    simp only [Q2.step]
    split
    · exact ⟨h1, h2, by simp [h3], by simp [h4]⟩
    · exact ⟨h1, h2, h3, h4⟩
  | promote x now =>
    simp only [Q2.step]
    split
    · exact ⟨h1, h2, h3, h4⟩
    · rw [if_neg (by simp [h4]), if_neg (by simp [h3])]
      exact ⟨h1, h2, h3, h4⟩
  | setConfig c now => exact ho.elim
  | construct x => exact ⟨h1, h2, h3, h4⟩

/-- C10: with 100% hot and 0% cold the container is one queue: all items stay in hot. -/
theorem hot100_single_queue (c : Config) (hh : c.hotPct = 100) (hc : c.coldPct = 0) (ops : List (Op N))
    (ho : ∀ o ∈ ops, o.keepsConfig) :
    ((Q2.new c : Q2 N).run ops).1.warm = [] ∧ ((Q2.new c : Q2 N).run ops).1.cold = [] := by
  suffices ∀ u : Q2 N, u.cfg.hotPct = 100 ∧ u.cfg.coldPct = 0 ∧ u.warm = [] ∧ u.cold = [] →
      (u.run ops).1.warm = [] ∧ (u.run ops).1.cold = [] from this _ ⟨hh, hc, rfl, rfl⟩
  induction ops with
  | nil => intro u h; exact ⟨h.2.2.1, h.2.2.2⟩
  | cons o os ih =>
    intro u h
    exact ih (fun o' h' => ho o' (List.mem_cons_of_mem _ h')) _ (hot100_step h o (ho o List.mem_cons_self))

/-- C10: the check of the configuration accepts exactly 100% hot with 0% cold, or three positive percentages. -/
theorem checkLruSizes_spec (c : Config) (h1 : c.hotPct < 2 ^ 64) (h2 : c.coldPct < 2 ^ 64) :
    c.checkLruSizes = true ↔ (c.hotPct = 100 ∧ c.coldPct = 0) ∨ (0 < c.hotPct ∧ 0 < c.coldPct ∧ c.hotPct + c.coldPct < 100) := by
  unfold Config.checkLruSizes
  split
  · rename_i h
    by_cases h0 : c.coldPct = 0
    · simp [h, h0]
    · have : c.warmPct ≠ 0 := by unfold Config.warmPct; omega
      simp [h, h0, this]
  · rename_i h
    simp only [Bool.not_or, Bool.and_eq_true, Bool.not_eq_true', decide_eq_false_iff_not]
    unfold Config.warmPct
    omega

example : (⟨60, 60, fun _ => 0, false, true, false, true, 30, 30, 1, 0⟩ : Config).checkLruSizes = true := by
  rw [checkLruSizes_spec _ (by decide) (by decide)]; simp

/-! ### recordAccess -/

/-- does the configuration ask for promotion on this mode? -/
def Config.asks (c : Config) : Mode → Prop
  | .read => c.updateOnRead = true
  | .write => c.updateOnWrite = true

/-- C10: recordAccess promotes exactly when the configuration asks for it, the item is a member and its last promotion is at
least the refresh time ago; with tryLockUpdate also the lock must be free.  Otherwise nothing changes. -/
theorem recordAccess_spec {s : State N} {u : Q2 N} (h : Link s u) (x : N) (m : Mode) (now : Nat) (free : Bool)
    (hw : s.time x + s.refreshTime < 2 ^ 32) :
    ∃ s' b, recordAccess s x m now free = some (s', b) ∧
      (b = true ↔ s.config.asks m ∧ x ∈ u.items ∧ u.time x + s.refreshTime ≤ now ∧ (s.config.tryLock = true → free = true)) ∧
      (b = true → View s' (u.step (.promote x now)).1) ∧ (b = false → s' = s) := by
  have hwant : wants s x m now = true ↔ s.config.asks m ∧ x ∈ u.items ∧ u.time x + s.refreshTime ≤ now := by
    unfold wants Config.asks
    rw [Nat.mod_eq_of_lt hw, ← h.time, ← h.mem x]
    cases m <;> cases s.config.updateOnWrite <;> cases s.config.updateOnRead <;> cases s.inMM x <;> simp
  unfold recordAccess
  by_cases hwt : wants s x m now = true
  · rw [if_pos hwt]
    have hw2 := hwant.1 hwt
    by_cases hl : (s.config.tryLock && !free) = true
    · rw [if_pos hl]
      refine ⟨_, _, rfl, ?_, by simp, fun _ => rfl⟩
      simp only [Bool.and_eq_true, Bool.not_eq_true'] at hl
      simp only [Bool.false_eq_true, false_iff]
      rintro ⟨_, _, _, h4⟩
      rw [h4 hl.1] at hl
      simp at hl
    · rw [if_neg hl]
      obtain ⟨s2, h3, h4⟩ := promote_link h x now
      have hb : (u.step (.promote x now)).2 = true := by
        have := hw2.2.1
        simp only [Q2.items, List.mem_append] at this
        simp only [Q2.step]
        split
        · rfl
        · split
          · rfl
          · rw [if_pos (by rcases this with (h | h) | h <;> first | exact h | contradiction)]
      rw [hb] at h3
      refine ⟨_, _, h3, ?_, fun _ => h4.view, by simp⟩
      simp only [true_iff]
      refine ⟨hw2.1, hw2.2.1, hw2.2.2, ?_⟩
      intro ht
      simp only [Bool.and_eq_true, Bool.not_eq_true', not_and, Bool.not_eq_false] at hl
      exact hl ht
  · rw [if_neg hwt]
    refine ⟨_, _, rfl, ?_, by simp, fun _ => rfl⟩
    simp only [Bool.false_eq_true, false_iff]
    rintro ⟨h1, h2, h3, _⟩
    exact hwt (hwant.2 ⟨h1, h2, h3⟩)

/-! ### Eviction -/

/-- The eviction loop over the locked iterator (CacheAllocator.h uses remove(Iterator&) on items it can evict and goes
on from those it cannot): at most `k` items are looked at; those removed, in order. -/
def sweep (take : N → Bool) : Nat → State N → It N → Option (State N × List N)
  | 0, s, _ => some (s, [])
  | k + 1, s, it =>
    match it.cur with
    | none => some (s, [])
    | some x =>
      if take x then (removeIt s it).bind fun r => (sweep take k r.1 r.2).map fun q => (q.1, x :: q.2)
      else sweep take k s (goForward s.m it)

theorem mem_order {seq : Nat → List N} {i : Nat} {x : N} (h : x ∈ order seq i) : ∃ j, j ≤ i ∧ x ∈ seq j := by
  induction i with
  | zero => exact ⟨0, Nat.le_refl _, by simpa [order] using h⟩
  | succ i ih =>
    simp only [order, List.mem_append, List.mem_reverse] at h
    rcases h with h | h
    · exact ⟨i + 1, Nat.le_refl _, h⟩
    · obtain ⟨j, h1, h2⟩ := ih h
      exact ⟨j, by omega, h2⟩

/-- the node the iterator is at does not come again. -/
theorem At.fresh {m : MState N} {seq : Nat → List N} (h : MRep m seq) {it : It N} {x : N} {l : List N}
    (ha : At seq it (x :: l)) : x ∉ l ∧ ∃ q, x ∈ seq q := by
  generalize hl : x :: l = l' at ha
  cases ha with
  | done => cases hl
  | zero hs =>
    cases hl
    have := (h.rep 0).nodup
    rw [hs] at this
    simp only [List.nodup_append, List.nodup_cons, List.mem_cons] at this
    refine ⟨fun hx => ?_, 0, by rw [hs]; simp⟩
    exact this.2.2 x (by simpa using hx) x (Or.inl rfl) rfl
  | succ hs =>
    rename_i i
    cases hl
    have := (h.rep (i + 1)).nodup
    rw [hs] at this
    simp only [List.nodup_append, List.nodup_cons, List.mem_cons] at this
    refine ⟨fun hx => ?_, i + 1, by rw [hs]; simp⟩
    rcases List.mem_append.1 hx with hx | hx
    · exact this.2.2 x (by simpa using hx) x (Or.inl rfl) rfl
    · obtain ⟨j, h1, h2⟩ := mem_order hx
      exact h.disj j (i + 1) (by omega) x h2 (by rw [hs]; simp)

theorem order_filter {seq : Nat → List N} {i : Nat} {x : N} (h : x ∉ order seq i) :
    order (fun p => (seq p).filter (fun y => y ≠ x)) i = order seq i := by
  induction i with
  | zero =>
    simp only [order] at h ⊢
    rw [filter_not_mem (by simpa using h)]
  | succ i ih =>
    simp only [order, List.mem_append, not_or] at h ⊢
    rw [filter_not_mem (by simpa using h.1), ih h.2]

/-- removing another node does not disturb the iterator. -/
theorem At.without {seq : Nat → List N} {it : It N} {x : N} {l : List N} (ha : At seq it l) (hx : x ∉ l) :
    At (fun p => (seq p).filter (fun y => y ≠ x)) it l := by
  cases ha with
  | done => exact .done
  | zero hs =>
    rename_i a b y
    simp only [List.mem_cons, List.mem_reverse, not_or] at hx
    refine At.zero (b := b.filter (fun y => y ≠ x)) ?_
    rw [hs, List.filter_append, filter_not_mem hx.2, List.filter_cons_of_pos (by simpa using Ne.symm hx.1)]
  | succ hs =>
    rename_i a b y i
    simp only [List.mem_append, List.mem_cons, List.mem_reverse, not_or] at hx
    rw [← order_filter hx.2]
    refine At.succ (b := b.filter (fun y => y ≠ x)) ?_
    rw [hs, List.filter_append, filter_not_mem hx.1.2, List.filter_cons_of_pos (by simpa using Ne.symm hx.1.1)]

theorem sweep_at (take : N → Bool) (k : Nat) {s : State N} {u : Q2 N} {seq : Nat → List N} (h : Link s u)
    (hq : QInv (fun x => u.fresh x = true) s seq) (hs : Shape seq u) {it : It N} {l : List N} (ha : At seq it l) :
    ∃ s' u', sweep take k s it = some (s', (l.take k).filter take) ∧ Link s' u' ∧
      u'.hot = u.hot.filter (fun y => !((l.take k).filter take).contains y) ∧
      u'.warm = u.warm.filter (fun y => !((l.take k).filter take).contains y) ∧
      u'.cold = u.cold.filter (fun y => !((l.take k).filter take).contains y) := by
  induction k generalizing s u seq it l with
  | zero =>
    refine ⟨s, u, rfl, h, ?_, ?_, ?_⟩ <;> (symm; rw [List.filter_eq_self]; intros; simp)
  | succ k ih =>
    cases l with
    | nil =>
      cases ha
      refine ⟨s, u, rfl, h, ?_, ?_, ?_⟩ <;> (symm; rw [List.filter_eq_self]; intros; simp)
    | cons x l =>
      obtain ⟨hcur, hgo⟩ := goForward_at hq.rep ha
      obtain ⟨hxl, q, hxq⟩ := At.fresh hq.rep ha
      simp only [sweep, hcur, List.take_succ_cons]
      by_cases ht : take x = true
      · rw [if_pos ht, List.filter_cons_of_pos ht]
        obtain ⟨s1, g1, g2⟩ := evict_link h ((hs.mem hq x).2 ⟨q, hxq⟩)
        have hq1 : QInv (fun x => u.fresh x = true) s1 (fun p => (seq p).filter (fun y => y ≠ x)) := by
          have := drop_inv (s' := s.on q (.remove x)) hq hxq rfl (fun y hy => ⟨rfl, rfl, rfl⟩) rfl
          unfold removeLocked at g1
          rw [lruType_eq hq hxq] at g1
          cases g1
          exact this.congr rfl ⟨rfl, rfl, rfl⟩ id
        obtain ⟨s2, u2, k1, k2, k3, k4, k5⟩ := ih g2 (seq := fun p => (seq p).filter (fun y => y ≠ x)) hq1 (without_shape hq hs x) (At.without hgo hxl)
        have hrem : removeIt s it = some (s1, goForward s.m it) := by simp only [removeIt, hcur, g1, Option.map_some]
        rw [hrem]
        simp only [Option.bind_some, k1, Option.map_some]
        refine ⟨s2, u2, rfl, k2, ?_, ?_, ?_⟩
        · rw [k3]; simp only [Q2.without, List.filter_filter]; congr 1; funext y
          by_cases e : y = x <;> simp [e]
        · rw [k4]; simp only [Q2.without, List.filter_filter]; congr 1; funext y
          by_cases e : y = x <;> simp [e]
        · rw [k5]; simp only [Q2.without, List.filter_filter]; congr 1; funext y
          by_cases e : y = x <;> simp [e]
      · rw [if_neg ht, List.filter_cons_of_neg ht]
        exact ih h hq hs hgo

/-- C10: the eviction loop looks at the items of cold, then hot, then warm, each from the least recently used; whichever
items it cannot take, it takes exactly the others of the first `k` in this order, and the iterator stays
valid; what remains is the rest of each queue in its order. -/
theorem evict_order {s : State N} {u : Q2 N} (h : Link s u) (take : N → Bool) (k : Nat) :
    let victims := ((u.cold.reverse ++ u.hot.reverse ++ u.warm.reverse).take k).filter take
    ∃ s' u', sweep take k s (rbegin s.m) = some (s', victims) ∧ View s' u' ∧
      u'.hot = u.hot.filter (fun y => !victims.contains y) ∧ u'.warm = u.warm.filter (fun y => !victims.contains y) ∧
      u'.cold = u.cold.filter (fun y => !victims.contains y) := by
  have h0 := h
  obtain ⟨⟨seq, hq, hs⟩, _⟩ := h0
  have ha := rbeginFrom_at hq.rep 4
  have e : order seq 4 = u.cold.reverse ++ u.hot.reverse ++ u.warm.reverse := by
    rw [hs.hot, hs.warm, hs.cold]; simp [order]
  rw [e] at ha
  obtain ⟨s', u', h1, h2, h3⟩ := sweep_at take k h hq hs ha
  rw [rbegin, hq.num]
  exact ⟨s', u', h1, h2.view, h3⟩

/-! ### Warm restart -/

theorem rep_nil {h : DList.Hooks N} {d : DList.DList N} (r : DList.Rep h d []) : d = DList.DList.empty := by
  have h1 := r.head
  have h2 := r.tail
  have h3 := r.size
  obtain ⟨a, b, c⟩ := d
  simp at h1 h2 h3
  subst h1 h2 h3; rfl

theorem restore_five {s : State N} {u : Q2 N} (h : Link s u) :
    restore (saveState s) s = some { s with
      config := (saveState s).config, nextReconf := 2 ^ 32 - 1, numHot := 0, numCold := 0, numWarm := 0, numWarmTail := 0, numColdTail := 0 } := by
  obtain ⟨⟨seq, hq, hs⟩, _⟩ := h
  have hm : MultiDList.restore (saveState s).lrus s.m.hooks = s.m :=
    saveRestore s.m (fun i hi => rep_nil (by rw [hq.num] at hi; have := hq.rep.rep i; rwa [hq.none i hi] at this))
  unfold restore
  simp only [hm]
  rw [if_neg (by rw [hq.num]; decide)]
  rfl

/-- C10: a container that was saved and restored, and then given a configuration as CacheAllocator does
(CacheAllocator.h:6059-6067), has every item in its place, provided tail tracking is as before (else setConfig throws);
counts of accesses start again. -/
theorem save_restore {s : State N} {u : Q2 N} (h : Link s u) (c : Config) (now : Nat) (hc : c.hotPct + c.coldPct ≤ 100) :
    ∃ s1, restore (saveState s) s = some s1 ∧
      ((0 < u.cfg.tailSize ↔ 0 < c.tailSize) →
        ∃ s2, setConfig s1 c now = (s2, true) ∧
          View s2 { u with cfg := c, nHot := 0, nCold := 0, nWarm := 0, nWarmTail := 0, nColdTail := 0 }) ∧
      (¬ (0 < u.cfg.tailSize ↔ 0 < c.tailSize) → setConfig s1 c now = (s1, false)) := by
  refine ⟨_, restore_five h, ?_, ?_⟩
  · intro ht
    have h2 : s.tracking = decide (0 < c.tailSize) := by rw [h.tracking]; simp [ht]
    refine ⟨_, setConfig_yes h2, Link.view ?_⟩
    obtain ⟨⟨seq, hq, hs⟩, hm, ht, hn, hcc, htr, hp⟩ := h
    exact ⟨⟨seq, hq.congr rfl ⟨rfl, rfl, rfl⟩ (by simp only [hcc]; omega), ⟨hs.hot, hs.warm, hs.cold, hs.kw, hs.kc⟩⟩, hm, ht,
      ⟨rfl, rfl, rfl, rfl, rfl⟩, rfl, h2, hc⟩
  · intro ht
    apply setConfig_no
    show s.tracking ≠ _
    rw [h.tracking]
    intro e
    exact ht (by simpa using e)

/-- C10: state saved by the version with three queues (warm, hot, cold) is restored to five, with empty tails. -/
theorem restore_three {s : State N} {u : Q2 N} (h : Link s u) (h1 : u.kw = 0) (h2 : u.kc = 0) :
    restore { saveState s with lrus := [DList.saveState (s.m.lists Warm), DList.saveState (s.m.lists Hot), DList.saveState (s.m.lists Cold)] } s =
      restore (saveState s) s := by
  rw [restore_five h]
  obtain ⟨⟨seq, hq, hs⟩, _⟩ := h
  have e1 : seq 1 = [] := List.length_eq_zero_iff.1 (by rw [← hs.kw, h1])
  have e4 : seq 4 = [] := List.length_eq_zero_iff.1 (by rw [← hs.kc, h2])
  have hm : ∀ i, (fun i => if i < 4 then (if i < 1 then s.m.lists 0 else if i = 1 then DList.DList.empty else s.m.lists i)
      else if i = 4 then DList.DList.empty else DList.DList.empty) i = s.m.lists i := by
    intro i
    have r := hq.rep.rep i
    match i with
    | 0 => rfl
    | 1 => rw [e1] at r; simp [rep_nil r]
    | 2 => rfl
    | 3 => rfl
    | 4 => rw [e4] at r; simp [rep_nil r]
    | i + 5 => rw [hq.none _ (by omega)] at r; simp [rep_nil r]
  have hm2 : s.m = ⟨s.m.hooks, s.m.lists, 5⟩ := by rw [← hq.num]
  refine Eq.trans (b := some { s with
    m := ⟨s.m.hooks, _, 5⟩, config := (saveState s).config, nextReconf := 2 ^ 32 - 1, numHot := 0, numCold := 0, numWarm := 0, numWarmTail := 0, numColdTail := 0 }) rfl ?_
  refine congrArg (fun m => some ({ s with
    m := m, config := (saveState s).config, nextReconf := 2 ^ 32 - 1, numHot := 0, numCold := 0, numWarm := 0, numWarmTail := 0, numColdTail := 0 } : State N)) ?_
  refine Eq.trans ?_ hm2.symm
  congr 1
  funext i
  rw [← hm i]
  match i with
  | 0 => rfl
  | 1 => rfl
  | 2 => rfl
  | 3 => rfl
  | 4 => rfl
  | i + 5 => simp [MultiDList.restore]; omega

/-! ### Concrete cases -/

/-- 25% hot, 25% cold, tails of one. -/
def exConfig : Config := ⟨60, 60, fun _ => 0, false, true, false, true, 25, 25, 1, 0⟩

def exOps : List (Op Nat) := [.add 1 10, .add 2 11, .add 3 12, .add 4 13, .promote 1 80, .promote 2 81, .add 5 82, .replace 3 9,
  .remove 9, .evict 4, .construct 4, .add 6 90, .setConfig { exConfig with tailSize := 2 } 91, .promote 5 95]

example : (Q2.new exConfig : Q2 Nat).LegalRun exOps := by
  refine ⟨trivial, trivial, trivial, trivial, trivial, trivial, trivial, Or.inr (by decide), trivial, ?_, ?_, trivial, ?_, trivial, trivial⟩
  · show 4 ∈ _; decide
  · show 4 ∉ _; decide
  · show (_ : Nat) ≤ 100; decide

example : ((Q2.new exConfig : Q2 Nat).run exOps).1.hot = [6] ∧ ((Q2.new exConfig : Q2 Nat).run exOps).1.warm = [5, 2] ∧
    ((Q2.new exConfig : Q2 Nat).run exOps).1.cold = [1] ∧ ((Q2.new exConfig : Q2 Nat).run exOps).1.kw = 2 ∧
    ((Q2.new exConfig : Q2 Nat).run exOps).1.kc = 1 := by decide

/-- flags of a node that left the container stay: a replace with a node that was not constructed since leaves it in warm
with the mark of cold, and its removal would go to the wrong list. -/
theorem stale_flags_misplace :
    let c : Config := ⟨60, 60, fun _ => 0, false, true, false, false, 0, 50, 0, 0⟩
    let ops : List (Op Nat) := [.add 1 10, .promote 1 80, .add 2 81, .evict 2, .replace 1 2]
    (run (new c 0 ⟨fun _ => none, fun _ => none⟩) ops).map (fun r => (r.2, (r.1.m.lists Warm).head, r.1.len Cold, r.1.lruType 2)) =
      some ([true, true, true, true, true], some 2, 0, Cold) := by decide +kernel

end Verif.MM2Q
