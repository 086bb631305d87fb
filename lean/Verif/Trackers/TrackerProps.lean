import Verif.Trackers.Tracker
import Verif.Sketch.Props
import Verif.Bloom.Props
/-!
C44, third part: AccessTracker. If there are at least three buckets, every period (of numTicksPerBucket ticks) between the first and
the last call sees a call, calls are late by at most one period, and the first period is not the last of a round of numBuckets
periods, then feature i of a key is what a fresh sketch fed with exactly the accesses recorded in period (current - i) says:
never below the number of those accesses of the key (up to saturation), and 0 if there were none at all. Without one of these conditions it fails.
-/
namespace Verif.Trackers.Tracker

namespace Spec

/-- the calls: record an access, or only ask -/
inductive Op
  | record (tick key : Nat)
  | ask (tick key : Nat)

/-- the tick of a call -/
def Op.tick : Op → Nat
  | .record t _ => t
  | .ask t _ => t

/-- executing the calls -/
def run (c : Cfg) (s : St) (ops : List Op) : St :=
  ops.foldl (fun s o => match o with
    | .record t k => recordAccess c s t k
    | .ask t k => (getAccesses c s t k).1) s

/-- the period of a tick, in periods of T ticks -/
def period (T tick : Nat) : Nat := tick / T

/-- the latest period of a call -/
def latest (T : Nat) : Nat → List Op → Nat
  | p, [] => p
  | p, o :: l => latest T (max p (period T o.tick)) l

/-- the accesses, each with the period it is counted in: its own, or the latest one before it -/
def accesses (T : Nat) : Nat → List Op → List (Nat × Nat)
  | _, [] => []
  | p, o :: l =>
    let p' := max p (period T o.tick)
    (match o with | .record _ k => [(p', k)] | .ask _ _ => []) ++ accesses T p' l

/-- each call is in the latest period so far, the one before or the next one -/
def Timely (T : Nat) : Nat → List Op → Prop
  | _, [] => True
  | p, o :: l => p ≤ period T o.tick + 1 ∧ period T o.tick ≤ p + 1 ∧ Timely T (max p (period T o.tick)) l

/-- the keys counted in period p - i; no key if there is no such period -/
def inPeriod (acc : List (Nat × Nat)) (p i : Nat) : List Nat := (acc.filter fun a => decide (a.1 + i = p)).map Prod.snd

/-- the calls start with `first`, are timely, and the first period is not the last one of a round -/
structure Good (c : Cfg) (first : Op) (ops : List Op) : Prop where
  buckets : 3 ≤ c.n
  ticks : 0 < c.ticks
  start : (period c.ticks first.tick + 1) % c.n ≠ 0
  timely : Timely c.ticks (period c.ticks first.tick) (first :: ops)

end Spec
open Spec

/-! ### the sketches -/

/-- equal counters within the table -/
def Same (c : Sketch.Cfg) (a b : Sketch.St) : Prop := ∀ i, i < c.tableSize → a.table i = b.table i

theorem incRows_same {c : Sketch.Cfg} (h : c.Ok) (k : Nat) : ∀ (l : List Nat) (a b : Sketch.St), (∀ r ∈ l, r < c.depth) → Same c a b →
    Same c (l.foldl (Sketch.incRow c k) a) (l.foldl (Sketch.incRow c k) b)
  | [], a, b, _, hs => hs
  | r :: l, a, b, hl, hs => by
    rw [List.foldl_cons, List.foldl_cons]
    refine incRows_same h k l _ _ (fun r hr => hl r (by simp [hr])) ?_
    have hi := Sketch.index_in_bounds h (hl r (by simp)) k
    have he := hs _ hi
    intro i hi'
    unfold Sketch.incRow
    dsimp only
    rw [he]
    split
    · dsimp only
      unfold Sketch.upd
      split
      · rfl
      · exact hs i hi'
    · exact hs i hi'

theorem increment_same {c : Sketch.Cfg} (h : c.Ok) {a b : Sketch.St} (hs : Same c a b) (k : Nat) : Same c (Sketch.increment c a k) (Sketch.increment c b k) :=
  incRows_same h k _ a b (fun r hr => List.mem_range.mp hr) hs

theorem getCount_same {c : Sketch.Cfg} (h : c.Ok) {a b : Sketch.St} (hs : Same c a b) (k : Nat) : Sketch.getCount c a k = Sketch.getCount c b k := by
  have key : ∀ x, x ≤ Sketch.getCount c a k ↔ x ≤ Sketch.getCount c b k := by
    intro x
    rw [Sketch.le_getCount h, Sketch.le_getCount h]
    constructor
    · rintro ⟨h1, h2⟩
      exact ⟨h1, fun r hr => by rw [← hs _ (Sketch.index_in_bounds h hr k)]; exact h2 r hr⟩
    · rintro ⟨h1, h2⟩
      exact ⟨h1, fun r hr => by rw [hs _ (Sketch.index_in_bounds h hr k)]; exact h2 r hr⟩
  exact Nat.le_antisymm ((key _).mp (Nat.le_refl _)) ((key _).mpr (Nat.le_refl _))

/-- a sketch fed with the keys, from the empty one -/
def fed (c : Cfg) (keys : List Nat) : Sketch.St := keys.foldl (fun s k => Sketch.increment c.cms s (c.hash k)) ⟨fun _ => 0, 0⟩

/-- bucket idx holds what the given keys leave -/
def Holds (c : Cfg) (s : St) (idx : Nat) (keys : List Nat) : Prop :=
  s.items idx = keys.length ∧
  (c.useCounts = true → Same c.cms (s.counts idx) (fed c keys)) ∧
  (c.useCounts = false → ∀ k ∈ keys, s.filters.couldExist c.comb idx (c.hash k) = true)

/-- the constructor's sketches and filters -/
structure Init (c : Cfg) (s : St) : Prop where
  cms : c.cms.Ok
  sk : ∃ s0, Sketch.init c.cms = some s0 ∧ ∃ hashInt nh tb b0, Bloom.make hashInt c.n nh tb = some b0 ∧ s = St.new s0 b0

/-- the filters are well formed -/
def FOk (c : Cfg) (s : St) : Prop := Bloom.WF s.filters ∧ s.filters.numFilters = c.n

theorem upd_same {α : Type} (f : Nat → α) (i : Nat) (v : α) : upd f i v i = v := by simp [upd]
theorem upd_ne {α : Type} (f : Nat → α) {i j : Nat} (v : α) (h : j ≠ i) : upd f i v j = f j := by simp [upd, h]

theorem updateBucket_holds {c : Cfg} (hc : c.cms.Ok) {s : St} (hf : FOk c s) {idx : Nat} (hi : idx < c.n) (k : Nat) {L : Nat → List Nat}
    (h : ∀ j, j < c.n → Holds c s j (L j)) :
    FOk c (updateBucket c s idx (c.hash k)) ∧ (updateBucket c s idx (c.hash k)).recent = s.recent ∧
    ∀ j, j < c.n → Holds c (updateBucket c s idx (c.hash k)) j (if j = idx then L j ++ [k] else L j) := by
  unfold updateBucket
  cases hu : c.useCounts with
  | true =>
    simp only [if_true]
    refine ⟨hf, by trivial, ?_⟩
    intro j hj
    obtain ⟨h1, h2, h3⟩ := h j hj
    by_cases he : j = idx
    · subst he
      rw [if_pos rfl]
      refine ⟨by simp [upd_same, h1], fun _ => ?_, fun hb => by rw [hu] at hb; cases hb⟩
      simp only [upd_same]
      unfold fed
      rw [List.foldl_append]
      exact increment_same hc (h2 hu) _
    · rw [if_neg he]
      refine ⟨by simp only [upd_ne _ _ he, h1], fun _ => ?_, fun hb => by rw [hu] at hb; cases hb⟩
      simp only [upd_ne _ _ he]
      exact h2 hu
  | false =>
    simp only [Bool.false_eq_true, if_false]
    obtain ⟨b', b1, b2, b3, -, -, -, b7⟩ := Bloom.step_spec (comb := c.comb) (hashInt := id) hf.1 (.set idx (c.hash k))
    simp only [Bloom.step, Option.some.injEq] at b1
    subst b1
    refine ⟨⟨b2, b3.trans hf.2⟩, by trivial, ?_⟩
    intro j hj
    obtain ⟨h1, h2, h3⟩ := h j hj
    refine ⟨?_, fun hb => (by rw [hu] at hb; cases hb), fun _ => ?_⟩
    · by_cases he : j = idx
      · subst he; rw [if_pos rfl]; simp [upd_same, h1]
      · rw [if_neg he]; simp only [upd_ne _ _ he, h1]
    · intro x hx
      refine b7 j (c.hash x) (by rw [hf.2]; exact hj) ?_
      dsimp only
      by_cases he : j = idx
      · subst he
        rw [if_pos rfl] at hx
        rcases List.mem_append.mp hx with hx | hx
        · exact .inr (h3 hu x hx)
        · rw [List.mem_singleton] at hx; subst hx; exact .inl ⟨rfl, rfl⟩
      · rw [if_neg he] at hx; exact .inr (h3 hu x hx)

theorem resetBucket_holds {c : Cfg} {s : St} (hf : FOk c s) {idx : Nat} {L : Nat → List Nat} (h : ∀ j, j < c.n → Holds c s j (L j)) :
    FOk c (resetBucket c s idx) ∧ (resetBucket c s idx).recent = s.recent ∧ ∀ j, j < c.n → Holds c (resetBucket c s idx) j (if j = idx then [] else L j) := by
  unfold resetBucket
  cases hu : c.useCounts with
  | true =>
    simp only [if_true]
    refine ⟨hf, by trivial, ?_⟩
    intro j hj
    obtain ⟨h1, h2, h3⟩ := h j hj
    by_cases he : j = idx
    · subst he
      rw [if_pos rfl]
      refine ⟨by simp [upd_same], fun _ => ?_, fun hb => by rw [hu] at hb; cases hb⟩
      simp only [upd_same]
      intro i hi
      simp only [Sketch.reset, if_pos hi]
      rfl
    · rw [if_neg he]
      refine ⟨by simp only [upd_ne _ _ he, h1], fun _ => ?_, fun hb => by rw [hu] at hb; cases hb⟩
      simp only [upd_ne _ _ he]
      exact h2 hu
  | false =>
    simp only [Bool.false_eq_true, if_false]
    obtain ⟨b', b1, b2, b3, -, -, -, b7⟩ := Bloom.step_spec (comb := c.comb) (hashInt := id) hf.1 (.clear idx)
    simp only [Bloom.step, Option.some.injEq] at b1
    subst b1
    refine ⟨⟨b2, b3.trans hf.2⟩, by trivial, ?_⟩
    intro j hj
    obtain ⟨h1, h2, h3⟩ := h j hj
    refine ⟨?_, fun hb => (by rw [hu] at hb; cases hb), fun _ => ?_⟩
    · by_cases he : j = idx
      · subst he; rw [if_pos rfl]; simp [upd_same]
      · rw [if_neg he]; simp only [upd_ne _ _ he, h1]
    · intro x hx
      by_cases he : j = idx
      · rw [if_pos he] at hx; simp at hx
      · rw [if_neg he] at hx
        exact b7 j (c.hash x) (by rw [hf.2]; exact hj) ⟨fun h => he h.symm, h3 hu x hx⟩

/-! ### the invariant

Periods are shifted by n so that the n periods up to the current one are all positive. -/

/-- bucket (q mod n) holds the accesses of period q - n, for the last n periods q -/
structure Inv (c : Cfg) (s : St) (cur : Nat) (acc : List (Nat × Nat)) : Prop where
  fok : FOk c s
  recent : s.recent = cur % c.n
  holds : ∀ i, i < c.n → Holds c s ((cur + c.n - i) % c.n) (inPeriod acc cur i)
  old : ∀ a ∈ acc, a.1 ≤ cur

/-- the bucket indices of the last n periods are different -/
theorem idx_inj {n cur i j : Nat} (hi : i < n) (hj : j < n) (h : (cur + n - i) % n = (cur + n - j) % n) : i = j := by
  have hn : 0 < n := by omega
  have key : ∀ a b : Nat, a ≤ b → b < n → (cur + n - a) % n = (cur + n - b) % n → a = b := by
    intro a b hab hb he
    have h1 : (cur + n - a - (cur + n - b)) % n = 0 := by
      have e := Nat.div_add_mod (cur + n - a) n
      have e' := Nat.div_add_mod (cur + n - b) n
      have : cur + n - a - (cur + n - b) = n * ((cur + n - a) / n - (cur + n - b) / n) := by
        rw [Nat.mul_sub]; omega
      rw [this]; exact Nat.mul_mod_right _ _
    have h2 : cur + n - a - (cur + n - b) = b - a := by omega
    rw [h2, Nat.mod_eq_of_lt (by omega)] at h1
    omega
  rcases Nat.le_total i j with hl | hl
  · exact key i j hl hj h
  · exact (key j i hl hi h.symm).symm

/-- every bucket is one of the last n periods' -/
theorem idx_surj {n cur b : Nat} (hb : b < n) : ∃ i, i < n ∧ (cur + n - i) % n = b := by
  have hn : 0 < n := by omega
  have hm := Nat.mod_lt cur hn
  have e := Nat.div_add_mod cur n
  by_cases h : b ≤ cur % n
  · refine ⟨cur % n - b, by omega, ?_⟩
    have : cur + n - (cur % n - b) = b + n * (cur / n + 1) := by rw [Nat.mul_add, Nat.mul_one]; omega
    rw [this, Nat.add_mul_mod_self_left, Nat.mod_eq_of_lt hb]
  · refine ⟨cur % n + n - b, by omega, ?_⟩
    have : cur + n - (cur % n + n - b) = b + n * (cur / n) := by omega
    rw [this, Nat.add_mul_mod_self_left, Nat.mod_eq_of_lt hb]

/-- from the list of all buckets to the last n periods and back -/
theorem Inv.all {c : Cfg} {s : St} {cur : Nat} {acc : List (Nat × Nat)} (h : Inv c s cur acc) :
    ∃ L : Nat → List Nat, (∀ j, j < c.n → Holds c s j (L j)) ∧ ∀ i, i < c.n → L ((cur + c.n - i) % c.n) = inPeriod acc cur i := by
  classical
  refine ⟨fun b => if hb : b < c.n then inPeriod acc cur (Classical.choose (idx_surj (cur := cur) hb)) else [], ?_, ?_⟩
  · intro j hj
    have hs := Classical.choose_spec (idx_surj (cur := cur) hj)
    simp only [hj, dif_pos]
    have := h.holds _ hs.1
    rw [hs.2] at this
    exact this
  · intro i hi
    have hb : (cur + c.n - i) % c.n < c.n := Nat.mod_lt _ (by omega)
    have hs := Classical.choose_spec (idx_surj (cur := cur) hb)
    simp only [hb, dif_pos]
    rw [idx_inj hs.1 hi hs.2]

/-- the rotation, for a call in the latest period, the one before or the next one -/
theorem updateRecent_inv {c : Cfg} (hn : 3 ≤ c.n) {s : St} {cur : Nat} {acc : List (Nat × Nat)} (h : Inv c s cur acc) {tick : Nat}
    (h1 : cur ≤ period c.ticks tick + 1) (h2 : period c.ticks tick ≤ cur + 1) : Inv c (updateRecent c s tick) (max cur (period c.ticks tick)) acc := by
  unfold updateRecent currentBucket rotatedIdx
  dsimp only
  have hp : tick / c.ticks = period c.ticks tick := rfl
  rw [hp]
  generalize period c.ticks tick = p at *
  rw [h.recent]
  rcases Nat.lt_or_ge cur p with hlt | hge
  · -- the next period
    have hpe : p = cur + 1 := by omega
    subst hpe
    have ne1 : (cur + 1) % c.n ≠ cur % c.n := by
      intro he
      have := idx_inj (n := c.n) (cur := cur + 1) (i := 0) (j := 1) (by omega) (by omega) (by
        rw [Nat.sub_zero, Nat.add_mod_right, show cur + 1 + c.n - 1 = cur + c.n by omega, Nat.add_mod_right]; exact he)
      omega
    have ne2 : ((cur + 1) % c.n + 1) % c.n ≠ cur % c.n := by
      intro he
      rw [Nat.mod_add_mod] at he
      have := idx_inj (n := c.n) (cur := cur + 2) (i := 0) (j := 2) (by omega) (by omega) (by
        rw [Nat.sub_zero, Nat.add_mod_right, show cur + 2 + c.n - 2 = cur + c.n by omega, Nat.add_mod_right]; exact he)
      omega
    rw [if_neg (by rintro (h | h); exact ne1 h; exact ne2 h), Nat.max_eq_right (by omega)]
    obtain ⟨L, hL1, hL2⟩ := h.all
    obtain ⟨r1, r2, r3⟩ := resetBucket_holds (c := c) (s := { s with recent := (cur + 1) % c.n }) (idx := (cur + 1) % c.n) h.fok (L := L) (fun j hj => hL1 j hj)
    refine ⟨r1, r2, ?_, fun a ha => Nat.le_succ_of_le (h.old a ha)⟩
    intro i hi
    have hb : (cur + 1 + c.n - i) % c.n < c.n := Nat.mod_lt _ (by omega)
    have := r3 _ hb
    rcases Nat.eq_zero_or_pos i with rfl | hpos
    · have he : (cur + 1 + c.n - 0) % c.n = (cur + 1) % c.n := by rw [Nat.sub_zero, Nat.add_mod_right]
      rw [if_pos he] at this
      have hempty : inPeriod acc (cur + 1) 0 = [] := by
        unfold inPeriod
        rw [List.map_eq_nil_iff, List.filter_eq_nil_iff]
        intro a ha
        have := h.old a ha
        simp only [decide_eq_true_eq]
        omega
      rw [hempty]; exact this
    · have hne : (cur + 1 + c.n - i) % c.n ≠ (cur + 1) % c.n := by
        intro he
        have := idx_inj (n := c.n) (cur := cur + 1) (i := i) (j := 0) hi (by omega) (by rw [Nat.sub_zero, Nat.add_mod_right]; exact he)
        omega
      rw [if_neg hne] at this
      have e : cur + 1 + c.n - i = cur + c.n - (i - 1) := by omega
      rw [e] at this ⊢
      rw [hL2 (i - 1) (by omega)] at this
      have e2 : inPeriod acc cur (i - 1) = inPeriod acc (cur + 1) i := by
        unfold inPeriod
        congr 1
        apply List.filter_congr
        intro a _
        have : (a.1 + (i - 1) = cur) ↔ (a.1 + i = cur + 1) := by omega
        simp only [this]
      rw [← e2]
      exact this
  · rw [Nat.max_eq_left hge, if_pos]
    · exact h
    · by_cases he : p = cur
      · left; rw [he]
      · right
        have : cur = p + 1 := by omega
        rw [this, Nat.mod_add_mod]

theorem recordAccess_inv {c : Cfg} (hc : c.cms.Ok) (hn : 3 ≤ c.n) {s : St} {cur : Nat} {acc : List (Nat × Nat)} (h : Inv c s cur acc) {tick : Nat} (key : Nat)
    (h1 : cur ≤ period c.ticks tick + 1) (h2 : period c.ticks tick ≤ cur + 1) :
    Inv c (recordAccess c s tick key) (max cur (period c.ticks tick)) (acc ++ [(max cur (period c.ticks tick), key)]) := by
  have hu := updateRecent_inv hn h h1 h2
  unfold recordAccess
  dsimp only
  generalize updateRecent c s tick = s1 at *
  generalize max cur (period c.ticks tick) = cu at *
  obtain ⟨L, hL1, hL2⟩ := hu.all
  have hr : s1.recent < c.n := by rw [hu.recent]; exact Nat.mod_lt _ (by omega)
  obtain ⟨r1, r2, r3⟩ := updateBucket_holds hc hu.fok hr key hL1
  refine ⟨r1, r2.trans hu.recent, ?_, ?_⟩
  · intro i hi
    have hb : (cu + c.n - i) % c.n < c.n := Nat.mod_lt _ (by omega)
    have := r3 _ hb
    rw [hL2 i hi] at this
    have e : (if (cu + c.n - i) % c.n = s1.recent then inPeriod acc cu i ++ [key] else inPeriod acc cu i) = inPeriod (acc ++ [(cu, key)]) cu i := by
      unfold inPeriod
      rw [List.filter_append, List.map_append]
      rcases Nat.eq_zero_or_pos i with rfl | hpos
      · rw [if_pos (by rw [hu.recent, Nat.sub_zero, Nat.add_mod_right])]
        simp
      · rw [if_neg]
        · simp [show i ≠ 0 by omega]
        · rw [hu.recent]
          intro he
          have := idx_inj (n := c.n) (cur := cu) (i := i) (j := 0) hi (by omega) (by rw [Nat.sub_zero, Nat.add_mod_right]; exact he)
          omega
    rw [← e]
    exact this
  · intro a ha
    rcases List.mem_append.mp ha with ha | ha
    · exact hu.old a ha
    · rw [List.mem_singleton] at ha; subst ha; exact Nat.le_refl _

theorem run_inv {c : Cfg} (hc : c.cms.Ok) (hn : 3 ≤ c.n) : ∀ (ops : List Op) (s : St) (cur : Nat) (acc : List (Nat × Nat)), Inv c s cur acc →
    Timely c.ticks cur ops → Inv c (run c s ops) (latest c.ticks cur ops) (acc ++ accesses c.ticks cur ops)
  | [], s, cur, acc, h, _ => by simpa [run, latest, accesses] using h
  | o :: l, s, cur, acc, h, ht => by
    obtain ⟨t1, t2, t3⟩ := ht
    cases o with
    | record t k =>
      have := run_inv hc hn l _ _ _ (recordAccess_inv hc hn h k t1 t2) t3
      simp only [latest, accesses]
      rw [List.append_assoc] at this
      exact this
    | ask t k =>
      have := run_inv hc hn l _ _ _ (updateRecent_inv hn h t1 t2) t3
      simp only [latest, accesses]
      exact this

/-- the first call brings the tracker to the first period -/
theorem first_inv {c : Cfg} {s : St} (hi : Init c s) {p : Nat} (hn : 3 ≤ c.n) (hs : (p + 1) % c.n ≠ 0) :
    Inv c (if p % c.n = s.recent ∨ (p % c.n + 1) % c.n = s.recent then s else resetBucket c { s with recent := p % c.n } (p % c.n)) p [] := by
  obtain ⟨s0, hs0, hashInt, nh, tb, b0, hb0, rfl⟩ := hi.sk
  have hw := Bloom.make_wf hb0
  have hz : s0 = ⟨fun _ => 0, 0⟩ := by
    unfold Sketch.init at hs0
    split at hs0
    · cases hs0
    · split at hs0
      · cases hs0
      · exact (Option.some.inj hs0).symm
  have hfok : FOk c (St.new s0 b0) := ⟨hw.1, hw.2.1⟩
  have hempty : ∀ j, j < c.n → Holds c (St.new s0 b0) j [] := by
    intro j _
    refine ⟨rfl, fun _ => ?_, fun _ k hk => absurd hk (by simp)⟩
    intro i _
    rw [hz]; rfl
  have hin : ∀ i, inPeriod [] p i = [] := fun i => rfl
  have hrec : (St.new s0 b0).recent = 0 := rfl
  rw [hrec]
  split
  · rename_i hc
    refine ⟨hfok, ?_, fun i hi => by rw [hin]; exact hempty _ (Nat.mod_lt _ (by omega)), by simp⟩
    rcases hc with hc | hc
    · rw [hrec, hc]
    · rw [Nat.mod_add_mod] at hc; exact absurd hc hs
  · obtain ⟨r1, r2, r3⟩ := resetBucket_holds (c := c) (s := { St.new s0 b0 with recent := p % c.n }) (idx := p % c.n) hfok (L := fun _ => []) (fun j hj => hempty j hj)
    refine ⟨r1, r2, fun i hi => ?_, by simp⟩
    rw [hin]
    have := r3 ((p + c.n - i) % c.n) (Nat.mod_lt _ (by omega))
    simpa using this

theorem good_inv {c : Cfg} {s : St} (hi : Init c s) {first : Op} {ops : List Op} (hg : Good c first ops) :
    Inv c (run c s (first :: ops)) (latest c.ticks (period c.ticks first.tick) ops) (accesses c.ticks (period c.ticks first.tick) (first :: ops)) := by
  obtain ⟨hn, ht, hs, htm⟩ := hg
  have hfi := first_inv hi hn hs
  have hu : updateRecent c s first.tick = (if period c.ticks first.tick % c.n = s.recent ∨ (period c.ticks first.tick % c.n + 1) % c.n = s.recent then s
      else resetBucket c { s with recent := period c.ticks first.tick % c.n } (period c.ticks first.tick % c.n)) := rfl
  rw [← hu] at hfi
  obtain ⟨-, -, t3⟩ := htm
  rw [Nat.max_self] at t3
  -- doing the rotation twice changes nothing
  have hidem : updateRecent c (updateRecent c s first.tick) first.tick = updateRecent c s first.tick := by
    have hr := hfi.recent
    generalize updateRecent c s first.tick = s1 at *
    unfold updateRecent currentBucket rotatedIdx
    dsimp only
    rw [if_pos (.inl (by rw [hr]; rfl))]
  cases first with
  | record t k =>
    have h1 := recordAccess_inv hi.cms hn (acc := []) hfi k (tick := t) (Nat.le_succ _) (Nat.le_succ _)
    have e : recordAccess c (updateRecent c s t) t k = recordAccess c s t k := by
      unfold recordAccess
      dsimp only
      have : updateRecent c (updateRecent c s t) t = updateRecent c s t := hidem
      rw [this]
    have h1' := e ▸ h1
    change Inv c (recordAccess c s t k) (max (period c.ticks t) (period c.ticks t)) _ at h1'
    rw [Nat.max_self] at h1'
    rw [show max (period c.ticks (Op.record t k).tick) (period c.ticks t) = period c.ticks t from Nat.max_self _] at h1'
    have := run_inv hi.cms hn ops _ _ _ h1' t3
    simp only [accesses, Op.tick, Nat.max_self]
    exact this
  | ask t k =>
    have := run_inv hi.cms hn ops _ _ _ hfi t3
    simp only [accesses, Op.tick, Nat.max_self]
    exact this

/-! ### the claims -/

/-- what getAccesses answers after a history -/
theorem tracker_features {c : Cfg} {s : St} (hi : Init c s) {first : Op} {ops : List Op} (hg : Good c first ops) {tick : Nat}
    (h1 : latest c.ticks (period c.ticks first.tick) ops ≤ period c.ticks tick + 1) (h2 : period c.ticks tick ≤ latest c.ticks (period c.ticks first.tick) ops + 1) (key : Nat) :
    (getAccesses c (run c s (first :: ops)) tick key).2.length = c.n ∧
    ∀ i, i < c.n →
      ∃ v, (getAccesses c (run c s (first :: ops)) tick key).2[i]? = some v ∧
        (let keys := inPeriod (accesses c.ticks (period c.ticks first.tick) (first :: ops)) (max (latest c.ticks (period c.ticks first.tick) ops) (period c.ticks tick)) i
         (c.useCounts = true →
            v = Sketch.getCount c.cms (Sketch.run c.cms ⟨fun _ => 0, 0⟩ (keys.map fun k => .inc (c.hash k))) (c.hash key) ∧
            min c.cms.M (keys.count key) ≤ v ∧ (keys = [] → v = 0)) ∧
         (c.useCounts = false → v ≤ 1 ∧ (key ∈ keys → v = 1))) := by
  have hinv := good_inv hi hg
  have hu := updateRecent_inv hg.buckets hinv h1 h2
  unfold getAccesses
  dsimp only
  refine ⟨by simp, ?_⟩
  intro i hin
  have hh := hu.holds i hin
  have hr := hu.recent
  generalize updateRecent c (run c s (first :: ops)) tick = s1 at *
  generalize max (latest c.ticks (period c.ticks first.tick) ops) (period c.ticks tick) = cu at *
  generalize inPeriod (accesses c.ticks (period c.ticks first.tick) (first :: ops)) cu i = keys at *
  refine ⟨bucketCount c s1 (rotatedIdx c (s1.recent + c.n - i)) (c.hash key), ?_, ?_⟩
  · rw [List.getElem?_map, List.getElem?_range hin]; rfl
  · have hidx : rotatedIdx c (s1.recent + c.n - i) = (cu + c.n - i) % c.n := by
      unfold rotatedIdx
      rw [hr]
      have e := Nat.div_add_mod cu c.n
      have : cu + c.n - i = (cu % c.n + c.n - i) + c.n * (cu / c.n) := by omega
      rw [this, Nat.add_mul_mod_self_left]
    rw [hidx]
    generalize (cu + c.n - i) % c.n = idx at *
    obtain ⟨g1, g2, g3⟩ := hh
    constructor
    · intro hc
      unfold bucketCount
      rw [if_pos hc, getCount_same hi.cms (g2 hc)]
      have hfed : fed c keys = Sketch.run c.cms ⟨fun _ => 0, 0⟩ (keys.map fun k => .inc (c.hash k)) := by
        unfold fed Sketch.run
        rw [List.foldl_map]
        rfl
      rw [hfed]
      refine ⟨rfl, ?_, ?_⟩
      · have hinit : Sketch.init c.cms = some ⟨fun _ => 0, 0⟩ := by
          unfold Sketch.init
          have hw := hi.cms.w
          have hd := hi.cms.d
          rw [if_neg (by omega), if_neg (by omega)]
        have := (Sketch.sketch_never_undercounts hi.cms _ hinit (keys.map fun k => .inc (c.hash k)) (by intro f hf; simp at hf) (by intro f hf; simp at hf) (c.hash key)).1
        refine Nat.le_trans ?_ this
        -- the true count of the hash is at least that of the key
        have : ∀ (keys : List Nat) (n m : Nat), min c.cms.M m ≤ n → min c.cms.M (m + keys.count key) ≤
            (keys.map fun k => Sketch.Op.inc (c.hash k)).foldl (fun n o => match o with
              | .inc k' => if k' = c.hash key then min c.cms.M (n + 1) else n
              | .decay f => f n
              | .reset => 0) n := by
          intro keys
          induction keys with
          | nil => intro n m h; simpa using h
          | cons a l ih =>
            intro n m h
            rw [List.map_cons, List.foldl_cons, List.count_cons]
            by_cases ha : a = key
            · subst ha
              simp only [beq_self_eq_true, if_true]
              have := ih (min c.cms.M (n + 1)) (m + 1) (by omega)
              rw [show m + (l.count a + 1) = m + 1 + l.count a by omega]
              exact this
            · have hb : (a == key) = false := by simpa using ha
              rw [hb]
              simp only [Bool.false_eq_true, if_false, Nat.add_zero]
              split
              · exact ih _ m (by omega)
              · exact ih _ m h
        have := this keys 0 0 (by simp)
        rw [Nat.zero_add] at this
        unfold Sketch.true'
        refine Nat.le_trans this (Nat.le_of_eq ?_)
        congr 1
      · rintro rfl
        simp only [List.map_nil, Sketch.run, List.foldl_nil]
        have hd := hi.cms.d
        have : ∀ x, x ≤ Sketch.getCount c.cms ⟨fun _ => 0, 0⟩ (c.hash key) → x = 0 := by
          intro x hx
          have := ((Sketch.le_getCount hi.cms _ _ _).mp hx).2 0 hd
          simpa using this
        exact this _ (Nat.le_refl _)
    · intro hc
      unfold bucketCount
      rw [hc]
      simp only [Bool.false_eq_true, if_false]
      constructor
      · split <;> omega
      · intro hk
        rw [if_pos (g3 hc key hk)]

/-- recordAndPopulateAccessFeatures returns the features before the access and then records it -/
theorem tracker_record_and_populate (c : Cfg) (s : St) (t1 t2 key : Nat) :
    (recordAndPopulate c s t1 t2 key).2 = (getAccesses c s t1 key).2 ∧ (recordAndPopulate c s t1 t2 key).1 = run c s [.ask t1 key, .record t2 key] := ⟨rfl, rfl⟩

/-- getRotatedAccessCounts in the latest period: the exact numbers of accesses -/
theorem tracker_rotated_counts {c : Cfg} {s : St} (hi : Init c s) {first : Op} {ops : List Op} (hg : Good c first ops) {tick : Nat}
    (h1 : period c.ticks tick = latest c.ticks (period c.ticks first.tick) ops) :
    rotatedCounts c (run c s (first :: ops)) tick =
      (List.range c.n).map fun i => (inPeriod (accesses c.ticks (period c.ticks first.tick) (first :: ops)) (latest c.ticks (period c.ticks first.tick) ops) i).length := by
  have hinv := good_inv hi hg
  unfold rotatedCounts
  apply List.map_congr_left
  intro i hi'
  have hin := List.mem_range.mp hi'
  have hh := (hinv.holds i hin).1
  rw [← hh]
  congr 1
  unfold rotatedIdx currentBucket rotatedIdx
  have hp : tick / c.ticks = period c.ticks tick := rfl
  rw [hp, h1]
  generalize latest c.ticks (period c.ticks first.tick) ops = cu
  have e := Nat.div_add_mod cu c.n
  have : cu + c.n - i = (cu % c.n + c.n - i) + c.n * (cu / c.n) := by omega
  rw [this, Nat.add_mul_mod_self_left]

/-! ### concrete cases, and what does not hold -/

/-- a small tracker: periods of 10 ticks -/
def exCfg (n : Nat) : Cfg := { n := n, ticks := 10, useCounts := true, cms := { h := fun r k => k + r, width := 16, depth := 2, M := 100 }, comb := fun a b => a + b, hash := id }

/-- its initial state -/
def exInit : St := St.new ⟨fun _ => 0, 0⟩ { numFilters := 0, tableBits := 0, filterBytes := 0, seeds := [], bits := fun _ => 0 }

/-- what getAccesses answers after recording -/
def exAsk (n : Nat) (l : List (Nat × Nat)) (tick key : Nat) : List Nat :=
  (getAccesses (exCfg n) (run (exCfg n) exInit (l.map fun a => .record a.1 a.2)) tick key).2

/-- accesses in three successive periods -/
example : exAsk 4 [(0, 7), (1, 7), (12, 7), (13, 8), (25, 7), (26, 7), (19, 7)] 27 7 = [3, 1, 2, 0] := by decide +kernel

/-- so is a history that meets `Good` -/
example : Good (exCfg 4) (.record 0 7) [.record 1 7, .record 12 7, .ask 25 7, .record 19 8] :=
  ⟨by decide, by decide, by decide, by simp [Timely, period, exCfg, Op.tick]⟩

/-- and an initial state that meets `Init` -/
example : Init (exCfg 4) (St.new ⟨fun _ => 0, 0⟩ ⟨4, 8, Bloom.bitsToBytes (2 * 8), (List.range 2).map id, fun _ => 0⟩) :=
  ⟨⟨by decide, by decide, by decide⟩, _, rfl, id, 2, 8, _, rfl, rfl⟩

/-- a period without calls is not cleared: an access of 4 periods ago is reported as one of the previous period -/
theorem tracker_skipped_period_violated : exAsk 4 [(0, 7), (10, 7), (11, 7), (20, 7), (30, 7), (40, 9)] 60 7 = [0, 2, 0, 1] := by decide +kernel

/-- with two buckets nothing is ever rotated: accesses of 100 periods ago count as current -/
theorem tracker_two_buckets_violated : exAsk 2 [(0, 7), (10, 7), (20, 7)] 1010 7 = [3, 0] := by decide +kernel

/-- starting in the last period of a round: two periods are counted as one -/
theorem tracker_start_violated : exAsk 4 [(30, 7), (40, 7)] 41 7 = [2, 0, 0, 0] := by decide +kernel

/-- after a pause of n - 1 periods the access is counted in the old period, with the accesses of then -/
theorem tracker_pause_violated : exAsk 4 [(10, 7), (40, 7)] 41 7 = [2, 0, 0, 0] := by decide +kernel

/-- getRotatedAccessCounts after the latest period of a call reports the oldest bucket as the current one -/
theorem tracker_rotated_counts_limit :
    rotatedCounts (exCfg 3) (run (exCfg 3) exInit [.record 0 7, .record 10 7, .record 11 7, .record 20 7]) 30 = [1, 1, 2] := by decide +kernel

end Verif.Trackers.Tracker
