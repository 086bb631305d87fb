import Verif.MM2Q.Lemmas
import Verif.MultiDList.Props
/-!
Property C10: the 2Q container.

Specification: three sequences hot, warm and cold, each from most to least recently used; the last `kw` of warm and
the last `kc` of cold are the tails, for which hits are counted apart.
-/
namespace Verif.MM2Q
open Verif MultiDList

variable {N : Type} [DecidableEq N]

/-- What a user knows about the container. -/
structure Q2 (N : Type) where
  hot : List N
  warm : List N
  cold : List N
  kw : Nat
  kc : Nat
  cfg : Config
  time : N → Nat
  /-- constructed and not in a container since -/
  fresh : N → Bool
  nHot : Nat
  nCold : Nat
  nWarm : Nat
  nWarmTail : Nat
  nColdTail : Nat

/-- the items of the container. -/
def Q2.items (u : Q2 N) : List N := u.hot ++ u.warm ++ u.cold
/-- the warm tail. -/
def Q2.wtail (u : Q2 N) : List N := u.warm.drop (u.warm.length - u.kw)
/-- the cold tail. -/
def Q2.ctail (u : Q2 N) : List N := u.cold.drop (u.cold.length - u.kc)

/-- Rebalancing of `n` items: warm keeps its first warm% · n items and hot its first hot% · n; the others go to the
front of cold in order (those from hot first).  Tails then grow to tailSize if there are so many items. -/
def Q2.rebalance (u : Q2 N) : Q2 N :=
  let n := u.items.length
  let w := (100 - u.cfg.hotPct - u.cfg.coldPct) * n / 100
  let h := u.cfg.hotPct * n / 100
  { u with
    hot := u.hot.take h
    warm := u.warm.take w
    cold := u.hot.drop h ++ u.warm.drop w ++ u.cold
    kw := max (u.kw - (u.warm.length - w)) (min u.cfg.tailSize (u.warm.take w).length)
    kc := max u.kc (min u.cfg.tailSize (u.hot.drop h ++ u.warm.drop w ++ u.cold).length) }

/-- taking an item out. -/
def Q2.without (u : Q2 N) (x : N) : Q2 N :=
  { u with
    hot := u.hot.filter (fun y => y ≠ x)
    warm := u.warm.filter (fun y => y ≠ x)
    cold := u.cold.filter (fun y => y ≠ x)
    kw := if x ∈ u.wtail then u.kw - 1 else u.kw
    kc := if x ∈ u.ctail then u.kc - 1 else u.kc }

/-- The operations, each one critical section; `promote` is that of recordAccess, `evict` is remove through the
iterator (no rebalancing), `construct` makes a new item in memory that is in no container. -/
inductive Op (N : Type) where
  | add (x : N) (now : Nat)
  | remove (x : N)
  | evict (x : N)
  | replace (o x : N)
  | promote (x : N) (now : Nat)
  | setConfig (c : Config) (now : Nat)
  | construct (x : N)

/-- Specification of the operations: new state and answer. -/
def Q2.step (u : Q2 N) : Op N → Q2 N × Bool
  | .add x now =>
    if x ∈ u.items then (u, false)
    else ({ Q2.rebalance { u with hot := x :: u.hot } with
              time := fun y => if y = x then now else u.time y, fresh := fun y => if y = x then false else u.fresh y }, true)
  | .remove x => if x ∈ u.items then ((u.without x).rebalance, true) else (u, false)
  | .evict x => (u.without x, true)
  | .replace o x =>
    if o ∈ u.items ∧ x ∉ u.items then
      ({ u with
          hot := u.hot.map (fun y => if y = o then x else y)
          warm := u.warm.map (fun y => if y = o then x else y)
          cold := u.cold.map (fun y => if y = o then x else y)
          time := fun y => if y = x then u.time o else u.time y
          fresh := fun y => if y = x then false else u.fresh y }, true)
    else (u, false)
  | .promote x now =>
    if x ∈ u.hot then
      ({ u with hot := x :: u.hot.filter (fun y => y ≠ x), nHot := u.nHot + 1,
                time := fun y => if y = x then now else u.time y }, true)
    else if x ∈ u.cold then
      let v := { u.without x with
        warm := x :: u.warm, nCold := u.nCold + 1, nColdTail := if x ∈ u.ctail then u.nColdTail + 1 else u.nColdTail }
      ({ (if u.cfg.rebalanceOnRecordAccess then v.rebalance else v) with
          time := fun y => if y = x then now else u.time y }, true)
    else if x ∈ u.warm then
      ({ u.without x with
          warm := x :: u.warm.filter (fun y => y ≠ x), nWarm := u.nWarm + 1,
          nWarmTail := if x ∈ u.wtail then u.nWarmTail + 1 else u.nWarmTail,
          time := fun y => if y = x then now else u.time y }, true)
    else (u, false)
  | .setConfig c _ =>
    if (0 < u.cfg.tailSize ↔ 0 < c.tailSize) then ({ u with cfg := c }, true) else (u, false)
  | .construct x => ({ u with fresh := fun y => if y = x then true else u.fresh y }, true)

/-- Preconditions: an item that is evicted is in the container (the iterator stands on it), one that is constructed
is not; the new item of a replace is newly constructed; percentages add up to at most 100. -/
def Q2.Legal (u : Q2 N) : Op N → Prop
  | .evict x => x ∈ u.items
  | .construct x => x ∉ u.items
  | .replace _ x => x ∈ u.items ∨ u.fresh x = true
  | .setConfig c _ => c.hotPct + c.coldPct ≤ 100
  | _ => True

/-- Run of the specification with all answers. -/
def Q2.run (u : Q2 N) : List (Op N) → Q2 N × List Bool
  | [] => (u, [])
  | o :: os => (((u.step o).1.run os).1, (u.step o).2 :: ((u.step o).1.run os).2)

def Q2.LegalRun (u : Q2 N) : List (Op N) → Prop
  | [] => True
  | o :: os => u.Legal o ∧ (u.step o).1.LegalRun os

/-- Running the code. -/
def step (s : State N) : Op N → Option (State N × Bool)
  | .add x now => add s x now
  | .remove x => remove s x
  | .evict x => (removeLocked s x false).map fun s => (s, true)
  | .replace o x => some (replace s o x)
  | .promote x now => promote s x now
  | .setConfig c now => some (setConfig s c now)
  | .construct x => some (construct s x, true)

/-- Run of the code with all answers; `none` if it ever dereferences null. -/
def run (s : State N) : List (Op N) → Option (State N × List Bool)
  | [] => some (s, [])
  | o :: os => (step s o).bind fun r => (run r.1 os).map fun q => (q.1, r.2 :: q.2)

/-- What can be observed of the container agrees with the specification. -/
structure View (s : State N) (u : Q2 N) : Prop where
  /-- the five lists -/
  hot : DList.Observes (s.m.hooks, s.m.lists Hot) u.hot
  warm : DList.Observes (s.m.hooks, s.m.lists Warm) (u.warm.take (u.warm.length - u.kw))
  warmTail : DList.Observes (s.m.hooks, s.m.lists WarmTail) u.wtail
  cold : DList.Observes (s.m.hooks, s.m.lists Cold) (u.cold.take (u.cold.length - u.kc))
  coldTail : DList.Observes (s.m.hooks, s.m.lists ColdTail) u.ctail
  /-- an item is in one queue only -/
  once : u.items.Nodup
  kw : u.kw ≤ u.warm.length
  kc : u.kc ≤ u.cold.length
  /-- an item is reported a member exactly when it is in a queue -/
  member : ∀ x, s.inMM x = true ↔ x ∈ u.items
  /-- the queue reported is the one it is in -/
  queue : (∀ x ∈ u.hot, s.lruType x = Hot) ∧
    (∀ x ∈ u.warm, s.lruType x = if x ∈ u.wtail then WarmTail else Warm) ∧
    (∀ x ∈ u.cold, s.lruType x = if x ∈ u.ctail then ColdTail else Cold)
  /-- sizes add up -/
  size : MultiDList.size s.m = u.items.length
  /-- the eviction iterator: cold first, then hot, then warm, each from the least recently used -/
  evictions : ∀ k, u.items.length ≤ k →
    visit s.m k (rbegin s.m) = u.cold.reverse ++ u.hot.reverse ++ u.warm.reverse
  time : s.time = u.time
  counts : s.numHot = u.nHot ∧ s.numCold = u.nCold ∧ s.numWarm = u.nWarm ∧ s.numWarmTail = u.nWarmTail ∧
    s.numColdTail = u.nColdTail
  config : s.config = u.cfg

/-- queues of the specification from the five lists. -/
structure Shape (seq : Nat → List N) (u : Q2 N) : Prop where
  hot : u.hot = seq 2
  warm : u.warm = seq 0 ++ seq 1
  cold : u.cold = seq 3 ++ seq 4
  kw : u.kw = (seq 1).length
  kc : u.kc = (seq 4).length

theorem Shape.wtail {seq : Nat → List N} {u : Q2 N} (h : Shape seq u) : u.wtail = seq 1 := by
  unfold Q2.wtail; rw [h.kw, h.warm]; simp
theorem Shape.ctail {seq : Nat → List N} {u : Q2 N} (h : Shape seq u) : u.ctail = seq 4 := by
  unfold Q2.ctail; rw [h.kc, h.cold]; simp

theorem Shape.mem {seq : Nat → List N} {u : Q2 N} (h : Shape seq u) {s : State N} {P : N → Prop} (hi : QInv P s seq) (x : N) :
    x ∈ u.items ↔ ∃ q, x ∈ seq q := by
  unfold Q2.items
  rw [h.hot, h.warm, h.cold]
  simp only [List.mem_append]
  constructor
  · rintro ((h | h | h) | h | h) <;> exact ⟨_, h⟩
  · rintro ⟨q, hq⟩
    have := hi.lt hq
    match q, this with
    | 0, _ => exact Or.inl (Or.inr (Or.inl hq))
    | 1, _ => exact Or.inl (Or.inr (Or.inr hq))
    | 2, _ => exact Or.inl (Or.inl hq)
    | 3, _ => exact Or.inr (Or.inl hq)
    | 4, _ => exact Or.inr (Or.inr hq)

/-- link between the invariant and the specification. -/
structure Link (s : State N) (u : Q2 N) : Prop where
  inv : ∃ seq, QInv (fun x => u.fresh x = true) s seq ∧ Shape seq u
  mem : ∀ x, s.inMM x = true ↔ x ∈ u.items
  time : s.time = u.time
  counts : s.numHot = u.nHot ∧ s.numCold = u.nCold ∧ s.numWarm = u.nWarm ∧ s.numWarmTail = u.nWarmTail ∧
    s.numColdTail = u.nColdTail
  config : s.config = u.cfg
  tracking : s.tracking = decide (0 < u.cfg.tailSize)
  pct : u.cfg.hotPct + u.cfg.coldPct ≤ 100

theorem warmPct_eq {c : Config} (h : c.hotPct + c.coldPct ≤ 100) : c.warmPct = 100 - c.hotPct - c.coldPct := by
  unfold Config.warmPct; omega

theorem Link.view {s : State N} {u : Q2 N} (h : Link s u) : View s u := by
  obtain ⟨⟨seq, hq, hs⟩, hm, ht, hn, hc, _, _⟩ := h
  have hlen : u.items.length = (seq 2).length + ((seq 0).length + (seq 1).length) + ((seq 3).length + (seq 4).length) := by
    simp [Q2.items, hs.hot, hs.warm, hs.cold]; omega
  refine ⟨?_, ?_, ?_, ?_, ?_, ?_, by rw [hs.kw, hs.warm]; simp, by rw [hs.kc, hs.cold]; simp, hm, ⟨?_, ?_, ?_⟩, ?_, ?_, ht, hn, hc⟩
  · rw [hs.hot]; exact DList.observes_of_rep (hq.rep.rep 2)
  · rw [hs.kw, hs.warm]
    simp only [List.length_append, Nat.add_sub_cancel, List.take_left]
    exact DList.observes_of_rep (hq.rep.rep 0)
  · rw [hs.wtail]; exact DList.observes_of_rep (hq.rep.rep 1)
  · rw [hs.kc, hs.cold]
    simp only [List.length_append, Nat.add_sub_cancel, List.take_left]
    exact DList.observes_of_rep (hq.rep.rep 3)
  · rw [hs.ctail]; exact DList.observes_of_rep (hq.rep.rep 4)
  · unfold Q2.items
    rw [hs.hot, hs.warm, hs.cold]
    have hd := hq.rep.disj
    have hnd := fun q => (hq.rep.rep q).nodup
    simp only [List.nodup_append, List.mem_append]
    refine ⟨⟨hnd 2, ⟨hnd 0, hnd 1, ?_⟩, ?_⟩, ⟨hnd 3, hnd 4, ?_⟩, ?_⟩
    · intro a ha b hb e; exact hd 0 1 (by decide) a ha (e ▸ hb)
    · rintro a ha b (hb | hb) e
      · exact hd 2 0 (by decide) a ha (e ▸ hb)
      · exact hd 2 1 (by decide) a ha (e ▸ hb)
    · intro a ha b hb e; exact hd 3 4 (by decide) a ha (e ▸ hb)
    · rintro a (ha | ha | ha) b (hb | hb) e
      · exact hd 2 3 (by decide) a ha (e ▸ hb)
      · exact hd 2 4 (by decide) a ha (e ▸ hb)
      · exact hd 0 3 (by decide) a ha (e ▸ hb)
      · exact hd 0 4 (by decide) a ha (e ▸ hb)
      · exact hd 1 3 (by decide) a ha (e ▸ hb)
      · exact hd 1 4 (by decide) a ha (e ▸ hb)
  · intro x hx; rw [hs.hot] at hx; exact lruType_eq hq hx
  · intro x hx
    rw [hs.warm] at hx
    rw [hs.wtail]
    rcases List.mem_append.1 hx with hx | hx
    · rw [lruType_eq hq hx, if_neg (hq.rep.disj 0 1 (by decide) x hx)]
    · rw [lruType_eq hq hx, if_pos hx]
  · intro x hx
    rw [hs.cold] at hx
    rw [hs.ctail]
    rcases List.mem_append.1 hx with hx | hx
    · rw [lruType_eq hq hx, if_neg (hq.rep.disj 3 4 (by decide) x hx)]
    · rw [lruType_eq hq hx, if_pos hx]
  · rw [hq.size, hlen]; omega
  · intro k hk
    have h1 := rbeginFrom_at hq.rep 4
    have h2 := visit_at hq.rep k h1 (by
      rw [hlen] at hk
      simp [order]; omega)
    rw [rbegin, hq.num]
    refine h2.trans ?_
    rw [hs.hot, hs.warm, hs.cold]
    simp [order]

theorem items_rebalance_len {u : Q2 N} : u.rebalance.items.length = u.items.length := by
  simp only [Q2.rebalance, Q2.items, List.length_append, List.length_take, List.length_drop]
  omega

theorem items_rebalance_mem {u : Q2 N} (x : N) : x ∈ u.rebalance.items ↔ x ∈ u.items := by
  have h1 : ∀ (l : List N) k, x ∈ l ↔ x ∈ l.take k ∨ x ∈ l.drop k := by
    intro l k
    rw [← List.mem_append, List.take_append_drop]
  simp only [Q2.rebalance, Q2.items, List.mem_append]
  rw [h1 u.hot (u.cfg.hotPct * (u.hot ++ u.warm ++ u.cold).length / 100),
    h1 u.warm ((100 - u.cfg.hotPct - u.cfg.coldPct) * (u.hot ++ u.warm ++ u.cold).length / 100)]
  grind

theorem rebalance_link {P : N → Prop} {s : State N} {seq : Nat → List N} {u : Q2 N} (h : QInv P s seq) (hs : Shape seq u)
    (hc : s.config = u.cfg) (hp : u.cfg.hotPct + u.cfg.coldPct ≤ 100) :
    ∃ s' seq', rebalance s = some s' ∧ QInv P s' seq' ∧ Shape seq' u.rebalance ∧ rest s' = rest s := by
  obtain ⟨s', seq', h1, h2, h3, h4⟩ := rebalance_spec h
  refine ⟨s', seq', h1, h2, ?_, h4⟩
  have hlen : (seq 0).length + (seq 1).length + (seq 2).length + (seq 3).length + (seq 4).length = u.items.length := by
    simp [Q2.items, hs.hot, hs.warm, hs.cold]; omega
  obtain ⟨a1, a2, a3, a4, a5⟩ := h3
  rw [hc, hlen] at *
  rw [warmPct_eq hp, ← hs.warm] at a1 a3 a4
  rw [← hs.hot] at a2 a3
  rw [← hs.cold] at a3
  refine ⟨?_, ?_, ?_, ?_, ?_⟩
  · simp only [Q2.rebalance]; exact a2.symm
  · simp only [Q2.rebalance]; exact a1.symm
  · simp only [Q2.rebalance]; exact a3.symm
  · simp only [Q2.rebalance]; rw [a4, a1, hs.kw]
  · simp only [Q2.rebalance]; rw [a5, a3, hs.kc]

theorem filter_len {t : List N} {x : N} (hn : t.Nodup) :
    (t.filter (fun y => y ≠ x)).length = if x ∈ t then t.length - 1 else t.length := by
  split
  · rename_i hx
    obtain ⟨a, b, rfl⟩ := List.append_of_mem hx
    obtain ⟨h1, h2, _⟩ := DList.nodup_mid hn
    rw [List.filter_append, List.filter_cons, filter_not_mem h1, filter_not_mem h2]
    simp
  · rename_i hx
    rw [filter_not_mem hx]

theorem without_shape {P : N → Prop} {s : State N} {seq : Nat → List N} {u : Q2 N} (h : QInv P s seq) (hs : Shape seq u)
    (x : N) : Shape (fun p => (seq p).filter (fun y => y ≠ x)) (u.without x) := by
  refine ⟨?_, ?_, ?_, ?_, ?_⟩
  · simp only [Q2.without, hs.hot]
  · simp only [Q2.without, hs.warm, List.filter_append]
  · simp only [Q2.without, hs.cold, List.filter_append]
  · simp only [Q2.without]; rw [filter_len (h.rep.rep 1).nodup, hs.wtail, hs.kw]
  · simp only [Q2.without]; rw [filter_len (h.rep.rep 4).nodup, hs.ctail, hs.kc]

theorem mem_without {u : Q2 N} {x y : N} : y ∈ (u.without x).items ↔ y ∈ u.items ∧ y ≠ x := by
  simp only [Q2.without, Q2.items, List.mem_append, List.mem_filter, decide_eq_true_eq]
  grind

theorem rest_counts {s s' : State N} (h : rest s' = rest s) :
    (s'.numHot = s.numHot ∧ s'.numCold = s.numCold ∧ s'.numWarm = s.numWarm ∧ s'.numWarmTail = s.numWarmTail ∧
    s'.numColdTail = s.numColdTail) ∧ s'.inMM = s.inMM ∧ s'.time = s.time ∧ s'.tracking = s.tracking := by
  simp only [rest, Prod.mk.injEq] at h
  exact ⟨⟨h.2.2.2.2.1, h.2.2.2.2.2.1, h.2.2.2.2.2.2.1, h.2.2.2.2.2.2.2.1, h.2.2.2.2.2.2.2.2.1⟩,
    h.2.2.2.2.2.2.2.2.2.1, h.2.2.2.2.2.2.2.2.2.2, h.1⟩

theorem QInv.congr {P : N → Prop} {s s' : State N} {seq : Nat → List N} (h : QInv P s seq) (hm : s'.m = s.m)
    (hf : s'.hot = s.hot ∧ s'.cold = s.cold ∧ s'.tail = s.tail) (hc : s'.config.tailSize = 0 → s.config.tailSize = 0) :
    QInv P s' seq := by
  obtain ⟨h1, h2, h3⟩ := hf
  refine ⟨by rw [hm]; exact h.rep, by rw [hm]; exact h.num, h.none, ?_, fun e => h.zero (hc e), ?_⟩
  · intro q x hx
    have hf := h.flags q x hx
    exact ⟨by rw [h1, hf.hot], by rw [h2, hf.cold], by rw [h3, hf.tail]⟩
  · intro x hx
    have := h.clear x hx
    rw [h1, h2, h3]; exact this

theorem reconfigure_link {s : State N} {u : Q2 N} (h : Link s u) (now : Nat) : Link (reconfigure s now) u := by
  unfold reconfigure
  split
  · exact h
  · obtain ⟨⟨seq, hq, hs⟩, hm, ht, hn, hc, htr, hp⟩ := h
    exact ⟨⟨seq, hq.congr rfl ⟨rfl, rfl, rfl⟩ id, hs⟩, hm, ht, hn, hc, htr, hp⟩

theorem inMM_false {s : State N} {u : Q2 N} (h : Link s u) {x : N} (hx : x ∉ u.items) : s.inMM x = false := by
  cases e : s.inMM x with
  | false => rfl
  | true => exact absurd ((h.mem x).1 e) hx

theorem add_link {s : State N} {u : Q2 N} (h : Link s u) (x : N) (now : Nat) :
    ∃ s', add s x now = some (s', (u.step (.add x now)).2) ∧ Link s' (u.step (.add x now)).1 := by
  simp only [Q2.step]
  unfold add
  by_cases hx : x ∈ u.items
  · rw [if_pos hx, if_pos ((h.mem x).2 hx)]
    exact ⟨s, rfl, h⟩
  · rw [if_neg hx, if_neg (by rw [inMM_false h hx]; decide)]
    obtain ⟨⟨seq, hq, hs⟩, hm, ht, hn, hc, htr, hp⟩ := h
    have hnot : ∀ p, x ∉ seq p := fun p hp => hx ((hs.mem hq x).2 ⟨p, hp⟩)
    have hq1 := link_inv (P := fun y => (if y = x then false else u.fresh y) = true)
      (s' := { s with hot := upd s.hot x true, cold := upd s.cold x false, tail := upd s.tail x false }.on 2 (.linkAtHead x))
      (hq.weaken (P' := fun y => (if y = x then false else u.fresh y) = true) (by
        intro y hy; split at hy
        · cases hy
        · exact hy))
      (Or.inr rfl) hnot (by simp) rfl ⟨by simp [State.on], by simp [State.on], by simp [State.on]⟩
      (fun y hy => ⟨upd_ne _ _ hy, upd_ne _ _ hy, upd_ne _ _ hy⟩) rfl
    have hs1 : Shape (upd seq 2 (x :: seq 2)) { u with hot := x :: u.hot } :=
      ⟨by simp [hs.hot], by simp [hs.warm, upd], by simp [hs.cold, upd], by simp [hs.kw, upd], by simp [hs.kc, upd]⟩
    obtain ⟨s2, seq2, g1, g2, g3, g4⟩ := rebalance_link hq1 hs1 hc hp
    simp only [g1, Option.map_some]
    obtain ⟨e1, e2, e3, e4⟩ := rest_counts g4
    refine ⟨_, rfl, ⟨seq2, g2.congr rfl ⟨rfl, rfl, rfl⟩ id, ⟨g3.hot, g3.warm, g3.cold, g3.kw, g3.kc⟩⟩, ?_, ?_, ?_, ?_, ?_, hp⟩
    · intro y
      simp only
      have := items_rebalance_mem (u := { u with hot := x :: u.hot }) y
      refine Iff.trans ?_ this.symm
      rw [e2]
      simp only [upd, State.on]
      by_cases e : y = x
      · simp [e, Q2.items]
      · simp only [e, if_false]
        rw [hm y]
        simp [Q2.items, e]
    · simp only [e3, State.on]; rw [ht]; rfl
    · simp only [e1, State.on]
      exact hn
    · exact (rest_config g4).trans hc
    · exact e4.trans htr

theorem evict_link {s : State N} {u : Q2 N} (h : Link s u) {x : N} (hx : x ∈ u.items) :
    ∃ s', removeLocked s x false = some s' ∧ Link s' (u.without x) := by
  obtain ⟨⟨seq, hq, hs⟩, hm, ht, hn, hc, htr, hp⟩ := h
  obtain ⟨q, hxq⟩ := (hs.mem hq x).1 hx
  have hq1 := drop_inv (s' := s.on q (.remove x)) hq hxq rfl (fun y hy => ⟨rfl, rfl, rfl⟩) rfl
  unfold removeLocked
  rw [lruType_eq hq hxq]
  refine ⟨_, rfl, ⟨_, hq1.congr rfl ⟨rfl, rfl, rfl⟩ id, without_shape hq hs x⟩, ?_, ht, hn, hc, htr, hp⟩
  intro y
  rw [mem_without, ← hm y]
  simp only [upd, State.on]
  by_cases e : y = x <;> simp [e]

theorem remove_link {s : State N} {u : Q2 N} (h : Link s u) (x : N) :
    ∃ s', remove s x = some (s', (u.step (.remove x)).2) ∧ Link s' (u.step (.remove x)).1 := by
  simp only [Q2.step]
  unfold remove
  by_cases hx : x ∈ u.items
  · rw [if_pos hx, if_pos ((h.mem x).2 hx)]
    obtain ⟨⟨seq, hq, hs⟩, hm, ht, hn, hc, htr, hp⟩ := h
    obtain ⟨q, hxq⟩ := (hs.mem hq x).1 hx
    have hq1 := drop_inv (s' := s.on q (.remove x)) hq hxq rfl (fun y hy => ⟨rfl, rfl, rfl⟩) rfl
    obtain ⟨s2, seq2, g1, g2, g3, g4⟩ := rebalance_link hq1 (without_shape hq hs x) hc hp
    obtain ⟨e1, e2, e3, e4⟩ := rest_counts g4
    unfold removeLocked
    rw [lruType_eq hq hxq]
    simp only [if_true, g1, Option.map_some]
    refine ⟨_, rfl, ⟨seq2, g2.congr rfl ⟨rfl, rfl, rfl⟩ id, g3⟩, ?_, e3.trans ht, ?_, (rest_config g4).trans hc, e4.trans htr, hp⟩
    · intro y
      rw [items_rebalance_mem, mem_without, ← hm y]
      simp only [upd]
      by_cases e : y = x
      · simp [e]
      · simp [e, e2, State.on]
    · simp only [e1, State.on]; exact hn
  · rw [if_neg hx, if_neg (by rw [inMM_false h hx]; decide)]
    exact ⟨s, rfl, h⟩

theorem markAs_flags {s : State N} {q : Nat} {x : N} (hq : q < 5) (h1 : s.hot x = false) (h2 : s.cold x = false)
    (h3 : s.tail x = false) :
    Flags (markAs s q x) q x ∧ Others s (markAs s q x) x ∧ (markAs s q x).m = s.m ∧ rest (markAs s q x) = rest s := by
  match q, hq with
  | 0, _ => exact ⟨⟨h1, h2, h3⟩, fun _ _ => ⟨rfl, rfl, rfl⟩, rfl, rfl⟩
  | 1, _ => exact ⟨⟨h1, h2, by simp [markAs]⟩, fun y hy => ⟨rfl, rfl, upd_ne _ _ hy⟩, rfl, rfl⟩
  | 2, _ => exact ⟨⟨by simp [markAs], h2, h3⟩, fun y hy => ⟨upd_ne _ _ hy, rfl, rfl⟩, rfl, rfl⟩
  | 3, _ => exact ⟨⟨h1, by simp [markAs], h3⟩, fun y hy => ⟨rfl, upd_ne _ _ hy, rfl⟩, rfl, rfl⟩
  | 4, _ => exact ⟨⟨h1, by simp [markAs], by simp [markAs]⟩, fun y hy => ⟨rfl, upd_ne _ _ hy, upd_ne _ _ hy⟩, rfl, rfl⟩

theorem mem_subst_iff {l : List N} {o x y : N} (hx : x ∉ l) :
    y ∈ l.map (fun z => if z = o then x else z) ↔ (y = x ∧ o ∈ l) ∨ (y ∈ l ∧ y ≠ o) := by
  constructor
  · exact mem_subst
  · rintro (⟨rfl, h⟩ | ⟨h, h'⟩)
    · exact List.mem_map.2 ⟨o, h, by simp⟩
    · exact List.mem_map.2 ⟨y, h, by simp [h']⟩

theorem replace_link {s : State N} {u : Q2 N} (h : Link s u) (o x : N) (hl : u.Legal (.replace o x)) :
    (replace s o x).2 = (u.step (.replace o x)).2 ∧ Link (replace s o x).1 (u.step (.replace o x)).1 := by
  simp only [Q2.step]
  unfold replace
  by_cases hx : o ∈ u.items ∧ x ∉ u.items
  · have hi := inMM_false h hx.2
    rw [if_pos hx, if_neg (by
      rintro (h' | h')
      · exact h' ((h.mem o).2 hx.1)
      · rw [hi] at h'; cases h')]
    obtain ⟨⟨seq, hq, hs⟩, hm, ht, hn, hc, htr, hp⟩ := h
    obtain ⟨q, hoq⟩ := (hs.mem hq o).1 hx.1
    have hnot : ∀ p, x ∉ seq p := fun p hp => hx.2 ((hs.mem hq x).2 ⟨p, hp⟩)
    have hfr : u.fresh x = true := by rcases hl with h | h; exact absurd h hx.2; exact h
    obtain ⟨_, c1, c2, c3⟩ := hq.clear x hfr
    simp only [lruType_eq hq hoq]
    obtain ⟨m1, m2, m3, m4⟩ := markAs_flags (s := s.on q (.replace o x)) (hq.lt hoq) c1 c2 c3
    obtain ⟨r1, r2, r3, r4⟩ := rest_counts m4
    have r5 := rest_config m4
    generalize markAs (s.on q (.replace o x)) q x = t at m1 m2 m3 r1 r2 r3 r4 r5 ⊢
    replace r1 : t.numHot = s.numHot ∧ t.numCold = s.numCold ∧ t.numWarm = s.numWarm ∧
      t.numWarmTail = s.numWarmTail ∧ t.numColdTail = s.numColdTail := r1
    replace r2 : t.inMM = s.inMM := r2
    replace r3 : t.time = s.time := r3
    refine ⟨trivial, ⟨fun p => subst o x (seq p), ?_, ?_⟩, ?_, ?_, ?_, r5.trans hc, r4.trans htr, hp⟩
    · refine replace_inv (s := s) (hq.weaken ?_) hoq hnot ?_ m3 ⟨m1.hot, m1.cold, m1.tail⟩ m2 r5
      · intro y hy; simp only at hy; split at hy
        · cases hy
        · exact hy
      · simp
    · exact ⟨by simp only [hs.hot]; rfl, by simp only [hs.warm, List.map_append]; rfl,
        by simp only [hs.cold, List.map_append]; rfl, by simp [hs.kw, subst], by simp [hs.kc, subst]⟩
    · intro y
      refine Iff.trans ?_ (show y ∈ u.items.map (fun z => if z = o then x else z) ↔ _ by simp only [Q2.items, List.map_append])
      rw [mem_subst_iff hx.2]
      simp only [upd, r2]
      have h2 := hm y
      have h3 := hm o
      have h4 := hm x
      grind
    · simp only [r3]; rw [ht]; rfl
    · simp only [r1]; exact hn
  · rw [if_neg hx, if_pos (by
      by_cases ho : o ∈ u.items
      · right
        by_cases hxx : x ∈ u.items
        · exact (h.mem x).2 hxx
        · exact absurd ⟨ho, hxx⟩ hx
      · left; rw [inMM_false h ho]; decide)]
    exact ⟨rfl, h⟩

theorem setConfig_yes {s : State N} {c : Config} {now : Nat} (h : s.tracking = decide (0 < c.tailSize)) :
    setConfig s c now = ({ s with
      config := c, refreshTime := c.refresh, nextReconf := if c.interval = 0 then 2 ^ 32 - 1 else (now + c.interval) % 2 ^ 32 }, true) := by
  unfold setConfig
  by_cases h2 : 0 < c.tailSize
  · rw [if_neg (by simp [h, h2]), if_neg (by omega)]
  · rw [if_neg (by omega), if_neg (by simp [h]; omega)]

theorem setConfig_no {s : State N} {c : Config} {now : Nat} (h : s.tracking ≠ decide (0 < c.tailSize)) :
    setConfig s c now = (s, false) := by
  unfold setConfig
  by_cases h2 : 0 < c.tailSize
  · have : s.tracking = false := by simpa [h2] using h
    rw [if_pos (by simp [this, h2])]
  · have : s.tracking = true := by
      cases e : s.tracking with
      | true => rfl
      | false => rw [e] at h; simp at h; omega
    rw [if_neg (by simp [this]), if_pos ⟨this, by omega⟩]

theorem setConfig_link {s : State N} {u : Q2 N} (h : Link s u) (c : Config) (now : Nat) (hl : c.hotPct + c.coldPct ≤ 100) :
    (setConfig s c now).2 = (u.step (.setConfig c now)).2 ∧ Link (setConfig s c now).1 (u.step (.setConfig c now)).1 := by
  simp only [Q2.step]
  have htr := h.tracking
  by_cases h1 : (0 < u.cfg.tailSize ↔ 0 < c.tailSize)
  · have h2 : s.tracking = decide (0 < c.tailSize) := by rw [htr]; simp [h1]
    rw [if_pos h1, setConfig_yes h2]
    obtain ⟨⟨seq, hq, hs⟩, hm, ht, hn, hc, htr, hp⟩ := h
    exact ⟨rfl, ⟨seq, hq.congr rfl ⟨rfl, rfl, rfl⟩ (by simp only [hc]; omega), ⟨hs.hot, hs.warm, hs.cold, hs.kw, hs.kc⟩⟩, hm, ht, hn,
      rfl, h2, hl⟩
  · have h2 : s.tracking ≠ decide (0 < c.tailSize) := by
      rw [htr]
      intro e
      exact h1 (by simpa using e)
    rw [if_neg h1, setConfig_no h2]
    exact ⟨rfl, h⟩

theorem construct_link {s : State N} {u : Q2 N} (h : Link s u) (x : N) (hl : x ∉ u.items) :
    Link (construct s x) (u.step (.construct x)).1 := by
  have hi := inMM_false h hl
  obtain ⟨⟨seq, hq, hs⟩, hm, ht, hn, hc, htr, hp⟩ := h
  have hnot : ∀ p, x ∉ seq p := fun p hp => hl ((hs.mem hq x).2 ⟨p, hp⟩)
  simp only [Q2.step]
  refine ⟨⟨seq, ⟨hq.rep, hq.num, hq.none, ?_, hq.zero, ?_⟩, ⟨hs.hot, hs.warm, hs.cold, hs.kw, hs.kc⟩⟩, ?_, ht, hn, hc, htr, hp⟩
  · intro q y hy
    have hf := hq.flags q y hy
    have hne : y ≠ x := fun e => hnot q (e ▸ hy)
    exact ⟨(upd_ne _ _ hne).trans hf.hot, (upd_ne _ _ hne).trans hf.cold, (upd_ne _ _ hne).trans hf.tail⟩
  · intro y hy
    by_cases e : y = x
    · subst e; exact ⟨hnot, by simp [construct], by simp [construct], by simp [construct]⟩
    · simp only [e, if_false] at hy
      obtain ⟨c1, c2, c3, c4⟩ := hq.clear y hy
      exact ⟨c1, (upd_ne _ _ e).trans c2, (upd_ne _ _ e).trans c3, (upd_ne _ _ e).trans c4⟩
  · intro y
    simp only [construct, upd]
    by_cases e : y = x
    · subst e
      rw [if_pos rfl]
      have := hm y
      rw [hi] at this
      exact this
    · rw [if_neg e]; exact hm y

theorem shape_push {seq : Nat → List N} {u v : Q2 N} (h : Shape seq u) {x : N} (h1 : v.hot = u.hot)
    (h2 : v.warm = x :: u.warm) (h3 : v.cold = u.cold) (h4 : v.kw = u.kw) (h5 : v.kc = u.kc) :
    Shape (upd seq 0 (x :: seq 0)) v :=
  ⟨by simp [h1, h.hot, upd], by simp [h2, h.warm, upd], by simp [h3, h.cold, upd], by simp [h4, h.kw, upd],
    by simp [h5, h.kc, upd]⟩

theorem mem_push {u v : Q2 N} {x : N} (hx : x ∈ u.items) (h1 : v.hot = (u.without x).hot)
    (h2 : v.warm = x :: (u.without x).warm) (h3 : v.cold = (u.without x).cold) (y : N) :
    y ∈ u.items ↔ y ∈ v.items := by
  have := mem_without (u := u) (x := x) (y := y)
  simp only [Q2.items, h1, h2, h3, List.mem_append, List.mem_cons] at this hx ⊢
  grind

/-- the warm list after a promotion into it. -/
theorem front_eq {P : N → Prop} {s : State N} {seq : Nat → List N} (h : QInv P s seq) {x : N} (hx : x ∈ seq 0) :
    upd seq 0 (x :: (seq 0).filter (fun y => y ≠ x)) =
      upd (fun p => (seq p).filter (fun y => y ≠ x)) 0 (x :: (seq 0).filter (fun y => y ≠ x)) := by
  funext p
  by_cases e : p = 0
  · subst e; simp
  · rw [upd_ne _ _ e, upd_ne _ _ e, filter_not_mem]
    exact fun h' => e (h.uniq h' hx)

/-- taking an item out of its list and putting it at the front of warm. -/
theorem toWarm_inv {P : N → Prop} {s s' : State N} {seq : Nat → List N} (h : QInv P s seq) {q : Nat} {x : N}
    (hx : x ∈ seq q) (hm : s'.m = onList (onList s.m q (.remove x)) 0 (.linkAtHead x)) (hf : Flags s' 0 x)
    (ho : Others s s' x) (hc : s'.config = s.config) :
    QInv P s' (upd (fun p => (seq p).filter (fun y => y ≠ x)) 0 (x :: (seq 0).filter (fun y => y ≠ x))) := by
  have h1 := drop_inv (s' := s.on q (.remove x)) h hx rfl (fun y hy => ⟨rfl, rfl, rfl⟩) rfl
  exact link_inv (s' := s') h1 (Or.inl rfl) (by simp) (fun hP => (h.clear x hP).1 q hx) hm hf ho hc

theorem promote_link {s : State N} {u : Q2 N} (h : Link s u) (x : N) (now : Nat) :
    ∃ s', promote s x now = some (s', (u.step (.promote x now)).2) ∧ Link s' (u.step (.promote x now)).1 := by
  unfold promote
  have h0 := reconfigure_link h now
  generalize reconfigure s now = s at h0 ⊢
  clear h
  have h := h0
  simp only [Q2.step]
  by_cases hx : x ∈ u.items
  · rw [if_neg (by simp [(h.mem x).2 hx])]
    obtain ⟨⟨seq, hq, hs⟩, hm, ht, hn, hc, htr, hp⟩ := h
    obtain ⟨q, hxq⟩ := (hs.mem hq x).1 hx
    have hf := hq.flags q x hxq
    have hin := inTail_eq hq hxq
    have hlt := hq.lt hxq
    have isq : ∀ p, x ∈ seq p ↔ q = p := fun p => ⟨fun hp => hq.uniq hxq hp, fun e => e ▸ hxq⟩
    have hwf := without_shape hq hs x
    have mh : x ∈ u.hot ↔ q = 2 := by rw [hs.hot]; exact isq 2
    have mw : x ∈ u.warm ↔ q = 0 ∨ q = 1 := by rw [hs.warm, List.mem_append, isq, isq]
    have mc : x ∈ u.cold ↔ q = 3 ∨ q = 4 := by rw [hs.cold, List.mem_append, isq, isq]
    have mwt : x ∈ u.wtail ↔ q = 1 := by rw [hs.wtail]; exact isq 1
    have mct : x ∈ u.ctail ↔ q = 4 := by rw [hs.ctail]; exact isq 4
    have coldCase : (q = 3 ∨ q = 4) → ∃ s',
        Option.map (fun s => (({ s with time := upd s.time x now } : State N), true)) (accessCold s x) = some (s', true) ∧
        Link s'
          { (if u.cfg.rebalanceOnRecordAccess then Q2.rebalance { u.without x with
                warm := x :: u.warm, nCold := u.nCold + 1, nColdTail := if x ∈ u.ctail then u.nColdTail + 1 else u.nColdTail }
             else { u.without x with
                warm := x :: u.warm, nCold := u.nCold + 1, nColdTail := if x ∈ u.ctail then u.nColdTail + 1 else u.nColdTail }) with
            time := fun y => if y = x then now else u.time y } := by
      intro hq34
      have hhot : s.hot x = false := by rw [hf.hot]; rcases hq34 with rfl | rfl <;> rfl
      have htk : (takeCold s x).m = onList s.m q (.remove x) ∧ (takeCold s x).hot = s.hot ∧ (takeCold s x).cold = s.cold ∧
          (takeCold s x).tail x = false ∧ (∀ y, y ≠ x → (takeCold s x).tail y = s.tail y) ∧
          (takeCold s x).numColdTail = (if x ∈ u.ctail then u.nColdTail + 1 else u.nColdTail) ∧
          (takeCold s x).config = s.config ∧ (takeCold s x).inMM = s.inMM ∧ (takeCold s x).time = s.time ∧
          (takeCold s x).numHot = s.numHot ∧ (takeCold s x).numCold = s.numCold ∧ (takeCold s x).numWarm = s.numWarm ∧
          (takeCold s x).numWarmTail = s.numWarmTail ∧ (takeCold s x).tracking = s.tracking := by
        unfold takeCold
        rcases hq34 with rfl | rfl
        · rw [if_neg (by rw [hin]; decide)]
          exact ⟨rfl, rfl, rfl, hf.tail, fun _ _ => rfl, by rw [if_neg (by simp [mct])]; exact hn.2.2.2.2, rfl, rfl, rfl, rfl, rfl, rfl, rfl, rfl⟩
        · rw [if_pos (by rw [hin]; decide)]
          exact ⟨rfl, rfl, rfl, by simp [State.on], fun y hy => upd_ne _ _ hy, by rw [if_pos (mct.2 rfl), ← hn.2.2.2.2], rfl, rfl, rfl, rfl, rfl, rfl, rfl, rfl⟩
      unfold accessCold
      generalize takeCold s x = t at htk ⊢
      obtain ⟨t1, t2, t3, t4, t5, t6, t7, t8, t9, t10, t11, t12, t13, t14⟩ := htk
      have hinv := toWarm_inv (s' := { t.on 0 (.linkAtHead x) with cold := upd t.cold x false, numCold := t.numCold + 1 })
        hq hxq (by simp only [State.on]; rw [t1])
        ⟨by simp only [State.on]; rw [t2, hhot]; rfl, by simp, by simp only [State.on]; rw [t4]; rfl⟩
        (fun y hy => ⟨by simp only [State.on]; rw [t2], by simp only [State.on]; rw [upd_ne _ _ hy, t3], by simp only [State.on]; exact t5 y hy⟩)
        t7
      have hwn : x ∉ u.warm := by rw [mw]; omega
      have hsh := shape_push (v := { u.without x with
                warm := x :: u.warm, nCold := u.nCold + 1, nColdTail := if x ∈ u.ctail then u.nColdTail + 1 else u.nColdTail })
        hwf (x := x) rfl (by simp only [Q2.without]; rw [filter_not_mem hwn]) rfl rfl rfl
      have hmem := mem_push (v := { u.without x with
                warm := x :: u.warm, nCold := u.nCold + 1, nColdTail := if x ∈ u.ctail then u.nColdTail + 1 else u.nColdTail })
        hx rfl (by simp only [Q2.without]; rw [filter_not_mem hwn]) rfl
      have hrb : (t.on 0 (.linkAtHead x)).config.rebalanceOnRecordAccess = u.cfg.rebalanceOnRecordAccess := by
        simp only [State.on]; rw [t7, hc]
      simp only [hrb]
      by_cases hreb : u.cfg.rebalanceOnRecordAccess = true
      · rw [if_pos hreb, if_pos hreb]
        obtain ⟨s2, seq2, g1, g2, g3, g4⟩ := rebalance_link hinv hsh (by simp only [State.on]; exact t7.trans hc) hp
        obtain ⟨e1, e2, e3, e4⟩ := rest_counts g4
        simp only [State.on] at e1 e2 e3 e4 g4
        refine ⟨{ s2 with time := upd s2.time x now }, (congrArg (Option.map fun s => (({ s with time := upd s.time x now } : State N), true)) g1).trans rfl, ⟨seq2, g2.congr rfl ⟨rfl, rfl, rfl⟩ id, ⟨g3.hot, g3.warm, g3.cold, g3.kw, g3.kc⟩⟩, ?_, ?_, ?_, ?_, ?_, hp⟩
        · intro y
          simp only
          rw [e2, t8, hm y, hmem y]
          exact (items_rebalance_mem (u := { u.without x with
                warm := x :: u.warm, nCold := u.nCold + 1, nColdTail := if x ∈ u.ctail then u.nColdTail + 1 else u.nColdTail }) y).symm
        · simp only [e3, t9]; rw [ht]; rfl
        · simp only [e1, t10, t11, t12, t13, t6]
          exact ⟨hn.1, by rw [hn.2.1]; rfl, hn.2.2.1, hn.2.2.2.1, rfl⟩
        · exact (rest_config g4).trans (t7.trans hc)
        · exact e4.trans (t14.trans htr)
      · rw [if_neg hreb, if_neg hreb]
        refine ⟨_, rfl, ⟨_, hinv.congr rfl ⟨rfl, rfl, rfl⟩ id, ⟨hsh.hot, hsh.warm, hsh.cold, hsh.kw, hsh.kc⟩⟩, ?_, ?_, ?_, ?_, ?_, hp⟩
        · intro y
          simp only [State.on]
          rw [t8, hm y]; exact hmem y
        · simp only [State.on, t9]; rw [ht]; rfl
        · simp only [State.on, t10, t11, t12, t13, t6]
          exact ⟨hn.1, by rw [hn.2.1], hn.2.2.1, hn.2.2.2.1, trivial⟩
        · exact t7.trans hc
        · exact t14.trans htr
    have hq5 : q = 2 ∨ q = 0 ∨ q = 1 ∨ q = 3 ∨ q = 4 := by omega
    rcases hq5 with rfl | rfl | rfl | rfl | rfl
    · rw [if_pos (by rw [hf.hot]; rfl), if_pos (mh.2 rfl)]
      simp only [accessHot, Option.map_some]
      refine ⟨_, rfl, ⟨_, front_inv (s := s) hq hxq rfl ⟨rfl, rfl, rfl⟩ rfl, ?_⟩, ?_, ?_, ?_, hc, htr, hp⟩
      · exact ⟨by simp [hs.hot], by simp [hs.warm, upd], by simp [hs.cold, upd], by simp [hs.kw, upd], by simp [hs.kc, upd]⟩
      · intro y
        refine (hm y).trans ?_
        simp only [Q2.items, List.mem_append, List.mem_cons, List.mem_filter, decide_eq_true_eq]
        have := mh.2 rfl
        grind
      · simp only [State.on]; rw [ht]; rfl
      · simp only [State.on]; rw [hn.1]; exact ⟨rfl, hn.2⟩
    · rw [if_neg (by rw [hf.hot]; decide), if_neg (by rw [hf.cold]; decide), if_neg (by rw [mh]; decide), if_neg (by rw [mc]; decide),
        if_pos (mw.2 (by decide))]
      unfold accessWarm
      rw [if_neg (by rw [hin]; decide)]
      have hinv := front_inv (s := s) (s' := { s.on 0 (.moveToHead x) with numWarm := s.numWarm + 1, time := upd s.time x now }) hq hxq rfl ⟨rfl, rfl, rfl⟩ rfl
      rw [front_eq hq hxq] at hinv
      refine ⟨_, rfl, ⟨_, hinv, shape_push hwf rfl rfl rfl rfl rfl⟩, ?_, ?_, ?_, hc, htr, hp⟩
      · intro y
        refine (hm y).trans ?_
        simp only
        refine mem_push hx ?_ ?_ ?_ y <;> rfl
      · simp only [State.on]; rw [ht]; rfl
      · simp only [State.on, Q2.without]
        rw [if_neg (by rw [mwt]; decide)]
        exact ⟨hn.1, hn.2.1, by rw [hn.2.2.1], hn.2.2.2.1, hn.2.2.2.2⟩
    · rw [if_neg (by rw [hf.hot]; decide), if_neg (by rw [hf.cold]; decide), if_neg (by rw [mh]; decide), if_neg (by rw [mc]; decide),
        if_pos (mw.2 (by decide))]
      unfold accessWarm
      rw [if_pos (by rw [hin]; decide)]
      have hinv := toWarm_inv (s := s) (s' := { ({ s with tail := upd s.tail x false }.on 1 (.remove x)).on 0 (.linkAtHead x) with
          numWarmTail := s.numWarmTail + 1, numWarm := s.numWarm + 1, time := upd s.time x now }) hq hxq rfl
        ⟨hf.hot, hf.cold, by simp [State.on]⟩ (fun y hy => ⟨rfl, rfl, upd_ne _ _ hy⟩) rfl
      refine ⟨_, rfl, ⟨_, hinv, shape_push hwf rfl rfl rfl rfl rfl⟩, ?_, ?_, ?_, hc, htr, hp⟩
      · intro y
        refine (hm y).trans ?_
        simp only
        refine mem_push hx ?_ ?_ ?_ y <;> rfl
      · simp only [State.on]; rw [ht]; rfl
      · simp only [State.on, Q2.without]
        rw [if_pos (mwt.2 rfl)]
        exact ⟨hn.1, hn.2.1, by rw [hn.2.2.1], by rw [hn.2.2.2.1], hn.2.2.2.2⟩
    · rw [if_neg (by rw [hf.hot]; decide), if_pos (by rw [hf.cold]; decide), if_neg (by rw [mh]; decide), if_pos (mc.2 (by decide))]
      exact coldCase (Or.inl rfl)
    · rw [if_neg (by rw [hf.hot]; decide), if_pos (by rw [hf.cold]; decide), if_neg (by rw [mh]; decide), if_pos (mc.2 (by decide))]
      exact coldCase (Or.inr rfl)
  · rw [if_pos (by simp [inMM_false h hx])]
    have : x ∉ u.hot ∧ x ∉ u.cold ∧ x ∉ u.warm := by
      simp only [Q2.items, List.mem_append, not_or] at hx
      exact ⟨hx.1.1, hx.2, hx.1.2⟩
    rw [if_neg this.1, if_neg this.2.1, if_neg this.2.2]
    exact ⟨s, rfl, h⟩

theorem link_step {s : State N} {u : Q2 N} (h : Link s u) (o : Op N) (hl : u.Legal o) :
    ∃ s', step s o = some (s', (u.step o).2) ∧ Link s' (u.step o).1 := by
  cases o with
  | add x now => exact add_link h x now
  | remove x => exact remove_link h x
  | evict x =>
    obtain ⟨s', h1, h2⟩ := evict_link h hl
    exact ⟨s', by simp only [step, h1, Option.map_some, Q2.step], h2⟩
  | replace o x =>
    obtain ⟨h1, h2⟩ := replace_link h o x hl
    exact ⟨_, by simp only [step]; rw [← h1], h2⟩
  | promote x now => exact promote_link h x now
  | setConfig c now =>
    obtain ⟨h1, h2⟩ := setConfig_link h c now hl
    exact ⟨_, by simp only [step]; rw [← h1], h2⟩
  | construct x => exact ⟨_, rfl, construct_link h x hl⟩

theorem link_run {s : State N} {u : Q2 N} (h : Link s u) (ops : List (Op N)) (hl : u.LegalRun ops) :
    ∃ s', run s ops = some (s', (u.run ops).2) ∧ Link s' (u.run ops).1 := by
  induction ops generalizing s u with
  | nil => exact ⟨s, rfl, h⟩
  | cons o os ih =>
    obtain ⟨s1, h1, h2⟩ := link_step h o hl.1
    obtain ⟨s2, h3, h4⟩ := ih h2 hl.2
    refine ⟨s2, ?_, h4⟩
    simp only [run, h1, Option.bind_some, h3, Option.map_some, Q2.run]

/-- the new container. -/
def Q2.new (c : Config) : Q2 N := ⟨[], [], [], 0, 0, c, fun _ => 0, fun _ => true, 0, 0, 0, 0, 0⟩

theorem link_new (c : Config) (now : Nat) (hooks : DList.Hooks N) (hc : c.hotPct + c.coldPct ≤ 100) :
    Link (new c now hooks) (Q2.new c) := by
  refine ⟨⟨fun _ => [], ⟨mrep_new _ _, rfl, fun _ _ => rfl, fun _ _ h => (by cases h), fun _ => ⟨rfl, rfl⟩, ?_⟩, ⟨rfl, rfl, rfl, rfl, rfl⟩⟩,
    ?_, rfl, ⟨rfl, rfl, rfl, rfl, rfl⟩, rfl, rfl, hc⟩
  · intro x _; exact ⟨by simp, rfl, rfl, rfl⟩
  · intro x; simp [new, Q2.new, Q2.items]

/-- C10: whatever the history of operations and configurations, the code never dereferences null and its loops end,
its answers are those of the specification, and all that can be observed agrees with it: each item is in exactly one
queue, the one reported for it; sizes add up; eviction candidates come from cold first. -/
theorem two_q_refines (c : Config) (now : Nat) (hooks : DList.Hooks N) (hc : c.hotPct + c.coldPct ≤ 100) (ops : List (Op N))
    (hl : (Q2.new c : Q2 N).LegalRun ops) :
    ∃ s, run (new c now hooks) ops = some (s, ((Q2.new c).run ops).2) ∧ View s ((Q2.new c).run ops).1 := by
  obtain ⟨s, h1, h2⟩ := link_run (link_new c now hooks hc) ops hl
  exact ⟨s, h1, h2.view⟩

end Verif.MM2Q
