import Verif.Trackers.DropSetLemmas
import Mathlib.Data.List.Nodup
import Mathlib.Data.List.Induction
import Mathlib.Data.List.Perm.Subperm
/-!
C44, first part: the approximate set of the keys seen lately (ApproxSplitSet).

* no history of `insert` and `reset` reaches an access outside a table;
* the number of keys tracked is at most numSplits * max 1 (numEntries / numSplits);
* `insert` answers true only if the low 32 bits of the key are 0 or equal those of a key inserted since the last reset;
* for keys whose low 32 bits are not 0, numKeysTracked is exactly the number of keys for which insert answers true, an insertion
  never makes another key be reported, and when numKeysTracked grows by one no key is forgotten and the new one is tracked.
-/
namespace Verif.Trackers
open Verif

namespace Spec

/-- the calls of a user -/
inductive Op
  | insert (now key : Nat)
  | reset (now : Nat)

/-- the keys inserted since the last reset -/
def seen : List Op → List Nat
  | [] => []
  | ops => ops.foldl (fun l o => match o with | .insert _ k => k :: l | .reset _ => []) []

/-- a call of the user; none is an access outside a table -/
def step (s : SSet) : Op → Option SSet
  | .insert now key => (s.insert now key).map Prod.fst
  | .reset now => some (s.reset now)

/-- a history -/
def run (s : SSet) : List Op → Option SSet
  | [] => some s
  | o :: l => (step s o).bind fun s => run s l

/-- insert would answer true -/
def Tracked (s : SSet) (k : Nat) : Prop := ∀ now, (s.insert now k).map Prod.snd = some true

/-- the low 32 bits of all keys inserted are not 0 -/
def NonZero (ops : List Op) : Prop := ∀ o ∈ ops, ∀ now key, o = .insert now key → key % 2 ^ 32 ≠ 0

end Spec
open Spec

/-- what holds of every reachable state -/
structure SI (numSplits m : Nat) (s : SSet) : Prop where
  ns : s.numSplits = numSplits
  mx : s.maxSplitSize = m
  pos : 0 < numSplits
  ne : s.splits ≠ []
  len : s.splits.length ≤ numSplits
  safe : ∀ d ∈ s.splits, Safe kProbeLimit d ∧ cnt d.table (d.cap + kProbeLimit) ≤ d.size ∧ d.size ≤ max 1 m

/-- what holds if the low 32 bits of the keys are not 0 -/
structure NI (s : SSet) : Prop where
  rh : ∀ d ∈ s.splits, RH kProbeLimit d
  disj : s.splits.Pairwise fun a b => ∀ k, Mem a k → ¬ Mem b k

theorem W_eq : W = 2 ^ 32 := rfl

theorem mod_lt (k : Nat) : k % W < W := Nat.mod_lt _ (by unfold W; omega)

theorem lookupLocked_safe (k : Nat) : ∀ l : List DSet, (∀ d ∈ l, Safe kProbeLimit d) →
    ∃ b, lookupLocked k l = some b ∧ (b = true → k % W = 0 ∨ ∃ d ∈ l, Mem d (k % W))
  | [], _ => ⟨false, rfl, by simp⟩
  | d :: l, h => by
    obtain ⟨b, h1, h2⟩ := lookup_safe (h d (by simp)) (mod_lt k)
    obtain ⟨b', g1, g2⟩ := lookupLocked_safe k l (fun d hd => h d (by simp [hd]))
    unfold lookupLocked
    rw [h1]
    cases b with
    | true =>
      refine ⟨true, rfl, fun _ => ?_⟩
      rcases h2 rfl with h | h
      · exact .inl h
      · exact .inr ⟨d, by simp, h⟩
    | false =>
      refine ⟨b', g1, fun hb => ?_⟩
      rcases g2 hb with h | ⟨x, hx, h⟩
      · exact .inl h
      · exact .inr ⟨x, by simp [hx], h⟩

theorem lookupLocked_iff (k : Nat) (h0 : k % W ≠ 0) : ∀ l : List DSet, (∀ d ∈ l, RH kProbeLimit d) →
    (lookupLocked k l = some true ↔ ∃ d ∈ l, Mem d (k % W))
  | [], _ => by simp [lookupLocked]
  | d :: l, h => by
    have ih := lookupLocked_iff k h0 l (fun d hd => h d (by simp [hd]))
    have hd := lookup_iff (h d (by simp)) h0 (mod_lt k)
    obtain ⟨b, h1, h2⟩ := lookup_safe (h d (by simp)).toSafe (mod_lt k)
    unfold lookupLocked
    rw [h1] at hd ⊢
    cases b with
    | true => simp only [List.mem_cons, true_iff]; exact ⟨d, .inl rfl, hd.mp rfl⟩
    | false =>
      dsimp only
      rw [ih]
      have : ¬ Mem d (k % W) := fun h => by simpa using hd.mpr h
      grind

/-- the state into whose last split a new key goes -/
def pick (s : SSet) (b : DSet) (now : Nat) : SSet := if s.maxSplitSize ≤ b.size then addNewSplit s now else s

theorem insert_eq (s : SSet) (now k : Nat) : s.insert now k =
    match lookupLocked k s.splits with
    | none => none
    | some true => some (s, true)
    | some false =>
      match s.splits.getLast? with
      | none => none
      | some b =>
        match (pick s b now).splits.getLast? with
        | none => none
        | some b' =>
          match b'.insert kProbeLimit now (k % W) with
          | none => none
          | some b'' => some ({ pick s b now with splits := (pick s b now).splits.dropLast ++ [b''] }, false) := rfl

/-- the splits after addNewSplit: a new empty one at the end, and either all or all but the first of the old ones -/
theorem addNewSplit_cases {ns m : Nat} {s : SSet} (h : SI ns m s) (now : Nat) :
    ∃ l e, addNewSplit s now = { s with splits := l ++ [e] } ∧ (l = s.splits ∨ (l = s.splits.tail ∧ s.splits.length = ns)) ∧ l.length + 1 ≤ ns ∧
      RH kProbeLimit e ∧ e.size = 0 ∧ (∀ k, ¬ Mem e k) ∧ (e.cap = 4 ∨ ∃ d ∈ s.splits, e.cap = d.cap) := by
  unfold addNewSplit
  split
  · rename_i hl
    refine ⟨s.splits, _, rfl, .inl rfl, by rw [← h.ns]; exact hl, new_rh _ _ now (by decide), rfl, new_mem _ _, .inl rfl⟩
  · rename_i hl
    cases hs : s.splits with
    | nil => exact absurd hs h.ne
    | cons f l =>
      have := h.len
      rw [hs] at this
      refine ⟨l, f.reset now, rfl, .inr ⟨rfl, by rw [hs] at hl; have := h.ns; omega⟩, by simpa using this, reset_rh (h.safe f (by simp [hs])).1.cap now, rfl, reset_mem _ _, .inr ⟨f, by simp, rfl⟩⟩

theorem rh_bounds {d : DSet} (h : RH kProbeLimit d) : cnt d.table (d.cap + kProbeLimit) ≤ d.size := Nat.le_of_eq h.size.symm

/-- what insert does when it answers false -/
theorem insert_false {ns m : Nat} {s : SSet} (h : SI ns m s) (now k : Nat) :
    (s.insert now k = some (s, true) ∧ lookupLocked k s.splits = some true) ∨
    (lookupLocked k s.splits = some false ∧ ∃ l e e', s.insert now k = some ({ s with splits := l ++ [e'] }, false) ∧
      (l ++ [e] = s.splits ∨ ((l = s.splits ∨ (l = s.splits.tail ∧ s.splits.length = ns)) ∧ RH kProbeLimit e ∧ e.size = 0 ∧ (∀ k, ¬ Mem e k) ∧ (∀ d, s.splits.getLast? = some d → m ≤ d.size) ∧ (e.cap = 4 ∨ ∃ d ∈ s.splits, e.cap = d.cap))) ∧
      l.length + 1 ≤ ns ∧ e.insert kProbeLimit now (k % W) = some e' ∧ (e.size < m ∨ e.size = 0) ∧
      Safe kProbeLimit e ∧ cnt e.table (e.cap + kProbeLimit) ≤ e.size) := by
  obtain ⟨b, h1, h2⟩ := lookupLocked_safe k s.splits (fun d hd => (h.safe d hd).1)
  rw [insert_eq, h1]
  cases b with
  | true => exact .inl ⟨rfl, rfl⟩
  | false =>
    right
    refine ⟨rfl, ?_⟩
    dsimp only
    obtain ⟨l0, e0, hle⟩ : ∃ l e, s.splits = l ++ [e] := ⟨s.splits.dropLast, s.splits.getLast h.ne, (List.dropLast_concat_getLast h.ne).symm⟩
    have hlast : s.splits.getLast? = some e0 := by rw [hle, List.getLast?_concat]
    rw [hlast]
    dsimp only
    by_cases hm : s.maxSplitSize ≤ e0.size
    · rw [show pick s e0 now = addNewSplit s now from if_pos hm]
      obtain ⟨l, e, g1, g2, g3, g4, g5, g6, g7⟩ := addNewSplit_cases h now
      rw [g1]
      dsimp only
      rw [List.getLast?_concat]
      dsimp only
      obtain ⟨e', i1, -⟩ := insert_safe g4.toSafe (rh_bounds g4) (mod_lt k) now
      rw [i1]
      refine ⟨l, e, e', ?_, .inr ⟨g2, g4, g5, g6, ?_, g7⟩, g3, i1, .inr g5, g4.toSafe, rh_bounds g4⟩
      · simp
      · intro d hd
        simp only [Option.some.injEq] at hd
        rw [← hd, ← h.mx]
        exact hm
    · rw [show pick s e0 now = s from if_neg hm]
      rw [hlast]
      dsimp only
      have hs := h.safe e0 (by simp [hle])
      obtain ⟨e', i1, -⟩ := insert_safe hs.1 hs.2.1 (mod_lt k) now
      rw [i1]
      refine ⟨l0, e0, e', by simp [hle], .inl hle.symm, ?_, i1, .inl (by rw [← h.mx]; omega), hs.1, hs.2.1⟩
      have := h.len
      rw [hle] at this
      simpa using this

theorem mem_old {NS M : Nat} {s : SSet} {l : List DSet} {e : DSet} (h : l ++ [e] = s.splits ∨ ((l = s.splits ∨ (l = s.splits.tail ∧ s.splits.length = NS)) ∧ RH kProbeLimit e ∧ e.size = 0 ∧ (∀ k, ¬ Mem e k) ∧ (∀ d, s.splits.getLast? = some d → M ≤ d.size) ∧ (e.cap = 4 ∨ ∃ d ∈ s.splits, e.cap = d.cap))) :
    ∀ d ∈ l, d ∈ s.splits := by
  intro d hd
  rcases h with h | ⟨rfl | ⟨rfl, -⟩, -⟩
  · rw [← h]; simp [hd]
  · exact hd
  · exact List.mem_of_mem_tail hd

/-- insert keeps the invariant, and only adds the key -/
theorem insert_si {ns m : Nat} {s : SSet} (h : SI ns m s) (now k : Nat) :
    ∃ s' b, s.insert now k = some (s', b) ∧ SI ns m s' ∧ (∀ x, (∃ d ∈ s'.splits, Mem d x) → (∃ d ∈ s.splits, Mem d x) ∨ x = k % W) := by
  rcases insert_false h now k with ⟨h1, -⟩ | ⟨-, l, e, e', h1, h2, h3, h4, h5, h6, h7⟩
  · exact ⟨s, true, h1, h, fun x hx => .inl hx⟩
  · obtain ⟨e2, i1, i2, i3, i4, i5⟩ := insert_safe h6 h7 (mod_lt k) now
    rw [h4] at i1
    simp only [Option.some.injEq] at i1
    subst i1
    have hold := mem_old h2
    refine ⟨_, false, h1, ⟨h.ns, h.mx, h.pos, by simp, by simpa using h3, ?_⟩, ?_⟩
    · intro d hd
      simp only [List.mem_append, List.mem_singleton] at hd
      rcases hd with hd | rfl
      · exact h.safe d (hold d hd)
      · exact ⟨i2, i3, by omega⟩
    · rintro x ⟨d, hd, hx⟩
      simp only [List.mem_append, List.mem_singleton] at hd
      rcases hd with hd | rfl
      · exact .inl ⟨d, hold d hd, hx⟩
      · rcases i5 x hx with hx | rfl
        · rcases h2 with h2 | ⟨-, -, -, h2, -⟩
          · exact .inl ⟨e, by rw [← h2]; simp, hx⟩
          · exact absurd hx (h2 x)
        · exact .inr rfl

theorem reset_si {ns m : Nat} {s : SSet} (h : SI ns m s) (now : Nat) : SI ns m (s.reset now) ∧ NI (s.reset now) ∧ ∀ x, ¬ ∃ d ∈ (s.reset now).splits, Mem d x := by
  have hns := h.ns
  have hpos := h.pos
  have e : s.reset now = { s with splits := [DSet.new kInitialCapacity now] } := by
    unfold SSet.reset addNewSplit
    rw [if_pos (by simp; omega)]
    rfl
  have hr := new_rh kProbeLimit kInitialCapacity now (by decide)
  rw [e]
  refine ⟨⟨h.ns, h.mx, hpos, by simp, hpos, ?_⟩, ⟨by simpa using hr, by simp⟩, ?_⟩
  · intro d hd
    simp only [List.mem_singleton] at hd
    subst hd
    exact ⟨hr.toSafe, rh_bounds hr, Nat.zero_le _⟩
  · rintro x ⟨d, hd, hx⟩
    simp only [List.mem_singleton] at hd
    subst hd
    exact new_mem _ _ _ hx

theorem new_si {n ns now : Nat} {s : SSet} (h : SSet.new n ns now = some s) :
    SI ns (n / ns % W) s ∧ NI s ∧ ∀ x, ¬ ∃ d ∈ s.splits, Mem d x := by
  unfold SSet.new at h
  split at h
  · exact absurd h (by simp)
  · split at h
    · exact absurd h (by simp)
    · rename_i h0 _
      simp only [Option.some.injEq] at h
      subst h
      have hr := new_rh kProbeLimit kInitialCapacity now (by decide)
      have e : addNewSplit { numSplits := ns, maxSplitSize := n / ns % W, splits := [] } now =
          { numSplits := ns, maxSplitSize := n / ns % W, splits := [DSet.new kInitialCapacity now] } := by
        unfold addNewSplit
        rw [if_pos (by simpa using Nat.pos_of_ne_zero h0)]
        rfl
      rw [e]
      refine ⟨⟨rfl, rfl, Nat.pos_of_ne_zero h0, by simp, Nat.pos_of_ne_zero h0, ?_⟩, ⟨by simpa using hr, by simp⟩, ?_⟩
      · intro d hd
        simp only [List.mem_singleton] at hd
        subst hd
        exact ⟨hr.toSafe, rh_bounds hr, Nat.zero_le _⟩
      · rintro x ⟨d, hd, hx⟩
        simp only [List.mem_singleton] at hd
        subst hd
        exact new_mem _ _ _ hx

/-- the keys seen, one more call -/
theorem seen_append (ops : List Op) (o : Op) : seen (ops ++ [o]) = match o with | .insert _ k => k :: seen ops | .reset _ => [] := by
  cases ops with
  | nil => cases o <;> rfl
  | cons a l =>
    simp only [seen, List.cons_append]
    rw [← List.cons_append, List.foldl_append]
    rfl

theorem run_append (s : SSet) (a b : List Op) : run s (a ++ b) = (run s a).bind fun s => run s b := by
  induction a generalizing s with
  | nil => rfl
  | cons o l ih =>
    simp only [List.cons_append, run]
    cases step s o with
    | none => rfl
    | some s' => exact ih s'

theorem run_si {n ns now : Nat} {s0 : SSet} (h0 : SSet.new n ns now = some s0) (ops : List Op) :
    ∃ s, run s0 ops = some s ∧ SI ns (n / ns % W) s ∧ ∀ x, (∃ d ∈ s.splits, Mem d x) → ∃ k ∈ seen ops, k % W = x := by
  induction ops using List.reverseRecOn with
  | nil => exact ⟨s0, rfl, (new_si h0).1, fun x hx => absurd hx ((new_si h0).2.2 x)⟩
  | append_singleton l o ih =>
    obtain ⟨s, h1, h2, h3⟩ := ih
    rw [run_append, h1, seen_append]
    cases o with
    | insert t k =>
      obtain ⟨s', b, i1, i2, i3⟩ := insert_si h2 t k
      refine ⟨s', by simp [run, step, i1], i2, ?_⟩
      intro x hx
      rcases i3 x hx with hx | rfl
      · obtain ⟨k', a, b⟩ := h3 x hx
        exact ⟨k', by simp [a], b⟩
      · exact ⟨k, by simp, rfl⟩
    | reset t =>
      exact ⟨s.reset t, by simp [run, step], (reset_si h2 t).1, fun x hx => absurd hx ((reset_si h2 t).2.2 x)⟩

/-! ### the keys tracked -/

/-- the keys of one table -/
def keysOf (d : DSet) : List Nat := ((List.range (d.cap + kProbeLimit)).filter fun i => decide (d.table i ≠ 0)).map d.table

theorem mem_keysOf {d : DSet} (h : RH kProbeLimit d) (k : Nat) : k ∈ keysOf d ↔ Mem d k := by
  unfold keysOf
  simp only [List.mem_map, List.mem_filter, List.mem_range, decide_eq_true_eq]
  constructor
  · rintro ⟨i, ⟨_, h2⟩, rfl⟩; exact ⟨h2, i, rfl⟩
  · rintro ⟨h1, i, rfl⟩
    have := h.pos i h1
    have := bucket_lt h.cap (this).1
    exact ⟨i, ⟨by omega, h1⟩, rfl⟩

theorem keysOf_nodup {d : DSet} (h : RH kProbeLimit d) : (keysOf d).Nodup := by
  unfold keysOf
  refine List.Nodup.map_on ?_ (List.nodup_range.filter _)
  intro a ha b hb hab
  simp only [List.mem_filter, decide_eq_true_eq] at ha
  exact h.inj a b hab ha.2

theorem keysOf_length {d : DSet} (h : RH kProbeLimit d) : (keysOf d).length = d.size := by
  unfold keysOf
  rw [List.length_map, ← List.countP_eq_length_filter, h.size, cnt_eq_countP]

theorem flat_nodup : ∀ l : List DSet, (∀ d ∈ l, RH kProbeLimit d) → l.Pairwise (fun a b => ∀ k, Mem a k → ¬ Mem b k) → (l.flatMap keysOf).Nodup := by
  intro l hr hp
  rw [List.nodup_flatMap]
  refine ⟨fun d hd => keysOf_nodup (hr d hd), ?_⟩
  refine List.Pairwise.imp_of_mem ?_ hp
  intro a b ha hb hab k h1 h2
  exact hab k ((mem_keysOf (hr a ha) k).mp h1) ((mem_keysOf (hr b hb) k).mp h2)

theorem insert_ni {ns m : Nat} {s : SSet} (h : SI ns m s) (hn : NI s) (now k : Nat) (h0 : k % W ≠ 0) :
    ∃ s' b, s.insert now k = some (s', b) ∧ NI s' := by
  rcases insert_false h now k with ⟨h1, -⟩ | ⟨hl, l, e, e', h1, h2, h3, h4, h5, h6, h7⟩
  · exact ⟨s, true, h1, hn⟩
  · have hold := mem_old h2
    have hno : ¬ ∃ d ∈ s.splits, Mem d (k % W) := by
      rw [← lookupLocked_iff k h0 _ hn.rh, hl]; simp
    have he : RH kProbeLimit e ∧ ¬ Mem e (k % W) := by
      rcases h2 with h2 | ⟨-, a, -, b, -⟩
      · have : e ∈ s.splits := by rw [← h2]; simp
        exact ⟨hn.rh e this, fun hm => hno ⟨e, this, hm⟩⟩
      · exact ⟨a, b _⟩
    obtain ⟨e2, i1, i2, -⟩ := insert_rh he.1 h0 (mod_lt k) he.2 now
    obtain ⟨e3, j1, -, -, -, j5⟩ := insert_safe h6 h7 (mod_lt k) now
    rw [h4] at i1 j1
    simp only [Option.some.injEq] at i1 j1
    subst i1
    subst j1
    refine ⟨_, false, h1, ?_, ?_⟩
    · intro d hd
      simp only [List.mem_append, List.mem_singleton] at hd
      rcases hd with hd | rfl
      · exact hn.rh d (hold d hd)
      · exact i2
    · dsimp only
      rw [List.pairwise_append]
      have hpl : l.Pairwise fun a b => ∀ k, Mem a k → ¬ Mem b k := by
        have := hn.disj
        rcases h2 with h2 | ⟨rfl | ⟨rfl, -⟩, -⟩
        · rw [← h2, List.pairwise_append] at this; exact this.1
        · exact this
        · exact this.sublist (List.tail_sublist _)
      refine ⟨hpl, by simp, ?_⟩
      intro a ha b hb x hx hx'
      simp only [List.mem_singleton] at hb
      subst hb
      rcases j5 x hx' with hxe | rfl
      · rcases h2 with h2 | ⟨-, -, -, h2, -⟩
        · have := hn.disj
          rw [← h2, List.pairwise_append] at this
          exact this.2.2 a ha e (by simp) x hx hxe
        · exact h2 x hxe
      · exact hno ⟨a, hold a ha, hx⟩

theorem run_ni {n ns now : Nat} {s0 : SSet} (h0 : SSet.new n ns now = some s0) (ops : List Op) (hz : NonZero ops) :
    ∃ s, run s0 ops = some s ∧ SI ns (n / ns % W) s ∧ NI s := by
  induction ops using List.reverseRecOn with
  | nil => exact ⟨s0, rfl, (new_si h0).1, (new_si h0).2.1⟩
  | append_singleton l o ih =>
    obtain ⟨s, h1, h2, h3⟩ := ih (fun o ho => hz o (by simp [ho]))
    rw [run_append, h1]
    cases o with
    | insert t k =>
      obtain ⟨s', b, i1, i2, -⟩ := insert_si h2 t k
      obtain ⟨s2, b2, j1, j2⟩ := insert_ni h2 h3 t k (by rw [W_eq]; exact hz (.insert t k) (by simp) t k rfl)
      rw [i1] at j1
      simp only [Option.some.injEq, Prod.mk.injEq] at j1
      obtain ⟨rfl, rfl⟩ := j1
      exact ⟨s', by simp [run, step, i1], i2, j2⟩
    | reset t => exact ⟨s.reset t, by simp [run, step], (reset_si h2 t).1, (reset_si h2 t).2.1⟩

theorem tracked_iff_lookup {ns m : Nat} {s : SSet} (h : SI ns m s) (k : Nat) : Tracked s k ↔ lookupLocked k s.splits = some true := by
  constructor
  · intro ht
    rcases insert_false h 0 k with ⟨-, h2⟩ | ⟨-, l, e, e', h1, -⟩
    · exact h2
    · have := ht 0
      rw [h1] at this
      simp at this
  · intro hl now
    rcases insert_false h now k with ⟨h1, -⟩ | ⟨h2, -⟩
    · rw [h1]; rfl
    · rw [hl] at h2; simp at h2

theorem tracked_iff {ns m : Nat} {s : SSet} (h : SI ns m s) (hn : NI s) {k : Nat} (h0 : k % W ≠ 0) : Tracked s k ↔ ∃ d ∈ s.splits, Mem d (k % W) := by
  rw [tracked_iff_lookup h, lookupLocked_iff k h0 _ hn.rh]

theorem keys_list {s : SSet} (hn : NI s) : (s.splits.flatMap keysOf).Nodup ∧ (s.splits.flatMap keysOf).length = s.numKeysTracked ∧
    (∀ k, k ∈ s.splits.flatMap keysOf ↔ ∃ d ∈ s.splits, Mem d k) := by
  refine ⟨flat_nodup _ hn.rh hn.disj, ?_, ?_⟩
  · rw [List.length_flatMap]
    unfold SSet.numKeysTracked
    congr 1
    exact List.map_congr_left fun d hd => keysOf_length (hn.rh d hd)
  · intro k
    rw [List.mem_flatMap]
    constructor
    · rintro ⟨d, hd, hk⟩; exact ⟨d, hd, (mem_keysOf (hn.rh d hd) k).mp hk⟩
    · rintro ⟨d, hd, hk⟩; exact ⟨d, hd, (mem_keysOf (hn.rh d hd) k).mpr hk⟩

theorem mem_ne_zero {d : DSet} {k : Nat} (h : RH kProbeLimit d) (hm : Mem d k) : k ≠ 0 ∧ k < W := by
  obtain ⟨h1, i, rfl⟩ := hm
  exact ⟨h1, (h.pos i h1).1⟩

/-! ### the claims -/

/-- no history fails; the number of keys tracked is bounded -/
theorem splitset_capacity {n ns now : Nat} {s0 : SSet} (h0 : SSet.new n ns now = some s0) (hn : n / ns < 2 ^ 32) (ops : List Op) :
    ∃ s, run s0 ops = some s ∧ s.numKeysTracked ≤ ns * max 1 (n / ns) ∧ (ns ≤ n → s.numKeysTracked ≤ n) ∧
      (∀ t k, ∃ r, s.insert t k = some r) := by
  obtain ⟨s, h1, h2, -⟩ := run_si h0 ops
  have hm : n / ns % W = n / ns := Nat.mod_eq_of_lt (by rw [W_eq]; exact hn)
  rw [hm] at h2
  have hb : ∀ (l : List DSet) (c : Nat), (∀ d ∈ l, d.size ≤ c) → (l.map DSet.size).sum ≤ l.length * c := by
    intro l c
    induction l with
    | nil => simp
    | cons d l ih =>
      intro h
      have := ih (fun d hd => h d (by simp [hd]))
      have := h d (by simp)
      simp only [List.map_cons, List.sum_cons, List.length_cons, Nat.add_mul, Nat.one_mul]
      omega
  have hc : s.numKeysTracked ≤ ns * max 1 (n / ns) := by
    unfold SSet.numKeysTracked
    refine Nat.le_trans (hb s.splits _ (fun d hd => (h2.safe d hd).2.2)) ?_
    exact Nat.mul_le_mul_right _ h2.len
  refine ⟨s, h1, hc, fun hle => ?_, fun t k => ?_⟩
  · have h3 : 1 ≤ n / ns := (Nat.le_div_iff_mul_le h2.pos).mpr (by omega)
    rw [Nat.max_eq_right h3] at hc
    exact Nat.le_trans hc (Nat.mul_div_le n ns)
  · obtain ⟨s', b, i1, -⟩ := insert_si h2 t k
    exact ⟨_, i1⟩

/-- insert answers true only for keys inserted since the last reset, up to the low 32 bits, and for keys whose low 32 bits are 0 -/
theorem splitset_no_false_positive {n ns now : Nat} {s0 s : SSet} (h0 : SSet.new n ns now = some s0) (ops : List Op) (hr : run s0 ops = some s)
    {t k : Nat} (ht : (s.insert t k).map Prod.snd = some true) : k % 2 ^ 32 = 0 ∨ ∃ k' ∈ seen ops, k' % 2 ^ 32 = k % 2 ^ 32 := by
  obtain ⟨s1, h1, h2, h3⟩ := run_si h0 ops
  rw [hr] at h1
  simp only [Option.some.injEq] at h1
  subst h1
  rcases insert_false h2 t k with ⟨-, hl⟩ | ⟨-, l, e, e', i1, -⟩
  · obtain ⟨b, g1, g2⟩ := lookupLocked_safe k s.splits (fun d hd => (h2.safe d hd).1)
    rw [hl] at g1
    simp only [Option.some.injEq] at g1
    rcases g2 g1.symm with h | h
    · exact .inl h
    · exact .inr (h3 _ h)
  · rw [i1] at ht
    simp at ht

/-- for keys with nonzero low 32 bits numKeysTracked is the number of keys for which insert answers true -/
theorem splitset_count_exact {n ns now : Nat} {s0 s : SSet} (h0 : SSet.new n ns now = some s0) (ops : List Op) (hz : NonZero ops) (hr : run s0 ops = some s) :
    ∃ l : List Nat, l.Nodup ∧ l.length = s.numKeysTracked ∧ (∀ k, k ∈ l ↔ 0 < k ∧ k < 2 ^ 32 ∧ Tracked s k) := by
  obtain ⟨s1, h1, h2, h3⟩ := run_ni h0 ops hz
  rw [hr] at h1
  simp only [Option.some.injEq] at h1
  subst h1
  obtain ⟨g1, g2, g3⟩ := keys_list h3
  refine ⟨_, g1, g2, fun k => ?_⟩
  rw [g3]
  constructor
  · rintro ⟨d, hd, hk⟩
    have hb := mem_ne_zero (h3.rh d hd) hk
    have he : k % W = k := Nat.mod_eq_of_lt hb.2
    refine ⟨Nat.pos_of_ne_zero hb.1, W_eq ▸ hb.2, (tracked_iff h2 h3 (by rw [he]; exact hb.1)).mpr ⟨d, hd, by rw [he]; exact hk⟩⟩
  · rintro ⟨hp, hlt, ht⟩
    have he : k % W = k := Nat.mod_eq_of_lt (W_eq ▸ hlt)
    have := (tracked_iff h2 h3 (by rw [he]; omega)).mp ht
    rwa [he] at this

/-- an insertion makes no other key be reported; if numKeysTracked grows it forgets nothing and the key is tracked; it never grows by more than one -/
theorem splitset_insert {n ns now : Nat} {s0 s s' : SSet} {b : Bool} (h0 : SSet.new n ns now = some s0) (ops : List Op) (hz : NonZero ops)
    (hr : run s0 ops = some s) {t k : Nat} (hk : k % 2 ^ 32 ≠ 0) (hi : s.insert t k = some (s', b)) :
    (b = true ↔ Tracked s k) ∧ (b = true → s' = s) ∧
    (∀ x, x % 2 ^ 32 ≠ 0 → Tracked s' x → Tracked s x ∨ x % 2 ^ 32 = k % 2 ^ 32) ∧
    s'.numKeysTracked ≤ s.numKeysTracked + 1 ∧
    (s'.numKeysTracked = s.numKeysTracked + 1 → Tracked s' k ∧ ∀ x, x % 2 ^ 32 ≠ 0 → Tracked s x → Tracked s' x) := by
  rw [← W_eq] at *
  obtain ⟨s1, h1, h2, h3⟩ := run_ni h0 ops hz
  rw [hr] at h1
  simp only [Option.some.injEq] at h1
  subst h1
  obtain ⟨s2, b2, i1, i2, i3⟩ := insert_si h2 t k
  obtain ⟨s3, b3, j1, j2⟩ := insert_ni h2 h3 t k hk
  rw [hi] at i1 j1
  simp only [Option.some.injEq, Prod.mk.injEq] at i1 j1
  obtain ⟨rfl, rfl⟩ := i1
  obtain ⟨rfl, rfl⟩ := j1
  obtain ⟨a1, a2, a3⟩ := keys_list h3
  obtain ⟨b1, b2', b3⟩ := keys_list j2
  have hsub : s'.splits.flatMap keysOf ⊆ (k % W) :: s.splits.flatMap keysOf := by
    intro x hx
    rcases i3 x ((b3 x).mp hx) with h | rfl
    · exact List.mem_cons_of_mem _ ((a3 x).mpr h)
    · exact List.mem_cons_self
  have hsp := b1.subperm hsub
  refine ⟨?_, ?_, ?_, ?_, ?_⟩
  · rw [tracked_iff_lookup h2]
    rcases insert_false h2 t k with ⟨g1, g2⟩ | ⟨g1, l, e, e', g2, -⟩
    · rw [hi] at g1; simp only [Option.some.injEq, Prod.mk.injEq] at g1; simp [g1, g2]
    · rw [hi] at g2; simp only [Option.some.injEq, Prod.mk.injEq] at g2; simp [g1, g2]
  · intro hb
    rcases insert_false h2 t k with ⟨g1, g2⟩ | ⟨g1, l, e, e', g2, -⟩
    · rw [hi] at g1; simp only [Option.some.injEq, Prod.mk.injEq] at g1; exact g1.1
    · rw [hi] at g2; simp only [Option.some.injEq, Prod.mk.injEq] at g2; simp [hb] at g2
  · intro x hx ht
    rcases i3 _ ((tracked_iff i2 j2 hx).mp ht) with h | h
    · exact .inl ((tracked_iff h2 h3 hx).mpr h)
    · exact .inr h
  · have := hsp.length_le
    rw [List.length_cons, a2, b2'] at this
    exact this
  · intro hg
    have hperm := hsp.perm_of_length_le (by rw [List.length_cons, a2, b2', hg]; exact Nat.le_refl _)
    refine ⟨(tracked_iff i2 j2 hk).mpr ((b3 _).mp (hperm.mem_iff.mpr List.mem_cons_self)), ?_⟩
    intro x hx ht
    have := (tracked_iff h2 h3 hx).mp ht
    exact (tracked_iff i2 j2 hx).mpr ((b3 _).mp (hperm.mem_iff.mpr (List.mem_cons_of_mem _ ((a3 _).mpr this))))

/-- all splits but the newest are full -/
def Full (m : Nat) (s : SSet) : Prop := ∀ d ∈ s.splits.dropLast, m ≤ d.size

theorem insert_full {ns m : Nat} {s : SSet} (h : SI ns m s) (hf : Full m s) (now k : Nat) : ∀ r, s.insert now k = some r → Full m r.1 := by
  intro r hr
  rcases insert_false h now k with ⟨h1, -⟩ | ⟨-, l, e, e', h1, h2, -⟩
  · rw [hr] at h1; simp only [Option.some.injEq] at h1; subst h1; exact hf
  · rw [hr] at h1
    simp only [Option.some.injEq] at h1
    subst h1
    intro d hd
    dsimp only at hd
    rw [List.dropLast_concat] at hd
    rcases h2 with h2 | ⟨hl, -, -, -, h2, -⟩
    · exact hf d (by rw [← h2, List.dropLast_concat]; exact hd)
    · have hd' : d ∈ s.splits := by
        rcases hl with rfl | ⟨rfl, -⟩
        · exact hd
        · exact List.mem_of_mem_tail hd
      obtain ⟨l0, e0, hle⟩ : ∃ l e, s.splits = l ++ [e] := ⟨s.splits.dropLast, s.splits.getLast h.ne, (List.dropLast_concat_getLast h.ne).symm⟩
      rw [hle] at hd'
      simp only [List.mem_append, List.mem_singleton] at hd'
      rcases hd' with hd' | rfl
      · exact hf d (by rw [hle, List.dropLast_concat]; exact hd')
      · exact h2 d (by rw [hle, List.getLast?_concat])

theorem run_full {n ns now : Nat} {s0 : SSet} (h0 : SSet.new n ns now = some s0) (ops : List Op) {s : SSet} (hr : run s0 ops = some s) : Full (n / ns % W) s := by
  induction ops using List.reverseRecOn generalizing s with
  | nil =>
    simp only [run, Option.some.injEq] at hr
    subst hr
    unfold SSet.new at h0
    split at h0
    · exact absurd h0 (by simp)
    · split at h0
      · exact absurd h0 (by simp)
      · simp only [Option.some.injEq] at h0
        subst h0
        unfold addNewSplit Full
        split <;> simp
  | append_singleton l o ih =>
    obtain ⟨s1, h1, h2, -⟩ := run_si h0 l
    rw [run_append, h1] at hr
    have hf := ih h1
    cases o with
    | insert t k =>
      obtain ⟨s', b, i1, -⟩ := insert_si h2 t k
      have := insert_full h2 hf t k _ i1
      simp only [Option.bind, run, step, i1, Option.map, Option.some.injEq] at hr
      rw [← hr]
      exact this
    | reset t =>
      simp only [Option.bind, run, step, Option.some.injEq] at hr
      subst hr
      unfold SSet.reset addNewSplit Full
      split <;> simp

theorem insert_empty {e e' : DSet} {t k : Nat} (hc : 0 < e.cap) (hm : ∀ k, ¬ Mem e k) (hs : e.size < rehashSize e.cap) (hk : k < W)
    (h : e.insert kProbeLimit t k = some e') : e'.size = e.size + 1 := by
  unfold DSet.insert at h
  rw [if_neg (by omega)] at h
  unfold insertNoResize insLoop at h
  have hb := bucket_lt hc hk
  have ht : e.table (bucket e.cap k) = 0 := Classical.byContradiction fun hne => hm _ ⟨hne, _, rfl⟩
  rw [if_pos (by decide), if_neg (by omega), if_pos ht] at h
  simp only [Option.some.injEq] at h
  rw [← h]

/-- unless a table is rebuilt, an insertion forgets at most one key, or, once numEntries keys are tracked, the keys of one split -/
theorem splitset_retains {n ns now : Nat} {s0 s s' : SSet} {b : Bool} (h0 : SSet.new n ns now = some s0) (hn : n / ns < 2 ^ 32) (ops : List Op) (hz : NonZero ops)
    (hr : run s0 ops = some s) {t k : Nat} (hk : k % 2 ^ 32 ≠ 0) (hi : s.insert t k = some (s', b))
    (hcap : ∀ d ∈ s.splits, 2 ≤ d.cap ∧ d.cap * 9 < 2 ^ 32) (hre : ∀ d, s.splits.getLast? = some d → d.size < d.cap * 9 / 10) :
    s.numKeysTracked + 1 ≤ s'.numKeysTracked + max 1 (n / ns) ∧
    (s.numKeysTracked < ns * (n / ns) → s.numKeysTracked ≤ s'.numKeysTracked) := by
  rw [← W_eq] at *
  have hf := run_full h0 ops hr
  obtain ⟨s1, h1, h2, h3⟩ := run_ni h0 ops hz
  rw [hr] at h1
  simp only [Option.some.injEq] at h1
  subst h1
  have hm : n / ns % W = n / ns := Nat.mod_eq_of_lt hn
  rw [hm] at h2 hf
  generalize n / ns = m at *
  have hrs : ∀ c, c * 9 < W → rehashSize c = c * 9 / 10 := fun c hc => by unfold rehashSize; rw [Nat.mod_eq_of_lt hc]
  rcases insert_false h2 t k with ⟨g, -⟩ | ⟨hl, l, e, e', g1, g2, g3, g4, g5, g6, g7⟩
  · rw [hi] at g; simp only [Option.some.injEq, Prod.mk.injEq] at g; rw [g.1]; omega
  · rw [hi] at g1
    simp only [Option.some.injEq, Prod.mk.injEq] at g1
    have hno : ¬ ∃ d ∈ s.splits, Mem d (k % W) := by
      rw [← lookupLocked_iff k hk _ h3.rh, hl]; simp
    have hs' : s'.numKeysTracked = (l.map DSet.size).sum + e'.size := by
      rw [g1.1]; simp [SSet.numKeysTracked]
    have add : RH kProbeLimit e → ¬ Mem e (k % W) → e.size < rehashSize e.cap → Added e e' (k % W) := by
      intro he hme hsz
      obtain ⟨e2, i1, -, -, i4⟩ := insert_rh he hk (mod_lt k) hme t
      rw [g4] at i1
      simp only [Option.some.injEq] at i1
      rw [i1]
      exact (i4 hsz).1
    rcases g2 with g2 | ⟨g2, a1, a2, a3, a4, a5⟩
    · have hmem : e ∈ s.splits := by rw [← g2]; simp
      have := add (h3.rh e hmem) (fun hm => hno ⟨e, hmem, hm⟩) (by
        rw [hrs _ (hcap e hmem).2]; exact hre e (by rw [← g2, List.getLast?_concat]))
      have hs : s.numKeysTracked = (l.map DSet.size).sum + e.size := by unfold SSet.numKeysTracked; rw [← g2]; simp
      have : e.size ≤ e'.size := by rcases this with ⟨h, -⟩ | ⟨h, -⟩ <;> omega
      omega
    · have hsz : 0 < rehashSize e.cap := by
        rcases a5 with h | ⟨d, hd, h⟩
        · rw [h]; decide
        · rw [h, hrs _ (hcap d hd).2]
          have := (hcap d hd).1
          omega
      have he' : e'.size = 1 := by
        have := insert_empty (t := t) a1.cap (a3) (by omega) (mod_lt k) g4
        omega
      have hlen : (l.map DSet.size).sum + max 1 m ≥ s.numKeysTracked ∧ (l = s.splits → (l.map DSet.size).sum = s.numKeysTracked) := by
        refine ⟨?_, fun h => by rw [h]; rfl⟩
        rcases g2 with rfl | ⟨rfl, -⟩
        · unfold SSet.numKeysTracked; omega
        · unfold SSet.numKeysTracked
          cases hsp : s.splits with
          | nil => simp
          | cons f l =>
            have := (h2.safe f (by rw [hsp]; simp)).2.2
            simp only [List.tail_cons, List.map_cons, List.sum_cons]
            omega
      refine ⟨by omega, fun hlt => ?_⟩
      rcases g2 with rfl | ⟨rfl, hl2⟩
      · have := hlen.2 rfl; omega
      · exfalso
        have hall : ∀ d ∈ s.splits, m ≤ d.size := by
          intro d hd
          obtain ⟨l0, e0, hle⟩ : ∃ l e, s.splits = l ++ [e] := ⟨s.splits.dropLast, s.splits.getLast h2.ne, (List.dropLast_concat_getLast h2.ne).symm⟩
          rw [hle] at hd
          simp only [List.mem_append, List.mem_singleton] at hd
          rcases hd with hd' | rfl
          · exact hf d (by rw [hle, List.dropLast_concat]; exact hd')
          · exact a4 d (by rw [hle, List.getLast?_concat])
        have hb : ∀ (l : List DSet), (∀ d ∈ l, m ≤ d.size) → l.length * m ≤ (l.map DSet.size).sum := by
          intro l
          induction l with
          | nil => simp
          | cons d l ih =>
            intro h
            have := ih (fun d hd => h d (by simp [hd]))
            have := h d (by simp)
            simp only [List.map_cons, List.sum_cons, List.length_cons, Nat.add_mul, Nat.one_mul]
            omega
        have := hb _ hall
        rw [hl2] at this
        unfold SSet.numKeysTracked at hlt
        omega

/-- when the newest split is full, an insertion forgets only keys of the oldest split (numSplits splits in use), or nothing -/
theorem splitset_rotation {n ns now : Nat} {s0 s s' : SSet} {b : Bool} (h0 : SSet.new n ns now = some s0) (hn : n / ns < 2 ^ 32) (ops : List Op) (hz : NonZero ops)
    (hr : run s0 ops = some s) {t k : Nat} (hk : k % 2 ^ 32 ≠ 0) (hi : s.insert t k = some (s', b))
    (hfull : ∀ d, s.splits.getLast? = some d → n / ns ≤ d.size) {x : Nat} (hx : x % 2 ^ 32 ≠ 0) (ht : Tracked s x) (hlost : ¬ Tracked s' x) :
    s.splits.length = ns ∧ ∃ d, s.splits.head? = some d ∧ d.lookup kProbeLimit (x % 2 ^ 32) = some true := by
  rw [← W_eq] at *
  obtain ⟨s1, h1, h2, h3⟩ := run_ni h0 ops hz
  rw [hr] at h1
  simp only [Option.some.injEq] at h1
  subst h1
  have hm : n / ns % W = n / ns := Nat.mod_eq_of_lt hn
  obtain ⟨s2, b2, i1, i2, i3⟩ := insert_si h2 t k
  obtain ⟨s3, b3, j1, j2⟩ := insert_ni h2 h3 t k hk
  rw [hi] at i1 j1
  simp only [Option.some.injEq, Prod.mk.injEq] at i1 j1
  obtain ⟨rfl, rfl⟩ := i1
  obtain ⟨rfl, rfl⟩ := j1
  rw [tracked_iff i2 j2 hx] at hlost
  obtain ⟨d, hd, hdx⟩ := (tracked_iff h2 h3 hx).mp ht
  rw [hm] at h2
  generalize n / ns = m at *
  rcases insert_false h2 t k with ⟨g, -⟩ | ⟨hl, l, e, e', g1, g2, g3, g4, g5, g6, g7⟩
  · rw [hi] at g; simp only [Option.some.injEq, Prod.mk.injEq] at g
    rw [g.1] at hlost; exact absurd ⟨d, hd, hdx⟩ hlost
  · rw [hi] at g1
    simp only [Option.some.injEq, Prod.mk.injEq] at g1
    rw [g1.1] at hlost
    rcases g2 with g2 | ⟨g2, a1, a2, a3, a4, a5⟩
    · have hf := hfull e (by rw [← g2, List.getLast?_concat])
      by_cases hm0 : m = 0
      · -- the splits hold nothing only when a split is added at once
        rcases g5 with g5 | g5
        · omega
        · have hme : ∀ y, ¬ Mem e y := by
            rintro y ⟨hy, i, rfl⟩
            have hsf := g6.pos i hy
            have hb := bucket_lt g6.cap hsf.1
            have hc : cnt e.table (e.cap + kProbeLimit) = 0 := by omega
            rw [cnt_eq_countP, List.countP_eq_zero] at hc
            exact hc i (by simp; omega) (by simpa using hy)
          rw [← g2] at hd
          simp only [List.mem_append, List.mem_singleton] at hd
          rcases hd with hd | rfl
          · exact absurd ⟨d, by simp [hd], hdx⟩ hlost
          · exact absurd hdx (hme _)
      · rcases g5 with g5 | g5 <;> omega
    · rcases g2 with rfl | ⟨rfl, hlen⟩
      · exact absurd ⟨d, by simp [hd], hdx⟩ hlost
      · refine ⟨hlen, ?_⟩
        cases hsp : s.splits with
        | nil => rw [hsp] at hd; simp at hd
        | cons f l =>
          rw [hsp] at hd hlost
          refine ⟨f, rfl, (lookup_iff (h3.rh f (by rw [hsp]; simp)) hx (mod_lt x)).mpr ?_⟩
          rcases List.mem_cons.mp hd with rfl | hd
          · exact hdx
          · exact absurd ⟨d, by simp [hd], hdx⟩ hlost

/-! ### concrete cases, and what does not hold -/

namespace Spec
/-- what insert answers, and numKeysTracked, after a history of insertions at times 0, 1, 2, ... -/
def answers (s : SSet) : Nat → List Nat → Option (List Bool × Nat × Option Nat)
  | _, [] => some ([], s.numKeysTracked, s.windowStart)
  | t, k :: l =>
    match s.insert t k with
    | none => none
    | some (s, b) => (answers s (t + 1) l).map fun r => (b :: r.1, r.2)
end Spec

/-- hash keys spread over the 32 bits -/
def hk (i : Nat) : Nat := i * 2654435761 % W + 1

/-- a set of 6 entries in 2 splits: the first three are forgotten when the seventh comes -/
example : (SSet.new 6 2 0).bind (fun s => answers s 0 [hk 1, hk 2, hk 3, hk 1, hk 4, hk 5, hk 6, hk 3, hk 7, hk 4, hk 1]) =
    some ([false, false, false, true, false, false, false, true, false, true, false], 5, some 4) := by decide +kernel

/-- so `splitset_count_exact`, `splitset_insert` and `splitset_rotation` apply to it -/
example : ∀ k ∈ [hk 1, hk 2, hk 3, hk 4, hk 5, hk 6, hk 7], k % 2 ^ 32 ≠ 0 := by decide +kernel

/-- a key whose low 32 bits are 0 is reported as seen although it was never inserted -/
theorem splitset_zero_key_violated : (SSet.new 100 4 0).bind (fun s => answers s 0 [2 ^ 32 * 7]) = some ([true], 0, some 0) := by decide +kernel

/-- two different keys with equal low 32 bits are one key -/
theorem splitset_collision_limit : (SSet.new 100 4 0).bind (fun s => answers s 0 [5, 2 ^ 32 * 7 + 5]) = some ([false, true], 1, some 0) := by decide +kernel

/-- the table is rebuilt from its first capacity_ positions only: with room for 100 keys, two of the first three keys are forgotten at the fourth insertion -/
theorem splitset_rehash_forgets_violated :
    (SSet.new 100 1 0).bind (fun s => answers s 0 [4294967290, 4294967291, 4294967292, 4294967293, 4294967290, 4294967291, 4294967292]) =
      some ([false, false, false, false, false, false, true], 4, some 3) := by decide +kernel

/-- rebuilding the table gives it a new creation time: the key inserted at time 0 is still reported, but the window is said to start at time 3 -/
theorem splitset_window_violated :
    (SSet.new 100 1 0).bind (fun s => answers s 0 [hk 1, hk 2, hk 3, hk 4, hk 1]) = some ([false, false, false, false, true], 4, some 3) := by decide +kernel

/-- with fewer entries than splits, more keys than numEntries are tracked -/
theorem splitset_few_entries_violated : (SSet.new 1 3 0).bind (fun s => answers s 0 [hk 1, hk 2, hk 3]) = some ([false, false, false], 3, some 0) := by decide +kernel

/-- a set with no splits divides by 0 -/
theorem splitset_no_splits_limit (n now : Nat) : SSet.new n 0 now = none := rfl

end Verif.Trackers
