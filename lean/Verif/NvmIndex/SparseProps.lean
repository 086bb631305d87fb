import Verif.NvmIndex.Sparse
/-
C25 for SparseMapIndex: the index is a map from (hash mod 2^32, (hash / 2^32) mod number of bucket maps) to records.
-/
namespace Verif.NvmIndex.Sparse
open Verif

/-! ### Specification -/

/-- What of a hash the index distinguishes. -/
abbrev Key := Nat × Nat
def keyOf (n h : Nat) : Key := (h / 2 ^ 32 % n, h % 2 ^ 32)

/-- The index as a map. -/
abbrev M := Key → Option Rec
def M.set (m : M) (k : Key) (r : Option Rec) : M := fun k' => if k' = k then r else m k'

/-- One more hit, at most 255. -/
def more (v : Nat) : Nat := min (v + 1) 255

/-- The operations on the map. -/
def M.step (n : Nat) (hist : Bool) (m : M) : Op → M × Res
  | .lookup h => (m.set (keyOf n h) ((m (keyOf n h)).map
      (fun r => ⟨r.addr, r.size, if hist then r.extra else max r.extra (more r.extra), max r.hits (more r.hits)⟩)),
      .entry (m (keyOf n h)))
  | .peek h => (m, .entry (m (keyOf n h)))
  | .insert h a z => (m.set (keyOf n h) (some ⟨a, z, 0, 0⟩), .entry (m (keyOf n h)))
  | .insertNE h a z => (m.set (keyOf n h) ((m (keyOf n h)).or (some ⟨a, z, 0, 0⟩)), .entry (m (keyOf n h)))
  | .replace h a o =>
    match m (keyOf n h) with
    | some r => if r.addr = o then
        (m.set (keyOf n h) (some ⟨a, r.size,
          if hist then r.extra / 2 % 128 + (if r.hits = 0 then r.extra / 2 / 128 * 128 else 128) else r.extra, 0⟩), .ok true)
      else (m, .ok false)
    | none => (m, .ok false)
  | .remove h => (m.set (keyOf n h) none, .entry (m (keyOf n h)))
  | .removeMatch h a =>
    if (m (keyOf n h)).map (·.addr) = some a then (m.set (keyOf n h) none, .ok true) else (m, .ok false)
  | .reset => (fun _ => none, .ok true)

def M.run (n : Nat) (hist : Bool) (m : M) : List Op → M × List Res
  | [] => (m, [])
  | o :: os => ((M.run n hist (m.step n hist o).1 os).1, (m.step n hist o).2 :: (M.run n hist (m.step n hist o).1 os).2)

/-! ### Maps -/

theorem find_set (m : Map) (k k' : Nat) (r : Rec) : (m.set k r).find k' = if k' = k ∧ m.find k ≠ none then some r else m.find k' := by
  induction m with
  | nil => simp [Map.set, Map.find]
  | cons e m ih =>
    obtain ⟨a, b⟩ := e
    simp only [Map.set, Map.find] at ih ⊢
    grind

theorem find_del (m : Map) (k k' : Nat) : (m.del k).find k' = if k' = k then none else m.find k' := by
  induction m with
  | nil => simp [Map.del, Map.find]
  | cons e m ih =>
    obtain ⟨a, b⟩ := e
    simp only [Map.del, Map.find] at ih ⊢
    grind

theorem find_emplace (m : Map) (k k' : Nat) (r : Rec) :
    (m.emplace k r).find k' = if k' = k then (m.find k).or (some r) else m.find k' := by
  unfold Map.emplace
  split
  · rename_i hk
    by_cases hkk : k' = k
    · subst hkk; rw [hk]; simp [Map.find]
    · have : ¬ k = k' := fun h => hkk h.symm
      simp [Map.find, hkk, this]
  · by_cases hkk : k' = k
    · subst hkk; cases h : m.find k' <;> simp_all
    · simp [hkk]

theorem keys_set (m : Map) (k : Nat) (r : Rec) : (m.set k r).map (·.1) = m.map (·.1) := by
  induction m with
  | nil => rfl
  | cons e m ih =>
    simp only [Map.set, List.map_cons] at ih ⊢
    rw [ih]
    congr 1
    split <;> simp_all

theorem nodup_emplace {m : Map} {k : Nat} {r : Rec} (h : (m.map (·.1)).Nodup) : ((m.emplace k r).map (·.1)).Nodup := by
  unfold Map.emplace
  split
  · rename_i hk
    simp only [Map.find, Option.map_eq_none_iff, List.find?_eq_none] at hk
    simp only [List.map_cons, List.nodup_cons]
    refine ⟨?_, h⟩
    intro hm
    obtain ⟨e, he, rfl⟩ := List.mem_map.1 hm
    exact hk e he (by simp)
  · exact h

theorem find_mem {m : Map} (h : (m.map (·.1)).Nodup) {k : Nat} {r : Rec} : m.find k = some r ↔ (k, r) ∈ m := by
  induction m with
  | nil => simp [Map.find]
  | cons e m ih =>
    obtain ⟨a, b⟩ := e
    simp only [List.map_cons, List.nodup_cons] at h
    have ih := ih h.2
    simp only [Map.find] at ih ⊢
    by_cases hk : a = k
    · subst hk
      have : ∀ r, (a, r) ∉ m := fun r hr => h.1 (List.mem_map.2 ⟨_, hr, rfl⟩)
      grind
    · grind

/-! ### The key -/

theorem bucket_eq {s : Idx} {k : Nat} (hn : s.n = 2 ^ k) (h : Nat) : s.bucket h = h / 2 ^ 32 % s.n := by
  unfold Idx.bucket
  rw [hn, Nat.and_two_pow_sub_one_eq_mod, Nat.shiftRight_eq_div_pow]

theorem subkey_eq (h : Nat) : subkey h = h % 2 ^ 32 := by
  unfold subkey
  rw [show 0xffffffff = 2 ^ 32 - 1 by rfl, Nat.and_two_pow_sub_one_eq_mod]

/-- The map the index stands for. -/
def Idx.abs (s : Idx) : M := fun k => if k.1 < s.n then (s.maps k.1).find k.2 else none

/-- Reachable indexes: a power of two bucket maps, whose keys are different 32-bit numbers. -/
structure Idx.Ok (s : Idx) : Prop where
  pow : ∃ k, s.n = 2 ^ k
  nodup : ∀ i, ((s.maps i).map (·.1)).Nodup
  lt : ∀ i, ∀ e ∈ s.maps i, e.1 < 2 ^ 32

theorem Idx.Ok.pos {s : Idx} (h : s.Ok) : 0 < s.n := by
  obtain ⟨k, hk⟩ := h.pow
  rw [hk]; exact Nat.two_pow_pos k

theorem abs_keyOf {s : Idx} (h : s.Ok) (x : Nat) : s.abs (keyOf s.n x) = (s.map x).find (subkey x) := by
  obtain ⟨k, hk⟩ := h.pow
  unfold Idx.abs keyOf Idx.map
  simp only [bucket_eq hk, subkey_eq, if_pos (Nat.mod_lt _ h.pos)]

theorem ok_put {s : Idx} (h : s.Ok) (x : Nat) {m : Map} (hm : (m.map (·.1)).Nodup) (hl : ∀ e ∈ m, e.1 < 2 ^ 32) : (s.put x m).Ok := by
  refine ⟨h.pow, ?_, ?_⟩
  · intro i
    simp only [Idx.put, upd]
    split
    · exact hm
    · exact h.nodup i
  · intro i
    simp only [Idx.put, upd]
    split
    · exact hl
    · exact h.lt i

theorem abs_put {s : Idx} (h : s.Ok) (x : Nat) (m : Map) (f : Option Rec)
    (hf : ∀ k, m.find k = if k = subkey x then f else (s.map x).find k) : (s.put x m).abs = s.abs.set (keyOf s.n x) f := by
  obtain ⟨k, hk⟩ := h.pow
  have hp := h.pos
  funext y
  obtain ⟨b, q⟩ := y
  unfold Idx.abs M.set keyOf Idx.put
  simp only [upd, bucket_eq hk, Prod.mk.injEq]
  rw [subkey_eq] at hf
  by_cases hb : b = x / 2 ^ 32 % s.n
  · have : x / 2 ^ 32 % s.n < s.n := Nat.mod_lt _ hp
    subst hb
    simp only [this, if_true, true_and]
    rw [hf]
    simp only [Idx.map, bucket_eq hk]
  · simp only [hb, if_false, false_and]

theorem subkey_lt (x : Nat) : subkey x < 2 ^ 32 := by rw [subkey_eq]; exact Nat.mod_lt _ (by decide)

theorem lt_set {s : Idx} (h : s.Ok) (x : Nat) (r : Rec) : ∀ e ∈ (s.map x).set (subkey x) r, e.1 < 2 ^ 32 := by
  intro e he
  obtain ⟨e', he', rfl⟩ := List.mem_map.1 he
  have := h.lt _ e' he'
  split
  · exact subkey_lt x
  · exact this

theorem lt_emplace {s : Idx} (h : s.Ok) (x : Nat) (r : Rec) : ∀ e ∈ (s.map x).emplace (subkey x) r, e.1 < 2 ^ 32 := by
  intro e he
  unfold Map.emplace at he
  split at he
  · rcases List.mem_cons.1 he with rfl | he
    · exact subkey_lt x
    · exact h.lt _ e he
  · exact h.lt _ e he

theorem ok_set {s : Idx} (h : s.Ok) (x : Nat) (r : Rec) : (s.put x ((s.map x).set (subkey x) r)).Ok :=
  ok_put h x (by rw [keys_set]; exact h.nodup _) (lt_set h x r)

theorem ok_del {s : Idx} (h : s.Ok) (x : Nat) : (s.put x ((s.map x).del (subkey x))).Ok :=
  ok_put h x ((h.nodup (s.bucket x)).sublist (List.filter_sublist.map _)) fun e he => h.lt _ e (List.mem_of_mem_filter he)

theorem ok_emplace {s : Idx} (h : s.Ok) (x : Nat) (r : Rec) : (s.put x ((s.map x).emplace (subkey x) r)).Ok :=
  ok_put h x (nodup_emplace (h.nodup _)) (lt_emplace h x r)

theorem set_none {m : M} {k : Key} (h : m k = none) : m.set k none = m := by
  funext y; simp only [M.set]; split <;> simp_all

/-- One operation does on the index what it does on the map. -/
theorem step_refines {s : Idx} (h : s.Ok) (o : Op) :
    (s.step o).1.Ok ∧ (s.step o).1.n = s.n ∧ (s.step o).1.hist = s.hist ∧
    (s.step o).1.abs = (s.abs.step s.n s.hist o).1 ∧ (s.step o).2 = (s.abs.step s.n s.hist o).2 := by
  have hk := abs_keyOf h
  cases o with
  | lookup x =>
    simp only [Idx.step, M.step, Idx.lookup, hk]
    cases hf : (s.map x).find (subkey x) with
    | none => exact ⟨h, rfl, rfl, (set_none (by rw [hk, hf])).symm, rfl⟩
    | some r =>
      refine ⟨ok_set h x _, rfl, rfl, abs_put h x _ _ fun k => ?_, rfl⟩
      rw [find_set]
      have e1 : ∀ v, safeInc v = max v (more v) := by intro v; unfold safeInc more; split <;> omega
      by_cases hkk : k = subkey x <;> simp [hkk, hf, e1]
  | peek x => exact ⟨h, rfl, rfl, rfl, by simp only [Idx.step, M.step, Idx.peek, hk]⟩
  | insert x a z =>
    simp only [Idx.step, M.step, Idx.insert, hk]
    cases hf : (s.map x).find (subkey x) with
    | none =>
      refine ⟨ok_emplace h x _, rfl, rfl, abs_put h x _ _ fun k => ?_, rfl⟩
      rw [find_emplace]; by_cases hkk : k = subkey x <;> simp [hkk, hf]
    | some r =>
      refine ⟨ok_set h x _, rfl, rfl, abs_put h x _ _ fun k => ?_, rfl⟩
      rw [find_set]; by_cases hkk : k = subkey x <;> simp [hkk, hf]
  | insertNE x a z =>
    simp only [Idx.step, M.step, Idx.insertIfNotExists, hk]
    refine ⟨ok_emplace h x _, rfl, rfl, abs_put h x _ _ fun k => ?_, trivial⟩
    rw [find_emplace]
  | replace x a o =>
    simp only [Idx.step, M.step, Idx.replaceIfMatch, hk]
    cases hf : (s.map x).find (subkey x) with
    | none => exact ⟨h, rfl, rfl, rfl, rfl⟩
    | some r =>
      simp only
      split
      · refine ⟨ok_set h x _, rfl, rfl, abs_put h x _ _ fun k => ?_, rfl⟩
        rw [find_set]
        by_cases hkk : k = subkey x
        · simp only [hkk, hf, true_and, ne_eq, reduceCtorEq, not_false_eq_true, if_true, shiftHist, Option.some.injEq, Rec.mk.injEq,
            and_true]
          split
          · by_cases hh : r.hits = 0
            · simp only [hh, gt_iff_lt, Nat.lt_irrefl, if_false, if_true]; omega
            · simp only [hh, gt_iff_lt, if_false, if_pos (Nat.pos_of_ne_zero hh)]
          · rfl
        · simp [hkk]
      · exact ⟨h, rfl, rfl, rfl, rfl⟩
  | remove x =>
    simp only [Idx.step, M.step, Idx.remove, hk]
    cases hf : (s.map x).find (subkey x) with
    | none => exact ⟨h, rfl, rfl, (set_none (by rw [hk, hf])).symm, rfl⟩
    | some r => exact ⟨ok_del h x, rfl, rfl, abs_put h x _ _ fun k => find_del _ _ _, rfl⟩
  | removeMatch x a =>
    simp only [Idx.step, M.step, Idx.removeIfMatch, hk]
    cases hf : (s.map x).find (subkey x) with
    | none => exact ⟨h, rfl, rfl, rfl, rfl⟩
    | some r =>
      simp only [Option.map_some, Option.some.injEq]
      split
      · exact ⟨ok_del h x, rfl, rfl, abs_put h x _ _ fun k => find_del _ _ _, rfl⟩
      · exact ⟨h, rfl, rfl, rfl, rfl⟩
  | reset =>
    refine ⟨⟨h.pow, ?_, ?_⟩, rfl, rfl, ?_, rfl⟩
    · intro i; simp only [Idx.step, Idx.reset]; split
      · exact List.nodup_nil
      · exact h.nodup i
    · intro i; simp only [Idx.step, Idx.reset]; split
      · simp
      · exact h.lt i
    · funext k; simp only [Idx.step, Idx.reset, Idx.abs, M.step]; split <;> simp [Map.find]

theorem new_ok (k : Nat) (hist : Bool) : (Idx.new k hist).Ok := ⟨⟨k, rfl⟩, fun _ => List.nodup_nil, by simp [Idx.new]⟩

theorem run_refines {s : Idx} (h : s.Ok) (os : List Op) :
    (s.run os).1.Ok ∧ (s.run os).1.n = s.n ∧ (s.run os).1.hist = s.hist ∧
    (s.run os).1.abs = (s.abs.run s.n s.hist os).1 ∧ (s.run os).2 = (s.abs.run s.n s.hist os).2 := by
  induction os generalizing s with
  | nil => exact ⟨h, rfl, rfl, rfl, rfl⟩
  | cons o os ih =>
    obtain ⟨h1, h2, h3, h4, h5⟩ := step_refines h o
    obtain ⟨i1, i2, i3, i4, i5⟩ := ih h1
    simp only [Idx.run, M.run]
    rw [h2] at i2; rw [h3] at i3
    rw [h2, h3, h4] at i4 i5
    exact ⟨i1, i2, i3, i4, by rw [i5, h5]⟩

/-- C25: in every history of operations on a new index of 2^k bucket maps, every result is that of the same operation on a map
from the index's keys to records. -/
theorem sparse_is_map (k : Nat) (hist : Bool) (os : List Op) :
    ((Idx.new k hist).run os).2 = (M.run (2 ^ k) hist (fun _ => none) os).2 := by
  have := (run_refines (new_ok k hist) os).2.2.2.2
  rw [this]
  congr 2
  funext y; exact ite_self none

/-- C25: two hashes are told apart iff their low 32 bits or their bucket maps differ. -/
theorem keyOf_eq_iff (n h h' : Nat) : keyOf n h = keyOf n h' ↔ h % 2 ^ 32 = h' % 2 ^ 32 ∧ h / 2 ^ 32 % n = h' / 2 ^ 32 % n := by
  simp only [keyOf, Prod.mk.injEq]; tauto

/-! ### Size, iteration -/

theorem token_key {n b q : Nat} (hb : b < n) (hq : q < 2 ^ 32) : keyOf n ((b <<< 32) ||| q) = (b, q) := by
  have e : (b <<< 32) ||| q = 2 ^ 32 * b + q := by rw [Nat.shiftLeft_eq, Nat.mul_comm, Nat.two_pow_add_eq_or_of_lt hq]
  unfold keyOf
  rw [e]
  congr 1
  · rw [Nat.mul_add_div (by decide), Nat.div_eq_of_lt hq, Nat.add_zero, Nat.mod_eq_of_lt hb]
  · rw [Nat.mul_add_mod, Nat.mod_eq_of_lt hq]

/-- C25: an iteration visits exactly the entries of the map, each under a token that leads back to it. -/
theorem entries_exact {s : Idx} (h : s.Ok) (t : Nat) (r : Rec) :
    (t, r) ∈ s.entries → s.abs (keyOf s.n t) = some r := by
  intro ht
  simp only [Idx.entries, List.mem_flatMap, List.mem_range, List.mem_map, Prod.mk.injEq] at ht
  obtain ⟨b, hb, e, he, rfl, rfl⟩ := ht
  rw [token_key hb (h.lt b e he)]
  simp only [Idx.abs, if_pos hb]
  rw [find_mem (h.nodup b)]
  exact he

theorem entries_all {s : Idx} (h : s.Ok) {k : Key} {r : Rec} (hk : s.abs k = some r) :
    ∃ t, keyOf s.n t = k ∧ (t, r) ∈ s.entries := by
  unfold Idx.abs at hk
  split at hk
  · rename_i hb
    rw [find_mem (h.nodup _)] at hk
    refine ⟨(k.1 <<< 32) ||| k.2, token_key hb (h.lt _ _ hk), ?_⟩
    simp only [Idx.entries, List.mem_flatMap, List.mem_range, List.mem_map, Prod.mk.injEq]
    exact ⟨k.1, hb, _, hk, rfl, rfl⟩
  · simp at hk

/-- C25: no entry is visited twice. -/
theorem entries_once {s : Idx} (h : s.Ok) : (s.entries.map (fun e => keyOf s.n e.1)).Nodup := by
  have e : s.entries.map (fun e => keyOf s.n e.1) = (List.range s.n).flatMap (fun b => (s.maps b).map (fun e => (b, e.1))) := by
    simp only [Idx.entries, List.map_flatMap, List.map_map]
    apply List.flatMap_congr
    intro b hb
    apply List.map_congr_left
    intro e he
    exact token_key (List.mem_range.1 hb) (h.lt b e he)
  rw [e, List.nodup_flatMap]
  constructor
  · intro b _
    have := h.nodup b
    rw [show (s.maps b).map (fun e => (b, e.1)) = ((s.maps b).map (·.1)).map (fun q => (b, q)) by simp [List.map_map, Function.comp_def]]
    exact this.map (fun x y hxy => by simpa using hxy)
  · refine List.nodup_range.imp ?_
    intro a b hab
    simp only [Function.onFun]
    intro x hx hy
    obtain ⟨e1, _, rfl⟩ := List.mem_map.1 hx
    obtain ⟨e2, _, h2⟩ := List.mem_map.1 hy
    simp only [Prod.mk.injEq] at h2
    exact hab h2.1.symm

/-- C25: the computed size is the number of entries. -/
theorem size_exact (s : Idx) : s.computeSize = s.entries.length := by
  simp [Idx.computeSize, Idx.entries, List.length_flatMap]

/-! ### Persistence -/

theorem foldl_emplace (es : Map) (m : Map) (k : Nat) :
    (es.foldl (fun m e => m.emplace e.1 e.2) m).find k = (m.find k).or (Map.find es k) := by
  induction es generalizing m with
  | nil => simp [Map.find]
  | cons e es ih =>
    rw [List.foldl_cons, ih, find_emplace]
    obtain ⟨a, b⟩ := e
    simp only [Map.find]
    cases h : Option.map (fun x => x.2) (List.find? (fun e => e.1 == k) m) <;> grind

theorem load_abs (m : Nat → Map) (l : List Nat) (hl : l.Nodup) (s : Idx) (hb : ∀ i ∈ l, i < s.n) :
    ∃ s', Idx.load s (l.map (fun i => (i, m i))) = some s' ∧ s'.n = s.n ∧ s'.hist = s.hist ∧
      ∀ i k, (s'.maps i).find k = if i ∈ l then ((s.maps i).find k).or ((m i).find k) else (s.maps i).find k := by
  induction l generalizing s with
  | nil => exact ⟨s, rfl, rfl, rfl, by simp⟩
  | cons a l ih =>
    rw [List.nodup_cons] at hl
    simp only [List.map_cons, Idx.load]
    rw [if_neg (by have := hb a (by simp); omega)]
    obtain ⟨s', h1, h2, h3, h4⟩ := ih hl.2 { s with maps := upd s.maps a ((m a).foldl (fun m e => m.emplace e.1 e.2) (s.maps a)) }
      (fun i hi => hb i (by simp [hi]))
    refine ⟨s', h1, h2, h3, ?_⟩
    intro i k
    rw [h4]
    by_cases hi : i = a
    · subst hi
      simp only [upd, if_true, List.mem_cons, true_or, if_neg hl.1, if_true]
      rw [foldl_emplace]
    · simp only [upd, if_neg hi, List.mem_cons, hi, false_or]
      rfl

theorem computeSize_pos {s : Idx} (h : ¬ 0 < s.computeSize) : ∀ i < s.n, s.maps i = [] := by
  intro i hi
  have : (s.maps i).length ≤ s.computeSize := by
    unfold Idx.computeSize
    have h1 : (s.maps i).length ∈ (List.range s.n).map (fun i => (s.maps i).length) := List.mem_map.2 ⟨i, List.mem_range.2 hi, rfl⟩
    generalize (List.range s.n).map (fun i => (s.maps i).length) = l at h1
    clear h hi
    induction l with
    | nil => simp at h1
    | cons a l ih =>
      rcases List.mem_cons.1 h1 with h1 | h1
      · rw [h1, List.sum_cons]; omega
      · have := ih h1; rw [List.sum_cons]; omega
  exact List.eq_nil_of_length_eq_zero (by omega)

/-- C25 (and C45): recovering a persisted index, into an index of any contents with the same number of bucket maps, gives the
same map. -/
theorem recover_persist (s t : Idx) (hn : t.n = s.n) :
    ∃ u, t.recover s.persist = some u ∧ u.abs = s.abs ∧ u.n = s.n ∧ u.hist = t.hist := by
  unfold Idx.recover
  simp only
  generalize ht : (if t.computeSize > 0 then t.reset else t) = t'
  have hn' : t'.n = s.n := by rw [← ht]; split <;> simp [Idx.reset, hn]
  have hh' : t'.hist = t.hist := by rw [← ht]; split <;> simp [Idx.reset]
  have he : ∀ i < s.n, t'.maps i = [] := by
    intro i hi
    rw [← ht]
    split
    · simp [Idx.reset, hn, hi]
    · exact computeSize_pos (by assumption) i (by omega)
  have hlen : s.persist.length = s.n := by simp [Idx.persist]
  rw [hn', if_neg (by omega), ← hlen, List.take_length]
  obtain ⟨u, h1, h2, h3, h4⟩ := load_abs s.maps (List.range s.n) List.nodup_range t' (by simp [hn'])
  refine ⟨u, h1, ?_, by rw [h2, hn', hlen], by rw [h3, hh']⟩
  funext k
  unfold Idx.abs
  rw [h2, hn']
  split
  · rename_i hk
    rw [h4, if_pos (List.mem_range.2 hk), he _ hk]
    simp [Map.find]
  · rfl

/-- C25: an index with fewer bucket maps refuses what a larger one persisted when that has as many records as it reads and one
is out of its range; with more bucket maps it finds too few records. -/
theorem recover_more_fails (s t : Idx) (hn : s.n < t.n) : t.recover s.persist = none := by
  unfold Idx.recover
  have : (if t.computeSize > 0 then t.reset else t).n = t.n := by split <;> rfl
  simp only [this, Idx.persist, List.length_map, List.length_range]
  rw [if_pos hn]

/-- Finding: an index with fewer bucket maps reads only the first records and silently drops the rest. -/
theorem recover_fewer_loses : ∃ s t : Idx, s.Ok ∧ t.Ok ∧ t.n < s.n ∧ s.peek (2 ^ 32) = some ⟨5, 1, 0, 0⟩ ∧
    ∃ u, t.recover s.persist = some u ∧ u.computeSize = 0 := by
  refine ⟨((Idx.new 1 false).insert (2 ^ 32) 5 1).1, Idx.new 0 false, (step_refines (new_ok 1 false) (.insert (2 ^ 32) 5 1)).1,
    new_ok 0 false, by decide, by decide, _, rfl, by decide⟩

/-! ### Concrete cases -/

/-- A history with two hashes that share an entry and one that does not. -/
example : ((Idx.new 1 false).run [.insert 7 100 2, .insert (2 ^ 33 + 7) 101 3, .insert (2 ^ 32 + 7) 102 4, .lookup 7, .peek 7,
      .replace 7 200 100, .replace 7 200 101, .removeMatch (2 ^ 32 + 7) 102, .remove 7, .peek 7]).2 =
    [.entry none, .entry (some ⟨100, 2, 0, 0⟩), .entry none, .entry (some ⟨101, 3, 0, 0⟩), .entry (some ⟨101, 3, 1, 1⟩), .ok false, .ok true,
     .ok true, .entry (some ⟨200, 3, 1, 0⟩), .entry none] := by decide

example : ((Idx.new 1 true).insert 7 100 2).1.computeSize = 1 ∧ ((Idx.new 1 true).insert 7 100 2).1.Ok :=
  ⟨by decide, (step_refines (new_ok 1 true) (.insert 7 100 2)).1⟩

end Verif.NvmIndex.Sparse
