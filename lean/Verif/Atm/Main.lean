import Verif.Atm.Props
import Mathlib.Data.List.Perm.Subperm
/-
C61, the theorems.
-/
namespace Verif.Atm
open Verif

/-! ### Recovery -/

theorem group_gen (c : Cfg) (i : Nat) (es m : M) (hm : Nd m) :
    let g := es.foldl (fun m e => if c.shard e.1 = i then put m e.1 e.2 else m) m
    Nd g ∧ (∀ e, e ∈ g → e ∈ m ∨ (e ∈ es ∧ c.shard e.1 = i)) ∧
      (∀ e, e ∈ m → (∀ v, (e.1, v) ∉ es) → e ∈ g) ∧ (Nd es → ∀ e, e ∈ es → c.shard e.1 = i → e ∈ g) := by
  induction es generalizing m with
  | nil => exact ⟨hm, fun e he => .inl he, fun e he _ => he, fun _ e he => by cases he⟩
  | cons a es ih =>
    simp only [List.foldl_cons]
    by_cases h : c.shard a.1 = i
    · simp only [h, if_true]
      obtain ⟨h1, h2, h3, h4⟩ := ih (put m a.1 a.2) (put_nd hm a.1 a.2)
      refine ⟨h1, fun e he => ?_, fun e he hn => ?_, fun hnd e he hs => ?_⟩
      · rcases h2 e he with h5 | h5
        · rcases put_mem.1 h5 with h6 | h6
          · subst h6; exact .inr ⟨by simp, h⟩
          · exact .inl h6.1
        · exact .inr ⟨by simp [h5.1], h5.2⟩
      · refine h3 e (put_mem.2 (.inr ⟨he, fun e' => hn a.2 ?_⟩)) fun v hv => hn v (by simp [hv])
        rw [e']; simp
      · unfold Nd at hnd
        rw [List.map_cons, List.nodup_cons] at hnd
        rcases List.mem_cons.1 he with h5 | h5
        · subst h5
          exact h3 e (put_mem.2 (.inl rfl)) fun v hv => hnd.1 (List.mem_map_of_mem (f := (·.1)) hv)
        · exact h4 hnd.2 e h5 hs
    · simp only [h, if_false]
      obtain ⟨h1, h2, h3, h4⟩ := ih m hm
      refine ⟨h1, fun e he => ?_, fun e he hn => h3 e he fun v hv => hn v (by simp [hv]), fun hnd e he hs => ?_⟩
      · rcases h2 e he with h5 | h5
        · exact .inl h5
        · exact .inr ⟨by simp [h5.1], h5.2⟩
      · unfold Nd at hnd
        rw [List.map_cons, List.nodup_cons] at hnd
        rcases List.mem_cons.1 he with h5 | h5
        · subst h5; exact absurd hs h
        · exact h4 hnd.2 e h5 hs

/-- How many of the entries of a group are used. -/
def Cfg.used (c : Cfg) (m l : M) : Nat := if c.cap = 0 then l.length else min l.length (c.cap - m.length)

theorem fill_spec (c : Cfg) (l m : M) (n : Nat) (hm : Nd m) (hl : Nd l) (hd : ∀ e ∈ l, m.lookup e.1 = none) :
    (c.fill m n l).2 = n + c.used m l ∧ Nd (c.fill m n l).1 ∧ (c.fill m n l).1.length = m.length + c.used m l ∧
      ∀ e, e ∈ (c.fill m n l).1 ↔ e ∈ m ∨ e ∈ l.take (c.used m l) := by
  induction l generalizing m n with
  | nil => simp [Cfg.fill, Cfg.used, hm]
  | cons a l ih =>
    unfold Nd at hl
    rw [List.map_cons, List.nodup_cons] at hl
    unfold Cfg.fill
    split
    · next h =>
      have : c.used m (a :: l) = 0 := by unfold Cfg.used; rw [if_neg (by omega)]; omega
      rw [this]; simp [hm]
    · next h =>
      have ha := hd a (by simp)
      have hlen := put_len_new (v := a.2) hm ha
      have hu : c.used m (a :: l) = c.used (put m a.1 a.2) l + 1 := by
        unfold Cfg.used
        rw [hlen]
        split
        · simp
        · simp only [List.length_cons]; omega
      have hd' : ∀ e ∈ l, (put m a.1 a.2).lookup e.1 = none := by
        intro e he
        rw [lookup_none (put_nd hm a.1 a.2)]
        intro v hv
        have hk := (lookup_none hm).1 (hd e (by simp [he]))
        rcases put_mem.1 hv with h1 | h1
        · have : e.1 = a.1 := by simpa using congrArg Prod.fst h1
          exact hl.1 (this ▸ List.mem_map_of_mem (f := (·.1)) he)
        · exact hk v h1.1
      obtain ⟨h1, h2, h3, h4⟩ := ih (put m a.1 a.2) (n + 1) (put_nd hm a.1 a.2) hl.2 hd'
      refine ⟨by rw [h1, hu]; omega, h2, by rw [h3, hlen, hu]; omega, fun e => ?_⟩
      rw [h4, hu, List.take_succ_cons, List.mem_cons, put_mem]
      constructor
      · rintro ((h5 | h5) | h5)
        · exact .inr (.inl h5)
        · exact .inl h5.1
        · exact .inr (.inr h5)
      · rintro (h5 | h5 | h5)
        · refine .inl (.inr ⟨h5, ?_⟩)
          intro e'
          have := (lookup_none hm).1 ha e.2
          rw [← e'] at this
          exact this h5
        · exact .inl (.inl h5)
        · exact .inr h5

theorem group_spec (c : Cfg) (i : Nat) (es : M) : Nd (c.group es i) ∧ (∀ e, e ∈ c.group es i → e ∈ es ∧ c.shard e.1 = i) ∧
    (Nd es → ∀ e, e ∈ es → c.shard e.1 = i → e ∈ c.group es i) := by
  obtain ⟨h1, h2, -, h4⟩ := group_gen c i es [] (by simp [Nd])
  refine ⟨h1, fun e he => ?_, h4⟩
  rcases h2 e he with h | h
  · cases h
  · exact h

theorem recovered_inv {c : Cfg} (hn : 0 < c.n) {h : Shm} {s : St} (hr : Recovers c St.new h s) :
    Inv c (fun k => (s.sh (c.shard k)).lookup k) [] s := by
  cases hr with
  | empty he =>
    refine ⟨fun i => by simp [St.new, Nd], by simp [St.new], by simp [St.new], by simp [St.new, Spec.last], ?_, by simp [St.new], ?_, trivial⟩
    · intro _ i; simp [St.new, counted]
    · simp only [St.new, counted]
      have := total_le (n := c.n) (b := 0) (f := fun _ => ([] : M).length) (by simp)
      simp at this ⊢; omega
  | entries es order he ho =>
    have hf := fun i => fill_spec c (order i) [] 0 (by simp [Nd]) (perm_nd (ho i) (group_spec c i es).1) (by simp)
    have hnd : ∀ i, Nd (if i < c.n then (c.fill [] 0 (order i)).1 else []) := by
      intro i; split
      · exact (hf i).2.1
      · simp [Nd]
    simp only [St.new, Cfg.shard]
    refine ⟨hnd, ?_, ?_, ?_, ?_, by simp, ?_, trivial⟩
    · intro i k v hk
      simp only at hk
      split at hk
      · rw [(hf i).2.2.2] at hk
        rcases hk with hk | hk
        · cases hk
        · exact ((group_spec c i es).2.1 _ ((ho i).subset (List.mem_of_mem_take hk))).2
      · cases hk
    · intro k v hk
      simp only [Spec.last]
      exact (lookup_mem (hnd _)).2 hk
    · intro k v hk
      simp only [Spec.last] at hk
      exact .inl ((lookup_mem (hnd _)).1 hk)
    · intro hc i
      have : (if i < c.n then (c.fill [] 0 (order i)).1 else []).length ≤ c.cap := by
        split
        · rw [(hf i).2.2.1]; unfold Cfg.used; rw [if_neg (by omega)]; simp; omega
        · simp
      exact ⟨this, this⟩
    · simp only [Nat.zero_add]
      refine total_congr fun i hi => ?_
      simp only [hi, if_true, counted]
      rw [(hf i).1, (hf i).2.2.1]; simp

theorem reach_inv {c : Cfg} (hn : 0 < c.n) {base : Nat → Option Nat} {tr : List Ev} {s : St} (h : Reach c base tr s) : Inv c base tr s := by
  induction h with
  | fresh =>
    have := recovered_inv hn (Recovers.empty (c := c) (s := St.new) (h := ⟨none, none⟩) rfl)
    exact this
  | recovered hr => exact recovered_inv hn hr
  | step _ hs ih => exact step_inv hn ih hs

/-! ### Reading and writing, any schedule -/

theorem gar_res {m m' : M} {k : Nat} {d : Option Bool} {r : Option Nat} (h : getAndRemove m k = (m', d, r)) : r = m.lookup k := by
  unfold getAndRemove at h
  cases e : m.lookup k with
  | none => rw [e] at h; cases h; rfl
  | some v => rw [e] at h; cases h; rfl

/-- **What is read**: the time last given and not removed since, or nothing; and nothing instead of a time only if the map is limited
and another hash of the same shard was given a time since. -/
theorem reads_current {c : Cfg} (hn : 0 < c.n) {base : Nat → Option Nat} {tr : List Ev} {s : St} {k : Nat} {r : Option Nat}
    (h : Reach c base (.get k r :: tr) s ∨ Reach c base (.getAndRemove k r :: tr) s) :
    r = Spec.last base tr k ∨ (r = none ∧ 0 < c.maxSize ∧ Spec.Crowded c.n tr k) := by
  have key : ∀ s0, Reach c base tr s0 → r = (s0.sh (c.shard k)).lookup k → r = Spec.last base tr k ∨ (r = none ∧ 0 < c.maxSize ∧ Spec.Crowded c.n tr k) := by
    intro s0 h0 hr
    have hi := reach_inv hn h0
    unfold Cfg.shard at hr
    cases hl : (s0.sh (k % c.n)).lookup k with
    | some v =>
      rw [hl] at hr
      exact .inl (hr.trans (hi.val k v ((lookup_mem (hi.nd _)).1 hl)).symm)
    | none =>
      rw [hl] at hr
      cases hv : Spec.last base tr k with
      | none => exact .inl hr
      | some v =>
        rcases hi.keep k v hv with h1 | h1
        · rw [← lookup_mem (hi.nd _), hl] at h1; cases h1
        · refine .inr ⟨hr, ?_, h1.2⟩
          have := h1.1
          unfold Cfg.cap at this
          split at this
          · assumption
          · omega
  rcases h with h | h
  · cases h with
    | step h0 hs => cases hs with
      | get k hl => exact key _ h0 rfl
  · cases h with
    | step h0 hs => cases hs with
      | getAndRemove k m d r hl hg =>
        refine key _ h0 ?_
        have := gar_res hg
        exact this

/-- The hashes given times, at most so many per shard that none is dropped. -/
structure Fits (c : Cfg) (S : List Nat) : Prop where
  fits : c.maxSize = 0 ∨ ∀ i, c.n * (S.filter fun k => k % c.n = i).length < c.maxSize + c.n

theorem Fits.le {c : Cfg} (hn : 0 < c.n) {S : List Nat} (h : Fits c S) (i : Nat) (hc : 0 < c.cap) : (S.filter fun k => k % c.n = i).length ≤ c.cap := by
  have hm : 0 < c.maxSize := by
    unfold Cfg.cap at hc; split at hc
    · assumption
    · omega
  have hl := limit c hn hm
  rcases h.fits with h | h
  · omega
  · have h := h i
    unfold Spec.Limit at hl
    generalize (S.filter fun k => k % c.n = i).length = L at *
    have h1 : c.n * L < c.n * (c.cap + 1) := by rw [Nat.mul_succ]; omega
    have := Nat.lt_of_mul_lt_mul_left h1
    omega

theorem kept {c : Cfg} (hn : 0 < c.n) {S : List Nat} (hS : Fits c S) {base : Nat → Option Nat} (hbase : ∀ k v, base k = some v → k ∈ S) {tr : List Ev}
    {s : St} (h : Reach c base tr s) (ht : ∀ k v, Ev.set k v ∈ tr → k ∈ S) :
    ∀ k v, Spec.last base tr k = some v → k ∈ S ∧ (k, v) ∈ s.sh (k % c.n) := by
  induction h with
  | fresh => intro k v hk; cases hk
  | recovered hr =>
    intro k v hk
    refine ⟨hbase k v hk, ?_⟩
    exact (lookup_mem ((recovered_inv hn hr).nd _)).1 hk
  | @step base tr s s' e h hs ih =>
    have ih := ih hbase fun k v hv => ht k v (by simp [hv])
    have hinv := reach_inv hn h
    cases hs with
    | set k v order m d hl ho hset =>
      unfold Cfg.shard at *
      obtain ⟨m', d', e1, nd', mem', sub', old', cnt', hd', bnd', keep'⟩ := set_spec c (hinv.nd (k % c.n)) (fun hc => (hinv.bound hc (k % c.n)).2) ho
      rw [hset] at e1
      simp only [Option.some.injEq, Prod.mk.injEq] at e1
      obtain ⟨rfl, rfl⟩ := e1
      have hkS : k ∈ S := ht k v (by simp)
      have hold : ∀ e, e ∈ s.sh (k % c.n) → e.1 ≠ k → e ∈ m := by
        by_cases hc : 0 < c.cap
        · refine keep' ?_
          by_cases hin : ((s.sh (k % c.n)).lookup k).isSome
          · exact .inl hin
          · right
            have hin' : (s.sh (k % c.n)).lookup k = none := by rw [← Option.not_isSome_iff_eq_none]; exact hin
            have hnd : (k :: (s.sh (k % c.n)).map (·.1)).Nodup := by
              rw [List.nodup_cons]
              refine ⟨fun hm => ?_, hinv.nd _⟩
              rw [List.mem_map] at hm
              obtain ⟨⟨x, y⟩, h1, rfl⟩ := hm
              exact (lookup_none (hinv.nd _)).1 hin' y h1
            have hsub : (k :: (s.sh (k % c.n)).map (·.1)) ⊆ S.filter fun x => x % c.n = k % c.n := by
              intro x hx
              rw [List.mem_filter]
              rcases List.mem_cons.1 hx with rfl | hx
              · exact ⟨hkS, by simp⟩
              · rw [List.mem_map] at hx
                obtain ⟨⟨x, y⟩, h1, rfl⟩ := hx
                have hcl := hinv.cls _ _ _ h1
                exact ⟨(ih x y (hinv.val x y (by rw [hcl]; exact h1))).1, by simpa using hcl⟩
            have := (List.subperm_of_subset hnd hsub).length_le
            have h2 := hS.le hn (k % c.n) hc
            simp only [List.length_cons, List.length_map] at this
            omega
        · exact old' (by omega)
      intro k' v' hk'
      simp only [Spec.last] at hk'
      simp only [upd]
      split at hk'
      · next e => subst e; cases hk'; simp only [if_true]; exact ⟨hkS, mem'⟩
      · next e =>
        obtain ⟨g1, g2⟩ := ih k' v' hk'
        refine ⟨g1, ?_⟩
        split
        · next e2 => exact hold _ (by rw [← e2]; exact g2) (fun e' => e e'.symm)
        · exact g2
    | get k hl => exact ih
    | getAndRemove k m d r hl hg =>
      unfold Cfg.shard at *
      obtain ⟨m', d', -, e1, sub', -⟩ := rem_spec (hinv.nd (k % c.n)) k
      rw [hg] at e1
      simp only [Prod.mk.injEq] at e1
      obtain ⟨rfl, rfl, rfl⟩ := e1
      intro k' v' hk'
      simp only [Spec.last] at hk'
      simp only [upd]
      split at hk'
      · cases hk'
      · next e =>
        obtain ⟨g1, g2⟩ := ih k' v' hk'
        refine ⟨g1, ?_⟩
        split
        · next e2 => exact (sub' _).2 ⟨by rw [← e2]; exact g2, fun e' => e e'.symm⟩
        · exact g2
    | remove k m d hl hg =>
      unfold Cfg.shard at *
      obtain ⟨m', d', e1, -, sub', -⟩ := rem_spec (hinv.nd (k % c.n)) k
      rw [hg] at e1
      simp only [Prod.mk.injEq] at e1
      obtain ⟨rfl, rfl⟩ := e1
      intro k' v' hk'
      simp only [Spec.last] at hk'
      simp only [upd]
      split at hk'
      · cases hk'
      · next e =>
        obtain ⟨g1, g2⟩ := ih k' v' hk'
        refine ⟨g1, ?_⟩
        split
        · next e2 => exact (sub' _).2 ⟨by rw [← e2]; exact g2, fun e' => e e'.symm⟩
        · exact g2
    | addSize i d hi hl => exact ih
    | size => exact ih
    | pBegin hp => exact ih
    | pCount i acc hp hi hl => exact ih
    | pEmpty hp => exact ih
    | pStart acc hp ha => exact ih
    | pCopy i room out order hp hi hr hl ho => exact ih
    | pEnd i room out hp hi => exact ih

/-- **Exact while it fits**: if the hashes that are given times fit the limit, shard by shard, what is read is exact. -/
theorem reads_exact {c : Cfg} (hn : 0 < c.n) {S : List Nat} (hS : Fits c S) {base : Nat → Option Nat} (hbase : ∀ k v, base k = some v → k ∈ S)
    {tr : List Ev} (ht : ∀ k v, Ev.set k v ∈ tr → k ∈ S) {s : St} {k : Nat} {r : Option Nat}
    (h : Reach c base (.get k r :: tr) s ∨ Reach c base (.getAndRemove k r :: tr) s) : r = Spec.last base tr k := by
  have key : ∀ s0, Reach c base tr s0 → r = (s0.sh (c.shard k)).lookup k → r = Spec.last base tr k := by
    intro s0 h0 hr
    have hi := reach_inv hn h0
    have hk := kept hn hS hbase h0 ht k
    unfold Cfg.shard at hr
    cases hv : Spec.last base tr k with
    | some v => rw [hr]; exact (lookup_mem (hi.nd _)).2 (hk v hv).2
    | none =>
      rw [hr, lookup_none (hi.nd _)]
      intro v h1
      rw [hi.val k v h1] at hv; cases hv
  rcases h with h | h
  · cases h with
    | step h0 hs => cases hs with
      | get k hl => exact key _ h0 rfl
  · cases h with
    | step h0 hs => cases hs with
      | getAndRemove k m d r hl hg =>
        refine key _ h0 ?_
        have := gar_res hg
        exact this

/-- **No undefined step**: `set` never erases the end of a map, in whatever order it is iterated. -/
theorem set_defined {c : Cfg} (hn : 0 < c.n) {base : Nat → Option Nat} {tr : List Ev} {s : St} (h : Reach c base tr s) (k v : Nat) {order : M}
    (ho : order.Perm (put (s.sh (c.shard k)) k v)) : c.set (s.sh (c.shard k)) k v order ≠ none := by
  have hi := reach_inv hn h
  obtain ⟨m', d', e1, -⟩ := set_spec c (hi.nd (c.shard k)) (fun hc => (hi.bound hc _).2) ho
  rw [e1]; simp

/-! ### size() -/

theorem total_add (n : Nat) (f g : Nat → Nat) : total n (fun i => f i + g i) = total n f + total n g := by
  induction n with
  | zero => rfl
  | succ n ih => rw [total_succ, total_succ, total_succ, ih]; omega

theorem total_mono {n : Nat} {f g : Nat → Nat} (h : ∀ i, i < n → f i ≤ g i) : total n f ≤ total n g := by
  induction n with
  | zero => exact Nat.le_refl _
  | succ n ih =>
    have := ih fun i hi => h i (by omega)
    have := h n (by omega)
    rw [total_succ, total_succ]; omega

/-- The hashes of the first `n` shards. -/
def keysOf (sh : Nat → M) (n : Nat) : List Nat := (List.range n).flatMap fun i => (sh i).map (·.1)

theorem keysOf_succ (sh : Nat → M) (n : Nat) : keysOf sh (n + 1) = keysOf sh n ++ (sh n).map (·.1) := by
  simp [keysOf, List.range_succ]

theorem keysOf_spec {c : Cfg} {base : Nat → Option Nat} {tr : List Ev} {s : St} (h : Inv c base tr s) (n : Nat) :
    (keysOf s.sh n).Nodup ∧ (keysOf s.sh n).length = (total n fun i => (s.sh i).length) ∧
      ∀ k, k ∈ keysOf s.sh n ↔ k % c.n < n ∧ ((s.sh (k % c.n)).lookup k).isSome := by
  have mem : ∀ i k, k ∈ (s.sh i).map (·.1) ↔ k % c.n = i ∧ ((s.sh (k % c.n)).lookup k).isSome := by
    intro i k
    rw [List.mem_map, Option.isSome_iff_exists]
    constructor
    · rintro ⟨⟨k, v⟩, h1, rfl⟩
      have hc := h.cls i k v h1
      refine ⟨hc, v, ?_⟩
      simp only
      rw [hc, lookup_mem (h.nd i)]; exact h1
    · rintro ⟨h1, v, h2⟩
      rw [lookup_mem (h.nd _), h1] at h2
      exact ⟨(k, v), h2, rfl⟩
  induction n with
  | zero => simp [keysOf, total]
  | succ n ih =>
    obtain ⟨h1, h2, h3⟩ := ih
    rw [keysOf_succ, total_succ]
    refine ⟨?_, by rw [List.length_append, h2, List.length_map], fun k => ?_⟩
    · rw [List.nodup_append]
      refine ⟨h1, h.nd n, ?_⟩
      rintro x hx y hy rfl
      have g1 := ((h3 x).1 hx).1
      have g2 := ((mem n x).1 hy).1
      omega
    · rw [List.mem_append, h3, mem]
      constructor
      · rintro (g | g)
        · exact ⟨by omega, g.2⟩
        · exact ⟨by omega, g.2⟩
      · rintro ⟨g1, g2⟩
        by_cases e : k % c.n = n
        · exact .inr ⟨e, g2⟩
        · exact .inl ⟨by omega, g2⟩

/-- **The limit holds at every moment**: size() never reports `maxSize + numShards` or more, and never wraps below 0. -/
theorem size_limited {c : Cfg} (hn : 0 < c.n) (hm : 0 < c.maxSize) {base : Nat → Option Nat} {tr : List Ev} {s : St} {n : Nat}
    (h : Reach c base (.size n :: tr) s) : n < c.maxSize + c.n := by
  cases h with
  | step h0 hs => cases hs with
    | size =>
      have hi := reach_inv hn h0
      have hl := limit c hn hm
      unfold Spec.Limit at hl
      have hc : 0 < c.cap := by
        rcases Nat.eq_zero_or_pos c.cap with e | e
        · rw [e] at hl; omega
        · exact e
      rw [hi.size]
      have := total_le (n := c.n) (b := c.cap) (f := fun i => counted (s.sh i) (s.lk i)) fun i _ => (hi.bound hc i).1
      omega

/-- **size() is exact** but for calls in progress: it differs from the number of hashes that have a time by at most the number of shards
that are locked by calls that have changed them. -/
theorem size_exact {c : Cfg} (hn : 0 < c.n) {base : Nat → Option Nat} {tr : List Ev} {s : St} (h : Reach c base tr s) :
    ∃ L : List Nat, L.Nodup ∧ (∀ k, k ∈ L ↔ ((s.sh (k % c.n)).lookup k).isSome) ∧
      s.size ≤ L.length + ((List.range c.n).filter fun i => (s.lk i).isSome).length ∧
      L.length ≤ s.size + ((List.range c.n).filter fun i => (s.lk i).isSome).length := by
  have hi := reach_inv hn h
  obtain ⟨h1, h2, h3⟩ := keysOf_spec hi c.n
  refine ⟨keysOf s.sh c.n, h1, fun k => ?_, ?_⟩
  · rw [h3]
    exact ⟨fun g => g.2, fun g => ⟨Nat.mod_lt _ hn, g⟩⟩
  · have hf : ((List.range c.n).filter fun i => (s.lk i).isSome).length = total c.n fun i => if (s.lk i).isSome then 1 else 0 := by
      generalize c.n = n
      induction n with
      | zero => rfl
      | succ n ih =>
        rw [List.range_succ, List.filter_append, List.length_append, ih, total_succ]
        cases e : s.lk n <;> simp [e]
    rw [hf, h2, hi.size, ← total_add, ← total_add]
    constructor
    · refine total_mono fun i _ => ?_
      cases e : s.lk i with
      | none => simp [counted]
      | some b => cases b <;> simp [counted]; omega
    · refine total_mono fun i _ => ?_
      cases e : s.lk i with
      | none => simp [counted]
      | some b => cases b <;> simp [counted] <;> omega

/-! ### persist -/

/-- **Never past the end of the segment**, whatever is added while it is copied. -/
theorem persist_in_bounds {c : Cfg} (hn : 0 < c.n) {base : Nat → Option Nat} {tr : List Ev} {s : St} (h : Reach c base tr s) {i room : Nat} {out : M}
    (hp : s.pers = some (.copying i room out)) : out.length ≤ room := by
  have := (reach_inv hn h).pers
  unfold PInv at this
  rw [hp] at this
  exact this.2.1

/-- **What is saved**: at most one time per hash, each of which was current at some moment during the call. -/
theorem persist_sound {c : Cfg} (hn : 0 < c.n) {base : Nat → Option Nat} {tr : List Ev} {s : St} {out : M}
    (h : Reach c base (.pEnd (some out) :: tr) s) : (out.map (·.1)).Nodup ∧ ∀ k v, (k, v) ∈ out → Spec.During base tr k v := by
  cases h with
  | step h0 hs => cases hs with
    | pEnd i room out hp hi =>
      have := (reach_inv hn h0).pers
      unfold PInv at this
      rw [hp] at this
      exact ⟨this.2.2.1, fun k v hk => (this.2.2.2.1 k v hk).2⟩

theorem total_split {n i j : Nat} (hi : i ≤ j) (hj : j < n) (f : Nat → Nat) : total i f + f j ≤ total n f := by
  induction n with
  | zero => omega
  | succ n ih =>
    rw [total_succ]
    by_cases e : j = n
    · subst e
      have : total i f ≤ total j f := by
        clear ih hj
        induction j with
        | zero => have : i = 0 := by omega
                  subst this; exact Nat.le_refl _
        | succ j ih2 =>
          by_cases e : i = j + 1
          · subst e; exact Nat.le_refl _
          · have := ih2 (by omega)
            rw [total_succ]; omega
      omega
    · have := ih (by omega); omega

/-- **Everything is saved** if nothing changes during the call. -/
theorem persist_complete {c : Cfg} (hn : 0 < c.n) {base : Nat → Option Nat} {tr : List Ev} {s : St} {img : Option M}
    (h : Reach c base (.pEnd img :: tr) s) (hq : Spec.Quiet tr) (k v : Nat) :
    (k, v) ∈ img.getD [] ↔ (s.sh (k % c.n)).lookup k = some v := by
  cases h with
  | @step _ _ s0 _ _ h0 hs =>
    have hinv := reach_inv hn h0
    have hpers := hinv.pers
    unfold PInv at hpers
    have hlt : k % c.n < c.n := Nat.mod_lt _ hn
    cases hs with
    | pEmpty hp =>
      rw [hp] at hpers
      have hz := hpers.2.1 hq
      have h1 := total_ge hlt (fun j => (s0.sh j).length)
      rw [← hz] at h1
      have h2 : s0.sh (k % c.n) = [] := List.eq_nil_of_length_eq_zero (by simpa using h1)
      simp [h2]
    | pEnd i room out hp hi =>
      rw [hp] at hpers
      obtain ⟨g1, g2, g3, g4, g5, -⟩ := hpers
      obtain ⟨q1, q2, q3, q4⟩ := g5 hq
      simp only [Option.getD_some]
      rw [lookup_mem (hinv.nd _)]
      constructor
      · exact q4 k v
      · intro hk
        by_cases e : k % c.n < i
        · exact q3 _ k v e hk
        · exfalso
          rcases hi with rfl | ⟨hi, hr⟩
          · omega
          · rw [q1, q2] at hr
            have hpos := List.length_pos_of_mem hk
            have := total_split (Nat.le_of_not_lt e) hlt fun j => (s0.sh j).length
            omega

/-! ### recover -/

/-- **What is restored**, by a map of any configuration from any segments: only what the segment holds, within the limit; everything if
the hashes are different and fit. -/
theorem recover_spec {c : Cfg} (hn : 0 < c.n) {h : Shm} {s : St} (hr : Recovers c St.new h s) :
    (∀ k v, (s.sh (k % c.n)).lookup k = some v → ∃ es, h.data = some es ∧ (k, v) ∈ es) ∧
    (0 < c.maxSize → s.size < c.maxSize + c.n) ∧
    (∀ es, h.info = some (1, es.length) → h.data = some es → (es.map (·.1)).Nodup → Fits c (es.map (·.1)) →
      ∀ k v, (s.sh (k % c.n)).lookup k = some v ↔ (k, v) ∈ es) := by
  have hinv := recovered_inv hn hr
  refine ⟨?_, ?_, ?_⟩
  · intro k v hk
    rw [lookup_mem (hinv.nd _)] at hk
    cases hr with
    | empty he => simp [St.new] at hk
    | entries es order he ho =>
      have hf := fill_spec c (order (k % c.n)) [] 0 (by simp [Nd]) (perm_nd (ho _) (group_spec c _ es).1) (by simp)
      simp only [St.new, Nat.mod_lt _ hn, if_true] at hk
      rw [hf.2.2.2] at hk
      rcases hk with hk | hk
      · cases hk
      · have h1 := ((group_spec c _ es).2.1 _ ((ho _).subset (List.mem_of_mem_take hk))).1
        unfold Shm.entries at he
        split at he
        · cases he
        · split at he
          · cases he
          · split at he
            · cases he
            · split at he
              · cases he
              · next es' hd =>
                split at he
                · cases he
                · cases he
                  exact ⟨es', hd, List.mem_of_mem_take h1⟩
  · intro hm
    have hl := limit c hn hm
    unfold Spec.Limit at hl
    have hc : 0 < c.cap := by
      rcases Nat.eq_zero_or_pos c.cap with e | e
      · rw [e] at hl; omega
      · exact e
    rw [hinv.size]
    have := total_le (n := c.n) (b := c.cap) (f := fun i => counted (s.sh i) (s.lk i)) fun i _ => (hinv.bound hc i).1
    omega
  · intro es hi hd hnd hfit k v
    rw [lookup_mem (hinv.nd _)]
    by_cases hz : es.length = 0
    · have he : h.entries = none := by unfold Shm.entries; rw [hi]; simp [hz]
      have : es = [] := List.eq_nil_of_length_eq_zero hz
      subst this
      cases hr with
      | empty _ => simp [St.new]
      | entries es order he' ho => rw [he] at he'; cases he'
    · have he : h.entries = some es := by unfold Shm.entries; rw [hi, hd]; simp [hz]
      cases hr with
      | empty he' => rw [he] at he'; cases he'
      | entries es' order he' ho =>
        rw [he] at he'; cases he'
        obtain ⟨g1, g2, g3⟩ := group_spec c (k % c.n) es
        have hf := fill_spec c (order (k % c.n)) [] 0 (by simp [Nd]) (perm_nd (ho _) g1) (by simp)
        simp only [St.new, Nat.mod_lt _ hn, if_true]
        rw [hf.2.2.2]
        have hall : c.used [] (order (k % c.n)) = (order (k % c.n)).length := by
          unfold Cfg.used
          split
          · rfl
          · next hc =>
            have hle := hfit.le hn (k % c.n) (by omega)
            have hsub : (order (k % c.n)).map (·.1) ⊆ (es.map (·.1)).filter fun x => x % c.n = k % c.n := by
              intro x hx
              rw [List.mem_map] at hx
              obtain ⟨e, h1, rfl⟩ := hx
              have := g2 _ ((ho _).subset h1)
              rw [List.mem_filter]
              exact ⟨List.mem_map_of_mem (f := (·.1)) this.1, by simpa [Cfg.shard] using this.2⟩
            have := (List.subperm_of_subset (perm_nd (ho _) g1) hsub).length_le
            rw [List.length_map] at this
            simp only [List.length_nil]; omega
        rw [hall, List.take_length]
        constructor
        · rintro (h1 | h1)
          · cases h1
          · exact (g2 _ ((ho _).subset h1)).1
        · intro h1
          exact .inr ((ho _).symm.subset (g3 hnd _ h1 rfl))

/-- **Across a restart**: whatever ran while the map was saved, and whatever the numbers of shards and the limits before and after, a time
that is restored was current at some moment during the call of persist. -/
theorem restart_sound {c c' : Cfg} (hn : 0 < c.n) (hn' : 0 < c'.n) {base : Nat → Option Nat} {tr : List Ev} {s s' : St} {img : Option M}
    (h : Reach c base (.pEnd img :: tr) s) (hr : Recovers c' St.new (Shm.ofImg img) s') {k v : Nat}
    (hk : (s'.sh (k % c'.n)).lookup k = some v) : Spec.During base tr k v := by
  obtain ⟨es, h1, h2⟩ := (recover_spec hn' hr).1 k v hk
  cases img with
  | none => cases h1
  | some out =>
    cases h1
    exact (persist_sound hn h).2 k v h2

/-- **Nothing is lost or changed in a restart** if nothing changes while the map is saved and what it holds fits the new limit. -/
theorem restart_exact {c c' : Cfg} (hn : 0 < c.n) (hn' : 0 < c'.n) {base : Nat → Option Nat} {tr : List Ev} {s s' : St} {img : Option M}
    (h : Reach c base (.pEnd img :: tr) s) (hq : Spec.Quiet tr) (hr : Recovers c' St.new (Shm.ofImg img) s')
    (hfit : Fits c' ((img.getD []).map (·.1))) (k : Nat) : (s'.sh (k % c'.n)).lookup k = (s.sh (k % c.n)).lookup k := by
  have key : ∀ v, (s'.sh (k % c'.n)).lookup k = some v ↔ (s.sh (k % c.n)).lookup k = some v := by
    intro v
    rw [← persist_complete hn h hq]
    cases img with
    | none =>
      simp only [Option.getD_none, List.not_mem_nil, iff_false]
      intro hk
      obtain ⟨es, h1, h2⟩ := (recover_spec hn' hr).1 k v hk
      cases h1
    | some out => exact (recover_spec hn' hr).2.2 out rfl rfl (persist_sound hn h).1 hfit k v
  cases e : (s.sh (k % c.n)).lookup k with
  | some v => exact (key v).2 e
  | none =>
    cases e' : (s'.sh (k % c'.n)).lookup k with
    | none => rfl
    | some v => rw [(key v).1 e'] at e; cases e

/-- **Only once**: after recover, another recover (after a crash, say) finds nothing. -/
theorem recover_once {c c' : Cfg} {h : Shm} {s s' : St} (_ : Recovers c St.new h s) (hr : Recovers c' St.new h.afterRecover s') : s' = St.new := by
  cases hr with
  | empty he => rfl
  | entries es order he ho =>
    exfalso
    unfold Shm.afterRecover Shm.entries at he
    cases hi : h.info with
    | none => rw [hi] at he; simp [hi] at he
    | some x => rw [hi] at he; simp at he

end Verif.Atm
