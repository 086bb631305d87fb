import Verif.NvmIndex.FixedInv
/-
C25 for FixedSizeIndex: the index is a map from (bucket, eight more bits of the hash) to records that may forget a record, but
only when an insertion finds its four slots taken by other keys of the shard.
-/
namespace Verif.NvmIndex.Fixed
open Verif

/-! ### Specification -/

/-- What of a hash the index distinguishes. -/
abbrev Key := Nat × Nat

/-- The index as a map; `View` is what lookups return: address, size and hits. -/
abbrev M := Key → Option View
def M.set (m : M) (k : Key) (r : Option View) : M := fun k' => if k' = k then r else m k'

/-- Key `v` may be forgotten for key `k`: `k` has no record, and `v` is one of four other keys of the shard which have. -/
def Crowded (shard : Key → Nat) (m : M) (k v : Key) : Prop :=
  m k = none ∧ ∃ l : List Key, l.Nodup ∧ l.length = 4 ∧ v ∈ l ∧ ∀ x ∈ l, x ≠ k ∧ shard x = shard k ∧ m x ≠ none

/-- One more hit, at most 3. -/
def View.hit (r : View) : View := ⟨r.addr, r.size, if r.hits < 3 then r.hits + 1 else 3⟩

/-- What an operation may do to the map and answer.  `key` gives the key of a hash, `rd` the rounded size of a size. -/
def Spec (key : Nat → Key) (shard : Key → Nat) (rd : Nat → Nat) (m : M) (o : Op) (m' : M) (res : Res) : Prop :=
  match o with
  | .lookup h => m' = m.set (key h) ((m (key h)).map View.hit) ∧ res = .entry ((m (key h)).map View.hit)
  | .peek h => m' = m ∧ res = .entry (m (key h))
  | .insert h a z =>
    (m' = m.set (key h) (some ⟨a, rd z, 0⟩) ∧ res = .entry (m (key h))) ∨
    ∃ v, Crowded shard m (key h) v ∧ m' = (m.set v none).set (key h) (some ⟨a, rd z, 0⟩) ∧ res = .entry (m v)
  | .insertNE h a z =>
    (m' = m.set (key h) ((m (key h)).or (some ⟨a, rd z, 0⟩)) ∧ res = .entry (m (key h))) ∨
    ∃ v, Crowded shard m (key h) v ∧ m' = m ∧ res = .entry (m v)
  | .replace h a o =>
    (∃ r, m (key h) = some r ∧ r.addr = o ∧ m' = m.set (key h) (some ⟨a, r.size, 0⟩) ∧ res = .ok true) ∨
    ((m (key h)).map (·.addr) ≠ some o ∧ m' = m ∧ res = .ok false)
  | .remove h => m' = m.set (key h) none ∧ res = .entry (m (key h))
  | .removeMatch h a =>
    ((m (key h)).map (·.addr) = some a ∧ m' = m.set (key h) none ∧ res = .ok true) ∨
    ((m (key h)).map (·.addr) ≠ some a ∧ m' = m ∧ res = .ok false)
  | .reset => m' = (fun _ => none) ∧ res = .ok true

/-- A history of the map. -/
inductive Runs (key : Nat → Key) (shard : Key → Nat) (rd : Nat → Nat) : M → List Op → M → List Res → Prop
  | nil (m : M) : Runs key shard rd m [] m []
  | cons {m m' m'' : M} {o : Op} {os : List Op} {x : Res} {xs : List Res} :
      Spec key shard rd m o m' x → Runs key shard rd m' os m'' xs → Runs key shard rd m (o :: os) m'' (x :: xs)

/-- What callers must keep to: addresses that are not 0, sizes of 16 bits. -/
def Op.Legal : Op → Prop
  | .insert _ a z => a ≠ 0 ∧ z < 65536
  | .insertNE _ a z => a ≠ 0 ∧ z < 65536
  | .replace _ a _ => a ≠ 0
  | _ => True

/-! ### Refinement -/

/-- The map the index stands for. -/
def St.abs (c : Cfg) (s : St) : M := fun k => (s.get c k).map PRec.view

abbrev keyOf (c : Cfg) (h : Nat) : Key := (c.bucketId h, partialBits h)
def rounded (z : Nat) : Nat := sizeExpToHint (sizeHintToExp z)

theorem bucketId_lt {c : Cfg} (hc : c.Good) (h : Nat) : c.bucketId h < c.total := Nat.mod_lt _ hc.pos

theorem make_valid {a z : Nat} (ha : a ≠ 0) : (PRec.make a z).valid := by simp [PRec.make, PRec.valid, ha]

theorem make_plain {a z : Nat} (hz : z < 65536) : (PRec.make a z).combined = false := by
  have := (exp_spec hz).1
  simp only [PRec.make, PRec.combined, beq_eq_false_iff_ne, ne_eq]
  omega

theorem put_eq {c : Cfg} {s : St} {h i : Nat} {r : PRec} (hr : r.combined = false) :
    s.put c h i (!(s.ht (c.slot (c.bucketId h) i)).valid) r =
      place c s (c.bucketId h) i (partialBits h) r
        (if (s.ht (c.slot (c.bucketId h) i)).valid then s.cnt
         else upd s.cnt (c.shard (c.bucketId h)) (s.cnt (c.shard (c.bucketId h)) + 1)) := by
  unfold St.put place
  simp only [hr, Bool.false_eq_true, if_false]
  cases (s.ht (c.slot (c.bucketId h) i)).valid <;> rfl

theorem decide_spec {c : Cfg} {s : St} (hc : c.Good) (h : Inv c s) {b p : Nat} (hb : b < c.total) :
    let d := s.decideSlot c b p
    Inv c d.1 ∧ (∀ k, d.1.get c k = s.get c k) ∧ d.2 < 4 ∧
    (At c d.1 (b, p) (c.slot b d.2) ∨
     ((∀ q, ¬ At c d.1 (b, p) q) ∧ (d.1.ht (c.slot b d.2)).valid = false) ∨
     ((∀ q, ¬ At c d.1 (b, p) q) ∧ (∀ i < 4, (d.1.ht (c.slot b i)).valid))) := by
  simp only
  unfold St.decideSlot
  cases hch : s.check c b p with
  | some i =>
    obtain ⟨h1, h2, _⟩ := check_some hc h hb hch
    exact ⟨h, fun _ => rfl, h1, Or.inl h2⟩
  | none =>
    obtain ⟨m1, m2, m3, m4⟩ := makeEmpty_spec hc h hb [0, 1, 2, 3] (by simp)
    have hno : ∀ q, ¬ At c (s.makeEmpty c b [0, 1, 2, 3]).1 (b, p) q := by
      rw [← get_none hc m1, m2, get_none hc h]
      exact check_none hc h hb hch
    refine ⟨m1, m2, ?_⟩
    cases hm : (s.makeEmpty c b [0, 1, 2, 3]).2 with
    | some i => exact ⟨(m3 i hm).1, Or.inr (Or.inl ⟨hno, (m3 i hm).2⟩)⟩
    | none =>
      refine ⟨by simp, Or.inr (Or.inr ⟨hno, fun i hi => ?_⟩)⟩
      obtain ⟨e1, e2⟩ := m4 hm
      simp only [Option.getD_none]
      rw [e1]
      exact e2 i (by simp; omega)

theorem crowded {c : Cfg} {s : St} (hc : c.Good) (h : Inv c s) {b p : Nat} (hb : b < c.total) (hno : ∀ q, ¬ At c s (b, p) q)
    (hv : ∀ i < 4, (s.ht (c.slot b i)).valid) :
    ∀ i < 4, Crowded (fun k => k.1 / c.n) (s.abs c) (b, p) (keyAt c s (c.slot b i)) := by
  intro i0 hi0
  have hat : ∀ i < 4, At c s (keyAt c s (c.slot b i)) (c.slot b i) := fun i hi => ⟨slot_lt hc hb i, hv i hi, rfl⟩
  refine ⟨by simp only [St.abs, (get_none hc h).2 hno, Option.map_none], [0, 1, 2, 3].map (fun i => keyAt c s (c.slot b i)), ?_, rfl, ?_, ?_⟩
  · apply List.Nodup.map_on ?_ (by decide)
    intro x hx y hy hxy
    have hx4 : x < 4 := by simp at hx; omega
    have hy4 : y < 4 := by simp at hy; omega
    have h1 := hat x hx4
    rw [hxy] at h1
    exact slot_inj hc.big hx4 hy4 (h.uniq _ _ _ h1 (hat y hy4))
  · exact List.mem_map.2 ⟨i0, by simp; omega, rfl⟩
  · intro k hk
    obtain ⟨i, hi, rfl⟩ := List.mem_map.1 hk
    have hi4 : i < 4 := by simp at hi; omega
    refine ⟨?_, ?_, ?_⟩
    · intro he
      have := hat i hi4
      rw [he] at this
      exact hno _ this
    · have h1 := (hat i hi4).shard hc
      rw [slot_shard hc.big] at h1
      exact h1.symm
    · simp only [St.abs, (get_some hc h).2 ⟨_, hat i hi4, rfl⟩]
      simp

theorem abs_get {c : Cfg} {s s' : St} (h : ∀ k, s'.get c k = s.get c k) : s'.abs c = s.abs c := by
  funext k; simp only [St.abs, h]

theorem seen_valid {r : PRec} (h : r.valid) : seen r = some r.view := by simp [seen, h]
theorem seen_invalid {r : PRec} (h : r.valid = false) : seen r = none := by simp [seen, h]

theorem set_none {m : M} {k : Key} (h : m k = none) : m.set k none = m := by
  funext y; simp only [M.set]; split <;> simp_all

theorem hit_view (r : PRec) : r.bump.view = r.view.hit := by
  show View.mk _ _ (min (r.hits + 1) 3) = View.mk _ _ (if r.hits < 3 then r.hits + 1 else 3)
  congr 1

/-- The result of placing a new record where `decideSlot` says. -/
theorem put_refines {c : Cfg} {s : St} (hc : c.Good) (h : Inv c s) {x a z : Nat} (ha : a ≠ 0) (hz : z < 65536)
    (hno : ∀ q, q ≠ c.slot (c.bucketId x) (s.decideSlot c (c.bucketId x) (partialBits x)).2 →
      ¬ At c (s.decideSlot c (c.bucketId x) (partialBits x)).1 (keyOf c x) q) :
    let d := s.decideSlot c (c.bucketId x) (partialBits x)
    let s' := d.1.put c x d.2 (!(d.1.ht (c.slot (c.bucketId x) d.2)).valid) (PRec.make a z)
    Inv c s' ∧ s'.abs c = fun k => if k = keyOf c x then some ⟨a, rounded z, 0⟩
      else if (d.1.ht (c.slot (c.bucketId x) d.2)).valid ∧ keyAt c d.1 (c.slot (c.bucketId x) d.2) = k then none else s.abs c k := by
  intro d s'
  have hb := bucketId_lt hc x
  obtain ⟨d1, d2, d3, _⟩ := decide_spec hc h (p := partialBits x) hb
  have e : s' = _ := put_eq (c := c) (s := d.1) (h := x) (i := d.2) (make_plain (a := a) hz)
  rw [e]
  refine ⟨place_inv hc d1 hb d3 (make_valid ha) (make_plain hz) hno, ?_⟩
  funext k
  unfold St.abs
  rw [place_get hc d1 hb d3 (make_valid ha) (make_plain hz) hno]
  by_cases hk : k = keyOf c x
  · rw [if_pos hk, if_pos hk]; rfl
  · rw [if_neg hk, if_neg hk]
    show _ = if (d.1.ht (c.slot (c.bucketId x) d.2)).valid ∧ keyAt c d.1 (c.slot (c.bucketId x) d.2) = k then none else _
    by_cases hv : (d.1.ht (c.slot (c.bucketId x) d.2)).valid ∧ keyAt c d.1 (c.slot (c.bucketId x) d.2) = k
    · rw [if_pos hv, if_pos hv]; rfl
    · rw [if_neg hv, if_neg hv, d2]

theorem bump_plain {r : PRec} (h : r.combined = false) : r.bump.combined = false := h
theorem bump_valid {r : PRec} (h : r.valid) : r.bump.valid := h

theorem at_of_get {c : Cfg} {s : St} (hc : c.Good) (h : Inv c s) (x : Nat) {i : Nat}
    (hi : s.check c (c.bucketId x) (partialBits x) = some i) :
    At c s (keyOf c x) (c.slot (c.bucketId x) i) ∧ s.abs c (keyOf c x) = some (s.ht (c.slot (c.bucketId x) i)).view := by
  have h1 := (check_some hc h (bucketId_lt hc x) hi).2.1
  exact ⟨h1, by simp only [St.abs, (get_some hc h).2 ⟨_, h1, rfl⟩, Option.map_some]⟩

theorem none_of_get {c : Cfg} {s : St} (hc : c.Good) (h : Inv c s) (x : Nat)
    (hi : s.check c (c.bucketId x) (partialBits x) = none) : s.abs c (keyOf c x) = none := by
  simp only [St.abs, (get_none hc h).2 (check_none hc h (bucketId_lt hc x) hi), Option.map_none]

theorem abs_set {c : Cfg} {s : St} (hc : c.Good) (h : Inv c s) {k : Key} {d : Nat} {r : PRec} (hr : r.valid)
    (hp : r.combined = false) (hd : At c s k d) : (s.setRec d r).abs c = (s.abs c).set k (some r.view) := by
  funext k'
  simp only [St.abs, set_get hc h hr hp hd, M.set]
  split <;> rfl

theorem drop_refines {c : Cfg} {s : St} (hc : c.Good) (h : Inv c s) {x i : Nat} (hi : At c s (keyOf c x) (c.slot (c.bucketId x) i)) :
    Inv c (s.drop c x i) ∧ (s.drop c x i).abs c = (s.abs c).set (keyOf c x) none := by
  have e : s.drop c x i = { s with
      ht := upd s.ht (c.slot (c.bucketId x) i) PRec.empty
      cnt := upd s.cnt (c.shard (c.slot (c.bucketId x) i)) (s.cnt (c.shard (c.slot (c.bucketId x) i)) - 1) } := by
    unfold St.drop; rw [slot_shard hc.big]
  rw [e]
  refine ⟨clear_inv hc h hi.1 hi.2.1, ?_⟩
  funext k
  simp only [St.abs, clear_get hc h hi, M.set]
  split <;> rfl

theorem reset_refines {c : Cfg} {s : St} (hc : c.Good) : Inv c (s.reset c) ∧ (s.reset c).abs c = fun _ => none := by
  have hn := hc.big
  have hp := hc.pos
  obtain ⟨m, hm⟩ := hc.dvd
  have hsh : c.shards = m := by
    unfold Cfg.shards
    rw [hm] at hp ⊢
    have hm0 : 0 < m := Nat.pos_of_mul_pos_left hp
    obtain ⟨m', rfl⟩ : ∃ m', m = m' + 1 := ⟨m - 1, by omega⟩
    rw [Nat.mul_add, Nat.mul_one, Nat.add_sub_assoc (by omega), Nat.mul_add_div (by omega), Nat.div_eq_of_lt (by omega)]
  have htot : c.shards * c.n = c.total := by rw [hsh, hm, Nat.mul_comm]
  have hz : ∀ q < c.total, (s.reset c).ht q = PRec.empty := by
    intro q hq
    simp only [St.reset, htot, if_pos hq]
  have hno : ∀ k q, ¬ At c (s.reset c) k q := by
    rintro k q ⟨h1, h2, _⟩
    rw [hz q h1] at h2
    simp [PRec.empty, PRec.valid] at h2
  have hI : Inv c (s.reset c) := by
    refine ⟨fun k q q' h1 => absurd h1 (hno k q), fun q hq => by rw [hz q hq]; rfl, ?_⟩
    intro i hi
    have him : i < m := by rwa [hm, Nat.mul_div_cancel_left _ (by omega)] at hi
    have : (s.reset c).cnt i = 0 := by simp only [St.reset, hsh, if_pos him]
    rw [this]
    symm
    unfold held
    rw [List.countP_eq_zero]
    intro j hj
    have : i * c.n + j < c.total := by
      rw [hm, Nat.mul_comm c.n m]
      have := Nat.mul_le_mul_right c.n (show i + 1 ≤ m from him)
      rw [Nat.add_mul] at this
      have := List.mem_range.1 hj
      omega
    simp only [St.vf, hz _ this]
    decide
  refine ⟨hI, ?_⟩
  funext k
  simp only [St.abs, (get_none hc hI).2 (hno k), Option.map_none]

/-- An operation does to the map what the specification allows. -/
theorem step_refines {c : Cfg} {s : St} (hc : c.Good) (h : Inv c s) (o : Op) (ho : o.Legal) :
    Inv c (s.step c o).1 ∧ Spec (keyOf c) (fun k => k.1 / c.n) rounded (s.abs c) o ((s.step c o).1.abs c) (s.step c o).2 := by
  cases o with
  | lookup x =>
    simp only [St.step, Spec, St.lookup]
    cases hi : s.check c (c.bucketId x) (partialBits x) with
    | none =>
      have := none_of_get hc h x hi
      simp only [this, Option.map_none, set_none this, and_self, and_true]
      exact h
    | some i =>
      obtain ⟨h1, h2⟩ := at_of_get hc h x hi
      simp only [h1.2.1, if_true, h2, Option.map_some]
      refine ⟨set_inv h (bump_valid h1.2.1) (bump_plain (h.plain _ h1.1)) h1.2.1, ?_, by rw [hit_view]⟩
      rw [abs_set hc h (bump_valid h1.2.1) (bump_plain (h.plain _ h1.1)) h1, hit_view]
  | peek x =>
    simp only [St.step, Spec, St.peek]
    cases hi : s.check c (c.bucketId x) (partialBits x) with
    | none => rw [none_of_get hc h x hi]; exact ⟨h, trivial, rfl⟩
    | some i =>
      obtain ⟨h1, h2⟩ := at_of_get hc h x hi
      simp only [h2, seen_valid h1.2.1]; exact ⟨h, trivial, trivial⟩
  | insert x a z =>
    simp only [St.step, Spec, St.insert]
    obtain ⟨ha, hz⟩ := ho
    have hb := bucketId_lt hc x
    obtain ⟨d1, d2, d3, d4⟩ := decide_spec hc h (p := partialBits x) hb
    have habs := abs_get d2
    have hput := put_refines hc h (x := x) ha hz
    generalize hd : s.decideSlot c (c.bucketId x) (partialBits x) = d at *
    rcases d4 with d4 | ⟨d4, d5⟩ | ⟨d4, d5⟩
    · obtain ⟨p1, p2⟩ := hput (fun q hq hAt => hq (d1.uniq _ _ _ hAt d4))
      refine ⟨p1, Or.inl ⟨?_, ?_⟩⟩
      · rw [p2]
        funext k
        simp only [M.set]
        by_cases hk : k = keyOf c x
        · simp [hk]
        · rw [if_neg hk, if_neg hk, if_neg]
          rintro ⟨_, h2⟩
          exact hk (by rw [← h2]; exact d4.2.2)
      · rw [← habs]
        simp only [seen_valid d4.2.1, St.abs]
        rw [(get_some hc d1).2 ⟨_, d4, rfl⟩]
        rfl
    · obtain ⟨p1, p2⟩ := hput (fun q _ => d4 q)
      refine ⟨p1, Or.inl ⟨?_, ?_⟩⟩
      · rw [p2]
        funext k
        simp only [M.set, d5, Bool.false_eq_true, false_and, if_false]
      · rw [← habs]
        simp only [seen_invalid d5, St.abs]
        rw [(get_none hc d1).2 d4]
        rfl
    · obtain ⟨p1, p2⟩ := hput (fun q _ => d4 q)
      have hat : At c d.1 (keyAt c d.1 (c.slot (c.bucketId x) d.2)) (c.slot (c.bucketId x) d.2) := ⟨slot_lt hc hb d.2, d5 d.2 d3, rfl⟩
      refine ⟨p1, Or.inr ⟨keyAt c d.1 (c.slot (c.bucketId x) d.2), ?_, ?_, ?_⟩⟩
      · rw [← habs]; exact crowded hc d1 hb d4 d5 d.2 d3
      · rw [p2]
        funext k
        simp only [M.set, d5 d.2 d3, true_and]
        by_cases hk : k = keyOf c x
        · simp [hk]
        · rw [if_neg hk, if_neg hk]
          by_cases h2 : k = keyAt c d.1 (c.slot (c.bucketId x) d.2)
          · rw [if_pos h2, if_pos h2.symm]
          · rw [if_neg h2, if_neg (fun h => h2 h.symm)]
      · rw [← habs]
        simp only [seen_valid hat.2.1, St.abs]
        rw [(get_some hc d1).2 ⟨_, hat, rfl⟩]
        rfl
  | insertNE x a z =>
    simp only [St.step, Spec, St.insertIfNotExists]
    obtain ⟨ha, hz⟩ := ho
    have hb := bucketId_lt hc x
    obtain ⟨d1, d2, d3, d4⟩ := decide_spec hc h (p := partialBits x) hb
    have habs := abs_get d2
    have hput := put_refines hc h (x := x) ha hz
    generalize hd : s.decideSlot c (c.bucketId x) (partialBits x) = d at *
    rcases d4 with d4 | ⟨d4, d5⟩ | ⟨d4, d5⟩
    · have hg : s.abs c (keyOf c x) = some (d.1.ht (c.slot (c.bucketId x) d.2)).view := by
        rw [← habs]
        simp only [St.abs]
        rw [(get_some hc d1).2 ⟨_, d4, rfl⟩]
        rfl
      rw [if_pos d4.2.1]
      refine ⟨d1, Or.inl ⟨?_, by rw [hg, seen_valid d4.2.1]⟩⟩
      rw [habs, hg]
      funext k
      simp only [M.set, Option.some_or]
      split
      · rename_i hk; rw [hk, hg]
      · rfl
    · obtain ⟨p1, p2⟩ := hput (fun q _ => d4 q)
      have hg : s.abs c (keyOf c x) = none := by
        rw [← habs]
        simp only [St.abs]
        rw [(get_none hc d1).2 d4]
        rfl
      simp only [d5, Bool.not_false] at p1 p2
      rw [if_neg (by rw [d5]; simp)]
      refine ⟨p1, Or.inl ⟨?_, by rw [hg]⟩⟩
      rw [p2, hg]
      funext k
      simp only [M.set, Bool.false_eq_true, false_and, if_false, Option.none_or]
    · have hat : At c d.1 (keyAt c d.1 (c.slot (c.bucketId x) d.2)) (c.slot (c.bucketId x) d.2) := ⟨slot_lt hc hb d.2, d5 d.2 d3, rfl⟩
      rw [if_pos hat.2.1]
      refine ⟨d1, Or.inr ⟨keyAt c d.1 (c.slot (c.bucketId x) d.2), ?_, habs, ?_⟩⟩
      · rw [← habs]; exact crowded hc d1 hb d4 d5 d.2 d3
      · rw [← habs]
        simp only [seen_valid hat.2.1, St.abs]
        rw [(get_some hc d1).2 ⟨_, hat, rfl⟩]
        rfl
  | replace x a o =>
    simp only [St.step, Spec, St.replaceIfMatch]
    cases hi : s.check c (c.bucketId x) (partialBits x) with
    | none =>
      have := none_of_get hc h x hi
      exact ⟨h, Or.inr ⟨by simp [this], rfl, rfl⟩⟩
    | some i =>
      obtain ⟨h1, h2⟩ := at_of_get hc h x hi
      simp only [h1.2.1, true_and, h2]
      split
      · rename_i hadr
        have hv : PRec.valid { s.ht (c.slot (c.bucketId x) i) with addr := a, hits := 0 } := by
          simp only [PRec.valid, bne_iff_ne, ne_eq]; exact ho
        have hp : PRec.combined { s.ht (c.slot (c.bucketId x) i) with addr := a, hits := 0 } = false := h.plain _ h1.1
        refine ⟨set_inv h hv hp h1.2.1, Or.inl ⟨_, rfl, hadr, ?_, rfl⟩⟩
        rw [abs_set hc h hv hp h1]
        rfl
      · rename_i hadr
        exact ⟨h, Or.inr ⟨by simpa [PRec.view] using hadr, rfl, rfl⟩⟩
  | remove x =>
    simp only [St.step, Spec, St.remove]
    cases hi : s.check c (c.bucketId x) (partialBits x) with
    | none =>
      have := none_of_get hc h x hi
      exact ⟨h, by simp only [set_none this], by rw [this]⟩
    | some i =>
      obtain ⟨h1, h2⟩ := at_of_get hc h x hi
      obtain ⟨p1, p2⟩ := drop_refines hc h h1
      simp only [h1.2.1, if_true, h2, seen_valid h1.2.1]
      exact ⟨p1, p2, trivial⟩
  | removeMatch x a =>
    simp only [St.step, Spec, St.removeIfMatch]
    cases hi : s.check c (c.bucketId x) (partialBits x) with
    | none =>
      have := none_of_get hc h x hi
      exact ⟨h, Or.inr ⟨by simp [this], rfl, rfl⟩⟩
    | some i =>
      obtain ⟨h1, h2⟩ := at_of_get hc h x hi
      obtain ⟨p1, p2⟩ := drop_refines hc h h1
      simp only [h1.2.1, true_and, h2]
      split
      · rename_i hadr
        exact ⟨p1, Or.inl ⟨by simpa [PRec.view] using hadr, p2, rfl⟩⟩
      · rename_i hadr
        exact ⟨h, Or.inr ⟨by simpa [PRec.view] using hadr, rfl, rfl⟩⟩
  | reset =>
    obtain ⟨p1, p2⟩ := reset_refines (s := s) hc
    exact ⟨p1, p2, rfl⟩

theorem new_inv (c : Cfg) (hc : c.Good) : Inv c St.new ∧ St.new.abs c = fun _ => none := by
  have hv : ∀ q, (St.new.ht q).valid = false := fun _ => rfl
  have hno : ∀ k q, ¬ At c St.new k q := by rintro k q ⟨_, h2, _⟩; rw [hv] at h2; simp at h2
  have hI : Inv c St.new := by
    refine ⟨fun k q q' h1 => absurd h1 (hno k q), fun _ _ => rfl, ?_⟩
    intro i _
    symm
    show held c.n St.new.vf i = 0
    unfold held
    rw [List.countP_eq_zero]
    intro j _
    simp only [St.vf, hv]
    decide
  exact ⟨hI, by funext k; simp only [St.abs, (get_none hc hI).2 (hno k), Option.map_none]⟩

theorem run_refines {c : Cfg} (hc : c.Good) (os : List Op) (ho : ∀ o ∈ os, o.Legal) {s : St} (h : Inv c s) :
    Inv c (s.run c os).1 ∧
    Runs (keyOf c) (fun k => k.1 / c.n) rounded (s.abs c) os ((s.run c os).1.abs c) (s.run c os).2 := by
  induction os generalizing s with
  | nil => exact ⟨h, .nil _⟩
  | cons o os ih =>
    obtain ⟨h1, h2⟩ := step_refines hc h o (ho o (by simp))
    obtain ⟨i1, i2⟩ := ih (fun o ho' => ho o (by simp [ho'])) h1
    exact ⟨i1, .cons h2 i2⟩

/-- C25: in every history of a new index, every result is one the specification allows: that of a map from (bucket, eight bits
of the hash), which forgets a record only for an insertion that finds four other keys of the shard in its way. -/
theorem fixed_is_map {c : Cfg} (hc : c.Good) (os : List Op) (ho : ∀ o ∈ os, o.Legal) :
    ∃ m, Runs (keyOf c) (fun k => k.1 / c.n) rounded (fun _ => none) os m (St.new.run c os).2 := by
  obtain ⟨h1, h2⟩ := new_inv c hc
  have := (run_refines hc os ho h1).2
  rw [h2] at this
  exact ⟨_, this⟩

/-- C25: which hashes share a key: the bucket is computed from the hash and is in the table, the other part is its bits 40 to 47. -/
theorem keyOf_eq {c : Cfg} (hc : c.Good) (hp : c.pow ≤ 32) (hch : c.chunks < 2 ^ 32) (h : Nat) :
    ∃ o1 o2, o1 = rnd.getD (h / 2 ^ 48 % 64) 0 ∧ o2 = rnd.getD (h / 2 ^ 54 % 64) 0 * 2 ^ (h / 2 ^ 60 % 4) ∧
    keyOf c h = ((h / 2 ^ 32 % c.chunks * 2 ^ c.pow + h % 2 ^ c.pow + o1 + o2) % c.total, h / 2 ^ 40 % 256) ∧
    (keyOf c h).1 < c.total := by
  refine ⟨_, _, rfl, rfl, ?_, bucketId_lt hc h⟩
  have hr : ∀ i < 64, rnd.getD i 0 < 10000 := by decide
  have a1 : (h >>> 48) &&& 0x3F = h / 2 ^ 48 % 64 := by
    rw [show 0x3F = 2 ^ 6 - 1 by rfl, Nat.and_two_pow_sub_one_eq_mod, Nat.shiftRight_eq_div_pow]
  have a2 : (h >>> 54) &&& 0x3F = h / 2 ^ 54 % 64 := by
    rw [show 0x3F = 2 ^ 6 - 1 by rfl, Nat.and_two_pow_sub_one_eq_mod, Nat.shiftRight_eq_div_pow]
  have a3 : (h >>> 60) &&& 3 = h / 2 ^ 60 % 4 := by
    rw [show 3 = 2 ^ 2 - 1 by rfl, Nat.and_two_pow_sub_one_eq_mod, Nat.shiftRight_eq_div_pow]
  have a4 : (h >>> 40) &&& 0xff = h / 2 ^ 40 % 256 := by
    rw [show 0xff = 2 ^ 8 - 1 by rfl, Nat.and_two_pow_sub_one_eq_mod, Nat.shiftRight_eq_div_pow]
  unfold keyOf Cfg.bucketId partialBits
  rw [a1, a2, a3, a4, Nat.shiftLeft_eq, Nat.shiftLeft_eq, Nat.and_two_pow_sub_one_eq_mod, Nat.shiftRight_eq_div_pow]
  refine congrArg (fun y => (y % c.total, h / 2 ^ 40 % 256)) (Nat.mod_eq_of_lt ?_)
  have b1 := hr (h / 2 ^ 48 % 64) (Nat.mod_lt _ (by decide))
  have b2 := hr (h / 2 ^ 54 % 64) (Nat.mod_lt _ (by decide))
  have hch0 : 0 < c.chunks := by
    have := hc.pos; unfold Cfg.total at this; exact Nat.pos_of_mul_pos_right this
  have b3 : h / 2 ^ 32 % c.chunks + 1 ≤ c.chunks := Nat.mod_lt _ hch0
  have b4 : h % 2 ^ c.pow < 2 ^ c.pow := Nat.mod_lt _ (Nat.two_pow_pos _)
  have b5 : 2 ^ (h / 2 ^ 60 % 4) ≤ 2 ^ 3 := Nat.pow_le_pow_right (by decide) (by have := Nat.mod_lt (h / 2 ^ 60) (show 0 < 4 by decide); omega)
  have b6 := Nat.mul_le_mul (Nat.le_of_lt b2) b5
  have b7 := Nat.mul_le_mul_right (2 ^ c.pow) b3
  rw [Nat.add_mul, Nat.one_mul] at b7
  have b8 : c.chunks * 2 ^ c.pow ≤ 2 ^ 63 := hc.small
  generalize rnd.getD (h / 2 ^ 54 % 64) 0 * 2 ^ (h / 2 ^ 60 % 4) = y at *
  generalize rnd.getD (h / 2 ^ 48 % 64) 0 = z at *
  generalize h / 2 ^ 32 % c.chunks * 2 ^ c.pow = x at *
  generalize h % 2 ^ c.pow = w at *
  generalize c.chunks * 2 ^ c.pow = u at *
  omega

/-- C25: a lookup's size is at least the size given at the insertion and less than a fifth larger, for sizes up to 55 000 units
(of 512 bytes). -/
theorem rounded_bounds {z : Nat} (h0 : 0 < z) (hz : z ≤ 55000) : z ≤ rounded z ∧ 1000 * rounded z ≤ 1196 * z := by
  have p61 : 55000 * 1000 ^ 61 ≤ 1196 ^ 61 := by decide +kernel
  have q61 : 1196 ^ 61 < 65536 * 1000 ^ 61 := by decide +kernel
  obtain ⟨h1, h2, h3⟩ := exp_spec (hint := z) (by omega)
  have h61 : sizeHintToExp z ≤ 61 := by
    have : z * 1000 ^ 61 ≤ 1196 ^ 61 := Nat.le_trans (Nat.mul_le_mul_right _ hz) p61
    exact (expLoop_spec z (xp := 0) (fuel := 100) this (by omega) (by omega)).1
  generalize he : sizeHintToExp z = e at *
  have hlt : 1196 ^ e / 1000 ^ e < 65536 := by
    rw [Nat.div_lt_iff_lt_mul (Nat.pow_pos (by decide))]
    obtain ⟨d, hd⟩ : ∃ d, 61 = e + d := ⟨61 - e, by omega⟩
    rw [hd, Nat.pow_add, Nat.pow_add, ← Nat.mul_assoc] at q61
    have hle : 1000 ^ d ≤ 1196 ^ d := Nat.pow_le_pow_left (by decide) d
    have hp : 0 < 1000 ^ d := Nat.pow_pos (by decide)
    apply Nat.lt_of_mul_lt_mul_right (a := 1000 ^ d)
    exact Nat.lt_of_le_of_lt (Nat.mul_le_mul_left _ hle) q61
  have hr : rounded z = 1196 ^ e / 1000 ^ e := by
    unfold rounded sizeExpToHint
    rw [he, Nat.mod_eq_of_lt hlt]
  rw [hr]
  constructor
  · rw [Nat.le_div_iff_mul_le (Nat.pow_pos (by decide))]; exact h2
  · cases e with
    | zero => simp; omega
    | succ e =>
      have h4 := h3 e (by omega)
      have h5 : 1196 ^ (e + 1) / 1000 ^ (e + 1) * 1000 ^ (e + 1) ≤ 1196 ^ (e + 1) := Nat.div_mul_le_self _ _
      generalize 1196 ^ (e + 1) / 1000 ^ (e + 1) = g at *
      have hp : 0 < 1000 ^ e := Nat.pow_pos (by decide)
      apply Nat.le_of_mul_le_mul_right (c := 1000 ^ e) ?_ hp
      rw [Nat.pow_succ, Nat.pow_succ] at h5
      have h6 : 1196 ^ e * 1196 ≤ z * 1000 ^ e * 1196 := Nat.mul_le_mul_right _ (Nat.le_of_lt h4)
      calc 1000 * g * 1000 ^ e = g * (1000 ^ e * 1000) := by rw [Nat.mul_comm 1000 g, Nat.mul_assoc, Nat.mul_comm 1000]
        _ ≤ 1196 ^ e * 1196 := h5
        _ ≤ z * 1000 ^ e * 1196 := h6
        _ = 1196 * z * 1000 ^ e := by rw [Nat.mul_comm _ 1196, Nat.mul_assoc]

/-- Finding: larger sizes round to 2^16 or more, which does not fit the 16 bits of a size. -/
theorem rounded_overflows : ∀ z, 56000 ≤ z → z < 65536 → 65536 ≤ 1196 ^ sizeHintToExp z / 1000 ^ sizeHintToExp z ∧ rounded z < z := by
  intro z h1 h2
  obtain ⟨e1, _, e3⟩ := exp_spec h2
  obtain ⟨e1, e2, e3⟩ := exp_spec h2
  have q61 : 1196 ^ 61 < 56000 * 1000 ^ 61 := by decide +kernel
  have : sizeHintToExp z = 62 := by
    by_cases hlt : sizeHintToExp z ≤ 61
    · exfalso
      obtain ⟨d, hd⟩ : ∃ d, 61 = sizeHintToExp z + d := ⟨61 - sizeHintToExp z, by omega⟩
      rw [hd, Nat.pow_add, Nat.pow_add] at q61
      have hle : 1000 ^ d ≤ 1196 ^ d := Nat.pow_le_pow_left (by decide) d
      generalize sizeHintToExp z = e at *
      have a1 : z * 1000 ^ e * 1000 ^ d ≤ 1196 ^ e * 1196 ^ d := Nat.mul_le_mul e2 hle
      have a2 : 56000 * (1000 ^ e * 1000 ^ d) ≤ z * (1000 ^ e * 1000 ^ d) := Nat.mul_le_mul_right _ h1
      rw [← Nat.mul_assoc z] at a2
      exact absurd (Nat.lt_of_lt_of_le q61 (Nat.le_trans a2 a1)) (Nat.lt_irrefl _)
    · omega
  unfold rounded
  rw [this]
  have v : 65536 ≤ 1196 ^ 62 / 1000 ^ 62 ∧ sizeExpToHint 62 < 56000 := by decide +kernel
  exact ⟨v.1, Nat.lt_of_lt_of_le v.2 h1⟩

/-! ### Size -/

theorem held_sum (n m : Nat) (v : Nat → Bool) :
    ((List.range m).map (fun i => held n v i)).sum = (List.range (m * n)).countP v := by
  induction m with
  | zero => simp
  | succ m ih =>
    rw [List.range_succ, List.map_append, List.sum_append, ih, Nat.add_mul, Nat.one_mul, List.range_add, List.countP_append]
    simp only [List.map_cons, List.map_nil, List.sum_cons, List.sum_nil, Nat.add_zero]
    congr 1
    unfold held
    rw [List.countP_map]
    rfl

theorem shards_eq {c : Cfg} (hc : c.Good) : c.shards * c.n = c.total ∧ c.shards = c.total / c.n := by
  have hn := hc.big
  have hp := hc.pos
  obtain ⟨m, hm⟩ := hc.dvd
  have hsh : c.shards = m := by
    unfold Cfg.shards
    rw [hm] at hp ⊢
    have hm0 : 0 < m := Nat.pos_of_mul_pos_left hp
    obtain ⟨m', rfl⟩ : ∃ m', m = m' + 1 := ⟨m - 1, by omega⟩
    rw [Nat.mul_add, Nat.mul_one, Nat.add_sub_assoc (by omega), Nat.mul_add_div (by omega), Nat.div_eq_of_lt (by omega)]
  exact ⟨by rw [hsh, hm, Nat.mul_comm], by rw [hsh, hm, Nat.mul_div_cancel_left _ (by omega)]⟩

/-- C25: the computed size is the number of keys with a record. -/
theorem size_exact {c : Cfg} (hc : c.Good) (os : List Op) (ho : ∀ o ∈ os, o.Legal) :
    ∃ l : List Key, l.Nodup ∧ l.length = (St.new.run c os).1.computeSize c ∧
      ∀ k, k ∈ l ↔ (St.new.run c os).1.abs c k ≠ none := by
  have h := (run_refines hc os ho (new_inv c hc).1).1
  generalize (St.new.run c os).1 = s at h
  obtain ⟨e1, e2⟩ := shards_eq hc
  refine ⟨((List.range c.total).filter s.vf).map (keyAt c s), ?_, ?_, ?_⟩
  · apply List.Nodup.map_on ?_ (List.nodup_range.filter _)
    intro x hx y hy hxy
    simp only [List.mem_filter, List.mem_range] at hx hy
    exact h.uniq _ _ _ ⟨hx.1, hx.2, rfl⟩ ⟨hy.1, hy.2, hxy.symm⟩
  · rw [List.length_map, ← List.countP_eq_length_filter]
    unfold St.computeSize
    rw [← e1, ← held_sum]
    congr 1
    apply List.map_congr_left
    intro i hi
    rw [h.cnt i (by rw [← e2]; exact List.mem_range.1 hi)]
  · intro k
    simp only [List.mem_map, List.mem_filter, List.mem_range, St.abs, ne_eq, Option.map_eq_none_iff]
    rw [get_none hc h]
    constructor
    · rintro ⟨q, ⟨h1, h2⟩, h3⟩ hno
      exact hno q ⟨h1, h2, h3⟩
    · intro hno
      refine Classical.byContradiction fun hne => hno fun q hq => hne ⟨q, ⟨hq.1, hq.2.1⟩, hq.2.2⟩

end Verif.NvmIndex.Fixed
