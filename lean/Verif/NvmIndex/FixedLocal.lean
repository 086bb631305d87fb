import Verif.NvmIndex.FixedProps
/-
C25: an operation of the fixed size index stays inside the shard whose mutex it holds; configurations for which it does not;
concrete histories.
-/
namespace Verif.NvmIndex.Fixed
open Verif

/-! ### Writes -/

/-- Only shard `i` differs: its buckets, its counter and the bytes of its fill information. -/
structure Only (c : Cfg) (i : Nat) (s s' : St) : Prop where
  ht : ∀ q, q / c.n ≠ i → s'.ht q = s.ht q
  part : ∀ q, q / c.n ≠ i → s'.part q = s.part q
  cnt : ∀ j, j ≠ i → s'.cnt j = s.cnt j
  byte : ∀ j, 4 * j / c.n ≠ i → s'.fillMap j = s.fillMap j

theorem Only.refl (c : Cfg) (i : Nat) (s : St) : Only c i s s := ⟨fun _ _ => rfl, fun _ _ => rfl, fun _ _ => rfl, fun _ _ => rfl⟩

theorem Only.trans {c : Cfg} {i : Nat} {s s' s'' : St} (h : Only c i s s') (h' : Only c i s' s'') : Only c i s s'' :=
  ⟨fun q hq => (h'.ht q hq).trans (h.ht q hq), fun q hq => (h'.part q hq).trans (h.part q hq),
   fun q hq => (h'.cnt q hq).trans (h.cnt q hq), fun q hq => (h'.byte q hq).trans (h.byte q hq)⟩

theorem only_setRec {c : Cfg} {i q : Nat} (hq : q / c.n = i) (s : St) (r : PRec) : Only c i s (s.setRec q r) :=
  ⟨fun x hx => upd_ne _ _ (by rintro rfl; exact hx hq), fun _ _ => rfl, fun _ _ => rfl, fun _ _ => rfl⟩

theorem byte_shard {n q : Nat} (hn : 0 < n) (h4 : 4 ∣ n) : 4 * (q / 4) / n = q / n := by
  obtain ⟨k, rfl⟩ := h4
  rw [Nat.mul_div_mul_left _ _ (by decide), Nat.div_div_eq_div_mul]

theorem only_setDist {c : Cfg} (hn : 98 ≤ c.n) (h4 : 4 ∣ c.n) {i q : Nat} (hq : q / c.n = i) (s : St) (v p : Nat) :
    Only c i s (s.setDist q v p) :=
  ⟨fun _ _ => rfl, fun x hx => upd_ne _ _ (by rintro rfl; exact hx hq), fun _ _ => rfl,
   fun j hj => upd_ne _ _ (by rintro rfl; exact hj (by rw [byte_shard (by omega) h4, hq]))⟩

theorem only_cnt (c : Cfg) (i : Nat) (s : St) (x : Nat) : Only c i s { s with cnt := upd s.cnt i x } :=
  ⟨fun _ _ => rfl, fun _ _ => rfl, fun _ hj => upd_ne _ _ hj, fun _ _ => rfl⟩

theorem only_makeEmpty {c : Cfg} (hc : c.Good) (h4 : 4 ∣ c.n) {b : Nat} (hb : b < c.total) (s : St) (l : List Nat) :
    Only c (b / c.n) s (s.makeEmpty c b l).1 := by
  induction l with
  | nil => exact Only.refl _ _ _
  | cons i l ih =>
    unfold St.makeEmpty
    split
    · exact Only.refl _ _ _
    · split
      · exact ih
      · split
        · cases hr : s.room c (c.slot b i) with
          | none => exact ih
          | some sub =>
            have hq := slot_lt hc hb i
            have hs : c.slot b i / c.n = b / c.n := slot_shard hc.big b i
            have hd : c.slot (c.org (c.slot b i) (s.fill (c.slot b i))) sub / c.n = b / c.n := 
              (slot_shard hc.big _ _).trans ((org_shard hc hq _).trans (slot_shard hc.big b i))
            exact ((only_setRec hd s _).trans (only_setRec hs _ _)).trans (only_setDist hc.big h4 hd _ _ _)
        · exact ih

theorem only_decide {c : Cfg} (hc : c.Good) (h4 : 4 ∣ c.n) {b : Nat} (hb : b < c.total) (s : St) (p : Nat) :
    Only c (b / c.n) s (s.decideSlot c b p).1 := by
  unfold St.decideSlot
  cases s.check c b p with
  | none => exact only_makeEmpty hc h4 hb s _
  | some i => exact Only.refl _ _ _

theorem only_put {c : Cfg} (hc : c.Good) (h4 : 4 ∣ c.n) (s : St) (h i : Nat) (t : Bool) (r : PRec) :
    Only c (c.bucketId h / c.n) s (s.put c h i t r) := by
  have hs : c.slot (c.bucketId h) i / c.n = c.bucketId h / c.n := slot_shard hc.big _ _
  have h1 : Only c (c.bucketId h / c.n) s
      (if t then { s with cnt := upd s.cnt (c.shard (c.bucketId h)) (s.cnt (c.shard (c.bucketId h)) + 1) } else s) := by
    split
    · exact only_cnt c _ s _
    · exact Only.refl _ _ _
  unfold St.put
  simp only
  split
  · exact h1.trans (only_setRec hs _ _)
  · exact (h1.trans (only_setRec hs _ _)).trans (only_setDist hc.big h4 hs _ _ _)

theorem only_drop {c : Cfg} (hc : c.Good) (s : St) (h i : Nat) : Only c (c.bucketId h / c.n) s (s.drop c h i) := by
  have hs : c.slot (c.bucketId h) i / c.n = c.bucketId h / c.n := slot_shard hc.big _ _
  exact (only_setRec hs s PRec.empty).trans (only_cnt c _ _ _)

/-- The hash an operation is about. -/
def Op.hash : Op → Option Nat
  | .lookup h | .peek h | .insert h _ _ | .insertNE h _ _ | .replace h _ _ | .remove h | .removeMatch h _ => some h
  | .reset => none

/-- C25: an operation on a hash writes only what the mutex of the hash's shard protects, if the number of buckets per mutex is a
multiple of four. -/
theorem writes_own_shard {c : Cfg} (hc : c.Good) (h4 : 4 ∣ c.n) (s : St) (o : Op) {h : Nat} (ho : o.hash = some h) :
    Only c (c.bucketId h / c.n) s (s.step c o).1 := by
  have hb := bucketId_lt hc h
  have hs : ∀ i, c.slot (c.bucketId h) i / c.n = c.bucketId h / c.n := fun i => slot_shard hc.big _ i
  cases o <;> simp only [Op.hash, Option.some.injEq, reduceCtorEq] at ho <;> subst ho <;> simp only [St.step]
  · unfold St.lookup
    split
    · exact Only.refl _ _ _
    · simp only; split
      · exact only_setRec (hs _) _ _
      · exact Only.refl _ _ _
  · exact Only.refl _ _ _
  · exact (only_decide hc h4 hb s _).trans (only_put hc h4 _ _ _ _ _)
  · unfold St.insertIfNotExists
    simp only
    split
    · exact only_decide hc h4 hb s _
    · exact (only_decide hc h4 hb s _).trans (only_put hc h4 _ _ _ _ _)
  · unfold St.replaceIfMatch
    split
    · exact Only.refl _ _ _
    · simp only; split
      · exact only_setRec (hs _) _ _
      · exact Only.refl _ _ _
  · unfold St.remove
    split
    · exact Only.refl _ _ _
    · simp only; split
      · exact only_drop hc _ _ _
      · exact only_setRec (hs _) _ _
  · unfold St.removeIfMatch
    split
    · exact Only.refl _ _ _
    · simp only; split
      · exact only_drop hc _ _ _
      · exact Only.refl _ _ _

/-! ### Reads -/

/-- Two states with the same shard `i`. -/
structure Same (c : Cfg) (i : Nat) (s t : St) : Prop where
  ht : ∀ q, q / c.n = i → s.ht q = t.ht q
  part : ∀ q, q / c.n = i → s.part q = t.part q
  fill : ∀ q, q / c.n = i → s.fill q = t.fill q
  cnt : s.cnt i = t.cnt i

theorem same_setRec {c : Cfg} {i q : Nat} {s t : St} (h : Same c i s t) (r : PRec) : Same c i (s.setRec q r) (t.setRec q r) := by
  refine ⟨fun x hx => ?_, h.part, h.fill, h.cnt⟩
  simp only [St.setRec, upd]
  split
  · rfl
  · exact h.ht x hx

theorem same_setDist {c : Cfg} {i q v : Nat} (hv : v < 4) {s t : St} (h : Same c i s t) (p : Nat) :
    Same c i (s.setDist q v p) (t.setDist q v p) := by
  refine ⟨h.ht, fun x hx => ?_, fun x hx => ?_, h.cnt⟩
  · simp only [part_setDist, h.part x hx]
  · simp only [fill_setDist _ _ _ _ _ hv, h.fill x hx]

theorem same_isMatch {c : Cfg} (hc : c.Good) {b : Nat} {s t : St} (h : Same c (b / c.n) s t) (p i : Nat) :
    s.isMatch c b p i = t.isMatch c b p i := by
  have hs : c.slot b i / c.n = b / c.n := slot_shard hc.big _ i
  unfold St.isMatch
  rw [h.ht _ hs, h.fill _ hs, h.part _ hs]

theorem same_check {c : Cfg} (hc : c.Good) {b : Nat} {s t : St} (h : Same c (b / c.n) s t) (p : Nat) : s.check c b p = t.check c b p := by
  unfold St.check
  simp only [same_isMatch hc h]

theorem same_room {c : Cfg} (hc : c.Good) {q : Nat} (hq : q < c.total) {s t : St} (h : Same c (q / c.n) s t) : s.room c q = t.room c q := by
  unfold St.room
  have h1 : ∀ f sub, c.slot (c.org q f) sub / c.n = q / c.n := by
    intro f sub
    have : c.shard (c.slot (c.org q f) sub) = _ := slot_shard hc.big _ _
    rw [org_shard hc hq] at this
    exact this
  rw [h.fill q rfl]
  congr 1
  funext sub
  rw [h.ht _ (h1 _ _)]

theorem same_makeEmpty {c : Cfg} (hc : c.Good) {b : Nat} (hb : b < c.total) {s t : St} (h : Same c (b / c.n) s t) (l : List Nat) :
    Same c (b / c.n) (s.makeEmpty c b l).1 (t.makeEmpty c b l).1 ∧ (s.makeEmpty c b l).2 = (t.makeEmpty c b l).2 := by
  induction l with
  | nil => exact ⟨h, rfl⟩
  | cons i l ih =>
    have hs : c.slot b i / c.n = b / c.n := slot_shard hc.big _ i
    unfold St.makeEmpty
    rw [h.ht _ hs, h.fill _ hs, same_room hc (slot_lt hc hb i) (by rw [hs]; exact h)]
    split
    · exact ⟨h, rfl⟩
    · split
      · exact ih
      · split
        · cases hr : t.room c (c.slot b i) with
          | none => exact ih
          | some sub =>
            refine ⟨?_, rfl⟩
            simp only [St.move]
            rw [h.ht _ hs, h.fill _ hs, h.part _ hs]
            exact same_setDist (room_some hr).1 (same_setRec (same_setRec h _) _) _
        · exact ih

theorem makeEmpty_lt {c : Cfg} (s : St) (b : Nat) (l : List Nat) (hl : ∀ i ∈ l, i < 4) : (s.makeEmpty c b l).2.getD 0 < 4 := by
  induction l with
  | nil => simp [St.makeEmpty]
  | cons i l ih =>
    have ih := ih (fun j hj => hl j (by simp [hj]))
    have hi := hl i (by simp)
    unfold St.makeEmpty
    split
    · exact hi
    · split
      · exact ih
      · split
        · split
          · exact hi
          · exact ih
        · exact ih

theorem decide_lt {c : Cfg} (s : St) (b p : Nat) : (s.decideSlot c b p).2 < 4 := by
  unfold St.decideSlot
  split
  · rename_i i hi
    have := List.mem_of_find?_eq_some hi
    simp at this
    show i < 4
    omega
  · exact makeEmpty_lt s b _ (by simp)

theorem same_decide {c : Cfg} (hc : c.Good) {b : Nat} (hb : b < c.total) {s t : St} (h : Same c (b / c.n) s t) (p : Nat) :
    Same c (b / c.n) (s.decideSlot c b p).1 (t.decideSlot c b p).1 ∧ (s.decideSlot c b p).2 = (t.decideSlot c b p).2 := by
  unfold St.decideSlot
  rw [same_check hc h]
  split
  · exact ⟨h, rfl⟩
  · obtain ⟨h1, h2⟩ := same_makeEmpty hc hb h [0, 1, 2, 3]
    exact ⟨h1, by rw [h2]⟩

theorem same_put {c : Cfg} (h i : Nat) (hi : i < 4) (tt : Bool) (r : PRec) {s t : St} (hst : Same c (c.bucketId h / c.n) s t) :
    Same c (c.bucketId h / c.n) (s.put c h i tt r) (t.put c h i tt r) := by
  have h1 : Same c (c.bucketId h / c.n)
      (if tt then { s with cnt := upd s.cnt (c.shard (c.bucketId h)) (s.cnt (c.shard (c.bucketId h)) + 1) } else s)
      (if tt then { t with cnt := upd t.cnt (c.shard (c.bucketId h)) (t.cnt (c.shard (c.bucketId h)) + 1) } else t) := by
    split
    · refine ⟨hst.ht, hst.part, hst.fill, ?_⟩
      have := hst.cnt
      unfold Cfg.shard
      simp only [upd_same, this]
    · exact hst
  unfold St.put
  simp only
  split
  · exact same_setRec h1 _
  · exact same_setDist hi (same_setRec h1 _) _

theorem same_drop {c : Cfg} (h i : Nat) {s t : St} (hst : Same c (c.bucketId h / c.n) s t) :
    Same c (c.bucketId h / c.n) (s.drop c h i) (t.drop c h i) := by
  refine ⟨(same_setRec hst PRec.empty).ht, hst.part, hst.fill, ?_⟩
  have := hst.cnt
  unfold St.drop Cfg.shard
  simp only [upd_same, this]

/-- C25: what an operation on a hash answers and does to the hash's shard depends on that shard only.  With `writes_own_shard`:
operations under the mutexes of different shards do not interfere. -/
theorem reads_own_shard {c : Cfg} (hc : c.Good) (o : Op) {h : Nat} (ho : o.hash = some h) {s t : St}
    (hst : Same c (c.bucketId h / c.n) s t) :
    (s.step c o).2 = (t.step c o).2 ∧ Same c (c.bucketId h / c.n) (s.step c o).1 (t.step c o).1 := by
  have hb := bucketId_lt hc h
  have hs : ∀ i, c.slot (c.bucketId h) i / c.n = c.bucketId h / c.n := fun i => slot_shard hc.big _ i
  have hck := same_check hc hst
  cases o <;> simp only [Op.hash, Option.some.injEq, reduceCtorEq] at ho <;> subst ho <;> simp only [St.step]
  · unfold St.lookup
    rw [hck]
    split
    · exact ⟨rfl, hst⟩
    · simp only [hst.ht _ (hs _)]
      split
      · exact ⟨rfl, same_setRec hst _⟩
      · exact ⟨rfl, hst⟩
  · refine ⟨?_, hst⟩
    unfold St.peek
    rw [hck]
    split
    · rfl
    · rw [hst.ht _ (hs _)]
  · unfold St.insert
    obtain ⟨d1, d2⟩ := same_decide hc hb hst (partialBits _)
    simp only
    rw [d2, d1.ht _ (hs _)]
    exact ⟨rfl, same_put _ _ (decide_lt _ _ _) _ _ d1⟩
  · unfold St.insertIfNotExists
    obtain ⟨d1, d2⟩ := same_decide hc hb hst (partialBits _)
    simp only
    rw [d2, d1.ht _ (hs _)]
    split
    · exact ⟨rfl, d1⟩
    · exact ⟨rfl, same_put _ _ (decide_lt _ _ _) _ _ d1⟩
  · unfold St.replaceIfMatch
    rw [hck]
    split
    · exact ⟨rfl, hst⟩
    · simp only [hst.ht _ (hs _)]
      split
      · exact ⟨rfl, same_setRec hst _⟩
      · exact ⟨rfl, hst⟩
  · unfold St.remove
    rw [hck]
    split
    · exact ⟨rfl, hst⟩
    · simp only [hst.ht _ (hs _)]
      split
      · exact ⟨rfl, same_drop _ _ hst⟩
      · exact ⟨rfl, same_setRec hst _⟩
  · unfold St.removeIfMatch
    rw [hck]
    split
    · exact ⟨rfl, hst⟩
    · simp only [hst.ht _ (hs _)]
      split
      · exact ⟨rfl, same_drop _ _ hst⟩
      · exact ⟨rfl, hst⟩

/-- C25: the buckets an operation touches are in the table: the four slots of any bucket and the bucket a record came from. -/
theorem buckets_in_table {c : Cfg} (hc : c.Good) (b i f : Nat) (hb : b < c.total) :
    c.slot b i < c.total ∧ c.org b f < c.total ∧ c.slot b i / c.n < c.shards ∧ c.slot b i / 4 < (c.total - 1) / 4 + 1 := by
  have h1 := slot_lt hc hb i
  refine ⟨h1, org_lt hc hb f, ?_, by omega⟩
  have := (shards_eq hc).1
  rw [Nat.div_lt_iff_lt_mul (by have := hc.big; omega), this]
  exact h1

/-! ### Findings: configurations that NavyConfig accepts and for which this fails -/

/-- Finding: with the default of 64 buckets per mutex (NavyConfig.h:192; the checks of NavyConfig.h:245-286 accept it), the bucket
computed for a record in the fourth slot wraps around below zero, or is in another shard. -/
theorem small_shards_break : ∃ c : Cfg, c.n = 64 ∧ c.n ∣ c.total ∧ c.total = 256 ∧
    (∃ b < c.total, c.org (c.slot b 3) 3 ≥ 2 ^ 63) ∧ ∃ b < c.total, c.org (c.slot b 3) 3 < c.total ∧ c.org (c.slot b 3) 3 / c.n ≠ b / c.n :=
  ⟨⟨1, 8, 64⟩, by decide, by decide, by decide, ⟨40, by decide, by decide⟩, ⟨104, by decide, by decide, by decide⟩⟩

/-- Finding: a number of buckets per mutex that does not divide the number of buckets makes the last shard, and slots in it, leave
the table. -/
theorem ragged_shards_break : ∃ c : Cfg, 98 ≤ c.n ∧ c.n ≤ c.total ∧ (∃ b < c.total, c.total ≤ c.slot b 1) ∧ c.total < c.shards * c.n :=
  ⟨⟨1, 8, 100⟩, by decide, by decide, ⟨250, by decide, by decide⟩, by decide⟩

/-- Finding: with a number of buckets per mutex that is not a multiple of four, one byte of fill information belongs to two
mutexes. -/
theorem odd_shards_share : ∃ c : Cfg, c.Good ∧ ∃ q q', q < c.total ∧ q' < c.total ∧ q / c.n ≠ q' / c.n ∧ q / 4 = q' / 4 :=
  ⟨⟨101, 1, 101⟩, ⟨by decide, by decide, by decide, by decide⟩, 100, 101, by decide, by decide, by decide, by decide⟩

/-! ### Concrete cases -/

/-- A good configuration: 4 shards of 128 buckets. -/
theorem good_cfg : Cfg.Good ⟨2, 8, 128⟩ := ⟨by decide, by decide, by decide, by decide⟩

/-- A history of lookups and insertions of two hashes that differ only in bits 40 to 47. -/
example : (St.new.run ⟨2, 8, 128⟩ [.insert 7 100 2, .insert (2 ^ 41 + 7) 101 3, .insert 7 102 2, .lookup 7, .peek 7, .peek (2 ^ 41 + 7),
      .replace 7 200 100, .replace 7 200 102, .removeMatch (2 ^ 41 + 7) 101, .remove 7, .peek 7]).2 =
    [.entry none, .entry none, .entry (some ⟨100, 2, 0⟩), .entry (some ⟨102, 2, 1⟩), .entry (some ⟨102, 2, 1⟩),
     .entry (some ⟨101, 3, 0⟩), .ok false, .ok true, .ok true, .entry (some ⟨200, 2, 0⟩), .entry none] := by decide +kernel

/-- Finding (and the case of a full bucket): with four keys in the way, an insertion of a fifth key takes the place of one of them
and reports its record; a conditional insertion reports that record too and inserts nothing. -/
example : (St.new.run ⟨2, 8, 128⟩ [.insert 7 100 1, .insert (2 ^ 41 + 7) 101 1, .insert (2 ^ 42 + 7) 102 1, .insert (2 ^ 43 + 7) 103 1,
      .insertNE (2 ^ 44 + 7) 104 1, .peek (2 ^ 44 + 7), .insert (2 ^ 44 + 7) 104 1, .peek 7, .peek (2 ^ 44 + 7)]).2 =
    [.entry none, .entry none, .entry none, .entry none, .entry (some ⟨100, 1, 0⟩), .entry none, .entry (some ⟨100, 1, 0⟩), .entry none,
     .entry (some ⟨104, 1, 0⟩)] := by decide +kernel

end Verif.NvmIndex.Fixed
