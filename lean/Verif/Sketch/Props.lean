import Verif.Sketch.Model
/-!
Property C11: the frequency sketch never under-counts.

Specification: the true count of a key is a saturating counter: +1 per increment of that key (up to the counter maximum `M`), `f`
applied at a decay by `f`, 0 at a reset.
-/
namespace Verif.Sketch

/-- Operations that do not reset a single key. -/
inductive Op
  | inc (key : Nat)
  | decay (f : Nat → Nat)
  | reset

def step (c : Cfg) (s : St) : Op → St
  | .inc k => increment c s k
  | .decay f => Sketch.decay c s f
  | .reset => Sketch.reset c s

def run (c : Cfg) (s : St) (os : List Op) : St := os.foldl (step c) s

/-- Spec: the true (saturating, decayed) count of `k` after a history. -/
def true' (M k : Nat) (os : List Op) : Nat :=
  os.foldl (fun n o => match o with
    | .inc k' => if k' = k then min M (n + 1) else n
    | .decay f => f n
    | .reset => 0) 0

/-- Spec: decay functions are monotone (truncated multiplication by a factor). -/
def MonoDecays (os : List Op) : Prop := ∀ f, Op.decay f ∈ os → ∀ x y, x ≤ y → f x ≤ f y

/-- Spec: configuration accepted and the table size does not overflow 32 bits. -/
structure Cfg.Ok (c : Cfg) : Prop where
  w : 0 < c.width
  d : 0 < c.depth
  fits : c.width * c.depth < 2 ^ 32

theorem Cfg.Ok.idx {c : Cfg} (h : c.Ok) {row} (hr : row < c.depth) (key) :
    c.getIndex row key = row * c.width + c.h row key % c.width := by
  have h1 : row * c.width ≤ c.depth * c.width := Nat.mul_le_mul_right _ (Nat.le_of_lt hr)
  have h2 := h.fits
  rw [Nat.mul_comm] at h2
  simp only [Cfg.getIndex]; rw [Nat.mod_eq_of_lt (by omega)]

/-- All accesses are within the allocated table. -/
theorem index_in_bounds {c : Cfg} (h : c.Ok) {row} (hr : row < c.depth) (key) : c.getIndex row key < c.tableSize := by
  rw [h.idx hr]
  have h1 : (row + 1) * c.width ≤ c.depth * c.width := Nat.mul_le_mul_right _ hr
  have h2 := h.fits
  have h3 := Nat.mod_lt (c.h row key) h.w
  rw [Nat.add_mul] at h1
  simp only [Cfg.tableSize]; rw [Nat.mod_eq_of_lt h2, Nat.mul_comm c.width]; omega

/-- Negative result: the constructor accepts widths and depths whose product overflows 32 bits (CountMinSketch.h:139-151); then an
access is outside the allocated table. -/
theorem index_out_of_bounds : ∃ c : Cfg, init c ≠ none ∧ c.width < 2 ^ 32 ∧ c.depth < 2 ^ 32 ∧ c.tableSize ≤ c.getIndex 0 7 :=
  ⟨⟨fun _ _ => 0, 65536, 65536, 255⟩, by simp [init], by decide, by decide, by decide⟩

theorem idx_inj {c : Cfg} (h : c.Ok) {r r'} (hr : r < c.depth) (hr' : r' < c.depth) {k k'}
    (he : c.getIndex r k = c.getIndex r' k') : r = r' := by
  rw [h.idx hr, h.idx hr'] at he
  have h1 := Nat.mod_lt (c.h r k) h.w
  have h2 := Nat.mod_lt (c.h r' k') h.w
  have e1 : (r * c.width + c.h r k % c.width) / c.width = r := by
    rw [Nat.mul_comm, Nat.mul_add_div h.w, Nat.div_eq_of_lt h1]; rfl
  have e2 : (r' * c.width + c.h r' k' % c.width) / c.width = r' := by
    rw [Nat.mul_comm, Nat.mul_add_div h.w, Nat.div_eq_of_lt h2]; rfl
  rw [← e1, ← e2, he]

/-- getCount is the minimum over the rows. -/
theorem le_foldl_min {α : Type} (g : α → Nat) (l : List α) : ∀ (a b : Nat), b ≤ l.foldl (fun c r => min c (g r)) a ↔ b ≤ a ∧ ∀ r ∈ l, b ≤ g r := by
  induction l with
  | nil => intro a b; simp
  | cons x l ih =>
    intro a b
    rw [List.foldl_cons, ih]
    simp only [List.mem_cons, forall_eq_or_imp]
    constructor
    · rintro ⟨h1, h2⟩; exact ⟨by omega, by omega, h2⟩
    · rintro ⟨h1, h2, h3⟩; exact ⟨by omega, h3⟩

theorem le_getCount {c : Cfg} (h : c.Ok) (s : St) (k b : Nat) :
    b ≤ getCount c s k ↔ b ≤ c.M ∧ ∀ r, r < c.depth → b ≤ s.table (c.getIndex r k) := by
  have hd : c.depth ≠ 0 := by have := h.d; omega
  simp only [getCount, hd, ne_eq, not_false_eq_true, if_true, Nat.mul_one]
  rw [le_foldl_min]
  simp

/-- Effect of incrementing a list of distinct rows. -/
theorem inc_rows {c : Cfg} (key : Nat) (l : List Nat) : ∀ (s : St), l.Nodup → (∀ r ∈ l, r < c.depth) →
    (∀ j, s.table j ≤ (l.foldl (incRow c key) s).table j) ∧
    (∀ r ∈ l, min c.M (s.table (c.getIndex r key) + 1) ≤ (l.foldl (incRow c key) s).table (c.getIndex r key)) := by
  induction l with
  | nil => intro s _ _; exact ⟨fun _ => Nat.le_refl _, by simp⟩
  | cons x l ih =>
    intro s hn hr
    rw [List.nodup_cons] at hn
    rw [List.foldl_cons]
    obtain ⟨i1, i2⟩ := ih (incRow c key s x) hn.2 (fun r hr' => hr r (by simp [hr']))
    have mono : ∀ j, s.table j ≤ (incRow c key s x).table j := by
      intro j; simp only [incRow]; split
      · simp only [upd]; split
        · rename_i e; subst e; omega
        · exact Nat.le_refl _
      · exact Nat.le_refl _
    refine ⟨fun j => Nat.le_trans (mono j) (i1 j), ?_⟩
    intro r hrm
    rcases List.mem_cons.1 hrm with rfl | hrm
    · refine Nat.le_trans ?_ (i1 _)
      simp only [incRow]; split
      · simp only [upd, if_true]; omega
      · omega
    · refine Nat.le_trans ?_ (i2 r hrm)
      have := mono (c.getIndex r key)
      omega

theorem inc_ge {c : Cfg} (s : St) (key : Nat) :
    (∀ j, s.table j ≤ (increment c s key).table j) ∧
    (∀ r, r < c.depth → min c.M (s.table (c.getIndex r key) + 1) ≤ (increment c s key).table (c.getIndex r key)) := by
  obtain ⟨h1, h2⟩ := inc_rows (c := c) key (List.range c.depth) s List.nodup_range (by simp)
  exact ⟨h1, fun r hr => h2 r (by simpa using hr)⟩

theorem true_le_M (M k : Nat) (os : List Op) (hM : ∀ f, Op.decay f ∈ os → f M ≤ M) (hm : MonoDecays os) : true' M k os ≤ M := by
  have : ∀ n, n ≤ M → os.foldl (fun n o => match o with
    | .inc k' => if k' = k then min M (n + 1) else n
    | .decay f => f n
    | .reset => 0) n ≤ M := by
    induction os with
    | nil => intro n hn; exact hn
    | cons o os ih =>
      intro n hn
      rw [List.foldl_cons]
      apply ih (fun f hf => hM f (by simp [hf])) (fun f hf => hm f (by simp [hf]))
      cases o with
      | inc k' => simp only; split <;> omega
      | decay f => exact Nat.le_trans (hm f (by simp) n M hn) (hM f (by simp))
      | reset => exact Nat.zero_le _
  exact this 0 (Nat.zero_le _)

theorem table_ge {c : Cfg} (h : c.Ok) (k : Nat) (os : List Op) : ∀ (s : St) (n : Nat), MonoDecays os →
    (∀ r, r < c.depth → n ≤ s.table (c.getIndex r k)) →
    ∀ r, r < c.depth → os.foldl (fun n o => match o with
    | .inc k' => if k' = k then min c.M (n + 1) else n
    | .decay f => f n
    | .reset => 0) n ≤ (run c s os).table (c.getIndex r k) := by
  induction os with
  | nil => intro s n _ hb r hr; exact hb r hr
  | cons o os ih =>
    intro s n hm hb r hr
    simp only [List.foldl_cons, run]
    refine ih (step c s o) _ (fun f hf => hm f (by simp [hf])) ?_ r hr
    intro r' hr'
    have hb' := hb r' hr'
    have hin := index_in_bounds h hr' k
    cases o with
    | inc k' =>
      obtain ⟨g1, g2⟩ := inc_ge s k'
      simp only [step]
      split
      · rename_i e; subst e
        have := g2 r' hr'; omega
      · have := g1 (c.getIndex r' k); omega
    | decay f =>
      simp only [step, Sketch.decay, if_pos hin]
      exact hm f (by simp) _ _ hb'
    | reset => simp only; exact Nat.zero_le _

/-- **C11.** For every accepted configuration (table size below 2^32), hash function, counter maximum, and every history of
increments, decays by monotone functions mapping counters to counters, and resets: the estimate of every key is at least its true
saturating decayed count, and at most the counter maximum. -/
theorem sketch_never_undercounts {c : Cfg} (h : c.Ok) (s : St) (hs : init c = some s) (os : List Op) (hm : MonoDecays os)
    (hM : ∀ f, Op.decay f ∈ os → f c.M ≤ c.M) (k : Nat) :
    true' c.M k os ≤ getCount c (run c s os) k ∧ getCount c (run c s os) k ≤ c.M := by
  refine ⟨(le_getCount h ..).2 ⟨true_le_M c.M k os hM hm, ?_⟩, ((le_getCount h ..).1 (Nat.le_refl _)).1⟩
  intro r hr
  exact table_ge h k os s 0 hm (fun _ _ => Nat.zero_le _) r hr

/-! ### Resetting one key -/

theorem reset_rows {c : Cfg} (h : c.Ok) (key cnt : Nat) (l : List Nat) : ∀ (t : Nat → Nat), l.Nodup → (∀ r ∈ l, r < c.depth) →
    (∀ j, t j - cnt ≤ (l.foldl (fun t row => let i := c.getIndex row key; upd t i (t i - cnt)) t) j) ∧
    (∀ j, (∀ r ∈ l, c.getIndex r key ≠ j) → (l.foldl (fun t row => let i := c.getIndex row key; upd t i (t i - cnt)) t) j = t j) ∧
    (∀ r ∈ l, (l.foldl (fun t row => let i := c.getIndex row key; upd t i (t i - cnt)) t) (c.getIndex r key) = t (c.getIndex r key) - cnt) := by
  induction l with
  | nil => intro t _ _; exact ⟨fun _ => Nat.sub_le _ _, fun _ _ => rfl, by simp⟩
  | cons x l ih =>
    intro t hn hr
    rw [List.nodup_cons] at hn
    rw [List.foldl_cons]
    obtain ⟨i1, i2, i3⟩ := ih (upd t (c.getIndex x key) (t (c.getIndex x key) - cnt)) hn.2 (fun r hr' => hr r (by simp [hr']))
    have hx : ∀ r ∈ l, c.getIndex r key ≠ c.getIndex x key := by
      intro r hr' he
      have := idx_inj h (hr r (by simp [hr'])) (hr x (by simp)) he
      subst this; exact hn.1 hr'
    refine ⟨fun j => ?_, fun j hj => ?_, fun r hrm => ?_⟩
    · by_cases hj : j = c.getIndex x key
      · subst hj
        rw [i2 _ hx]; simp [upd]
      · have := i1 j; simp only [upd, hj, if_false] at this; exact this
    · rw [i2 j (fun r hr' => hj r (by simp [hr']))]
      simp only [upd]; rw [if_neg]; intro e; exact hj x (by simp) e.symm
    · rcases List.mem_cons.1 hrm with rfl | hrm
      · rw [i2 _ hx]; simp [upd]
      · rw [i3 r hrm]; simp only [upd]; rw [if_neg (hx r hrm)]

/-- Resetting a key: no counter wraps below zero. -/
theorem resetCount_no_underflow {c : Cfg} (h : c.Ok) (s : St) (k : Nat) (r : Nat) (hr : r < c.depth) :
    getCount c s k ≤ s.table (c.getIndex r k) := ((le_getCount h s k _).1 (Nat.le_refl _)).2 r hr

/-- After a reset of a key whose counters are all below the maximum, its estimate is 0; no other key's estimate drops by more than
the estimate of the reset key. -/
theorem resetCount_spec {c : Cfg} (h : c.Ok) (s : St) (k : Nat) :
    ((∃ r, r < c.depth ∧ s.table (c.getIndex r k) ≤ c.M) → getCount c (resetCount c s k) k = 0) ∧
    (∀ k', getCount c s k' - getCount c s k ≤ getCount c (resetCount c s k) k') := by
  obtain ⟨r1, r2, r3⟩ := reset_rows h k (getCount c s k) (List.range c.depth) s.table List.nodup_range (by simp)
  constructor
  · rintro ⟨r, hr, hle⟩
    -- some row attains the minimum
    have hex : ∃ r, r < c.depth ∧ s.table (c.getIndex r k) ≤ getCount c s k := by
      by_cases hc : ∃ r, r < c.depth ∧ s.table (c.getIndex r k) ≤ getCount c s k
      · exact hc
      · exfalso
        have : getCount c s k + 1 ≤ getCount c s k := by
          rw [le_getCount h]
          refine ⟨?_, fun r hr => ?_⟩
          · have : ¬ s.table (c.getIndex r k) ≤ getCount c s k := fun hh => hc ⟨r, hr, hh⟩
            omega
          · have : ¬ s.table (c.getIndex r k) ≤ getCount c s k := fun hh => hc ⟨r, hr, hh⟩
            omega
        omega
    obtain ⟨r', hr', hle'⟩ := hex
    have := ((le_getCount h (resetCount c s k) k _).1 (Nat.le_refl _)).2 r' hr'
    simp only [resetCount] at this ⊢
    rw [r3 r' (by simpa using hr')] at this
    omega
  · intro k'
    rw [le_getCount h]
    have h1 := (le_getCount h s k' _).1 (Nat.le_refl _)
    refine ⟨by omega, fun r hr => ?_⟩
    refine Nat.le_trans ?_ (r1 (c.getIndex r k'))
    have := h1.2 r hr
    omega

/-- Negative result: with resets of single keys the sketch does under-count. If keys 1 and 2 collide,
key 1 is incremented once (estimate 1) and key 2 is reset, the estimate of key 1 becomes 0. -/
theorem reset_undercounts : ∃ (c : Cfg) (s : St), c.Ok ∧ init c = some s ∧
    getCount c (resetCount c (increment c s 1) 2) 1 = 0 ∧ getCount c (increment c s 1) 1 = 1 := by
  refine ⟨⟨fun _ _ => 0, 4, 2, 255⟩, ⟨fun _ => 0, 0⟩, ⟨by decide, by decide, by decide⟩, rfl, by decide, by decide⟩

/-- Non-vacuity: a history with collisions, a halving decay and a reset; true and estimated counts. -/
example : ∃ (c : Cfg) (s : St) (os : List Op), c.Ok ∧ init c = some s ∧ MonoDecays os ∧ (∀ f, Op.decay f ∈ os → f c.M ≤ c.M) ∧
    true' c.M 1 os = 2 ∧ getCount c (run c s os) 1 = 3 := by
  refine ⟨⟨fun r k => r + k, 2, 2, 255⟩, ⟨fun _ => 0, 0⟩, [.reset, .inc 1, .inc 1, .inc 1, .inc 3, .inc 1, .decay (· / 2), .inc 3], ⟨by decide, by decide, by decide⟩, rfl, ?_, ?_, ?_, ?_⟩
  · intro f hf x y hxy
    simp at hf; subst hf; exact Nat.div_le_div_right hxy
  · intro f hf; simp at hf; subst hf; decide
  · rfl
  · rfl

end Verif.Sketch
