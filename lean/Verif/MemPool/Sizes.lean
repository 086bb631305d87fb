import Verif.MemPool.Model
/-
The size classes: `MemoryAllocator.cpp:227-386`, `MemoryAllocator.h:733-771`, `common/Utils.h:273-285`.

A std::set of sizes is the list of its elements in order.  `static_cast<uint32_t>(size * factor)` is an arbitrary function
`mul` (floating point is not modelled); the theorems suppose that it does not decrease its argument, which is so for every
factor above 1, and that the product fits in 32 bits (otherwise the behaviour of the code is undefined).
-/
namespace Verif.MemPool
open Verif AllocClass

/-- std::set::insert -/
def ins (n : Nat) : List Nat → List Nat
  | [] => [n]
  | m :: l => if n < m then n :: m :: l else if n = m then m :: l else m :: ins n l

/-- Utils.h:274-278 getAlignedSize in 32 bits, alignment kAlignment = 8 (MemoryAllocator.h:84). -/
def alignUp (n : Nat) : Nat := if n % 8 = 0 then n else (n + 8 - n % 8) % 2 ^ 32

/-- Utils.h:282-285 getAlignedSizeDown. -/
def alignDown (n : Nat) : Nat := n - n % 8

/-- MemoryAllocator.h:760-771 maximizeAllocSize for slabs. -/
def maximize (n : Nat) : Nat :=
  let perSlab := KS / n
  let maxAlloc := KS / perSlab
  maxAlloc - maxAlloc % 8

/-- MemoryAllocator.h:733-742 isValidAllocSize. -/
def validSize (n : Nat) : Bool := if n < 64 then false else if n > KS then false else if n % 8 ≠ 0 then false else true

/-- what the generators can answer: sizes, an exception, or that the fuel of a loop was used up -/
inductive Gen (A : Type) where
  | ok (a : A)
  | invalid
  | fuel
  deriving DecidableEq

/-- MemoryAllocator.cpp:248-267 nextSize, its loop 251-263; `prev` is prevSize, `new` is newSize. -/
def nextSize (mul : Nat → Nat) (prev : Nat) : Nat → Nat → Gen Nat
  | 0, _ => .fuel
  | k + 1, new =>
    let new' := alignUp (mul new)
    if new' = new then .invalid
    else if KS < new' then .ok new'
    else if KS / new' = KS / prev then nextSize mul prev k new'
    else .ok (maximize new')

/-- MemoryAllocator.cpp:272-292, the loop of generateAllocSizes. -/
def genLoop (mul : Nat → Nat) (maxSize : Nat) (reduce : Bool) : Nat → Nat → List Nat → Gen (List Nat)
  | 0, _, _ => .fuel
  | k + 1, size, acc =>
    if ¬ size < maxSize then .ok acc
    else if KS / size ≤ 1 then .ok acc
    else if reduce then
      match nextSize mul size (KS + 1) size with
      | .ok n => genLoop mul maxSize reduce k n (ins size acc)
      | .invalid => .invalid
      | .fuel => .fuel
    else if alignUp (mul size) = size then .invalid
    else genLoop mul maxSize reduce k (alignUp (mul size)) (ins size acc)

/-- MemoryAllocator.cpp:227-296 generateAllocSizes; `above1`: factor > 1.0. -/
def generateAllocSizes (mul : Nat → Nat) (above1 : Bool) (maxSize minSize : Nat) (reduce : Bool) : Gen (List Nat) :=
  if KS < maxSize then .invalid
  else if !above1 then .invalid
  else match genLoop mul maxSize reduce (KS + 1) minSize [] with
    | .ok l => .ok (ins (alignUp maxSize) l)
    | .invalid => .invalid
    | .fuel => .fuel

/-- MemoryAllocator.cpp:310-335: the size for `i` allocations per slab. -/
def optSize (lo hi minAllocs i : Nat) : Nat :=
  let allocSize := KS / i
  let aligned := alignDown allocSize
  if aligned < lo ∨ (i = minAllocs ∧ hi > aligned) then maximize (alignUp allocSize) else aligned

/-- MemoryAllocator.cpp:309-345: the loop from `i` on, `k` rounds. -/
def optLoop (lo hi minAllocs : Nat) : Nat → Nat → List Nat → Option (List Nat)
  | 0, _, acc => some acc
  | k + 1, i, acc =>
    let acc := ins (optSize lo hi minAllocs i) acc
    if 128 < acc.length then none else optLoop lo hi minAllocs k (i + 1) acc

/-- MemoryAllocator.cpp:298-348 generateOptimalAllocSizesForItemRange, with 38-59. -/
def generateOptimal (minItem maxItem : Nat) : Option (List Nat) :=
  if minItem > maxItem then none
  else if maxItem > KS then none
  else
    let lo := max minItem 64
    let hi := max maxItem 64
    optLoop lo hi (KS / hi) (KS / lo + 1 - KS / hi) (KS / hi) []

/-- MemoryAllocator.cpp:375-382: the loop from `i` on, `k` rounds. -/
def evenLoop (lo hi n : Nat) : Nat → Nat → List Nat → List Nat
  | 0, _, acc => acc
  | k + 1, i, acc =>
    let offset := (hi - lo) * i % 2 ^ 32 / n
    evenLoop lo hi n k (i + 1) (ins (maximize (alignUp (hi - offset))) acc)

/-- MemoryAllocator.cpp:350-386 generateEvenlyDistributedAllocSizes; kMaxClasses is 128 (MemoryAllocator.h:77). -/
def generateEven (minItem maxItem n : Nat) : Option (List Nat) :=
  if minItem > maxItem then none
  else if maxItem > KS then none
  else if n < 1 then none
  else if n > 128 then none
  else some (evenLoop (max minItem 64) (max maxItem 64) n n 0 [])

/-! ### lemmas -/

theorem mem_ins {n x : Nat} : ∀ {l : List Nat}, x ∈ ins n l ↔ x = n ∨ x ∈ l
  | [] => by simp [ins]
  | m :: l => by
    simp only [ins]
    split
    · simp
    · split
      · rename_i h; subst h; simp
      · simp only [List.mem_cons, mem_ins]
        constructor
        · rintro (h | h | h) <;> simp [h]
        · rintro (h | h | h) <;> simp [h]

theorem sorted_ins {n : Nat} : ∀ {l : List Nat}, l.Pairwise (· < ·) → (ins n l).Pairwise (· < ·)
  | [], _ => by simp [ins]
  | m :: l, h => by
    simp only [ins]
    rw [List.pairwise_cons] at h
    split
    · rename_i hn
      rw [List.pairwise_cons, List.pairwise_cons]
      refine ⟨?_, h⟩
      intro x hx
      rcases List.mem_cons.1 hx with rfl | hx
      · exact hn
      · have := h.1 x hx; omega
    · split
      · rw [List.pairwise_cons]; exact h
      · rw [List.pairwise_cons]
        refine ⟨?_, sorted_ins h.2⟩
        intro x hx
        rcases mem_ins.1 hx with rfl | hx
        · omega
        · exact h.1 x hx

theorem ins_len {n : Nat} : ∀ {l : List Nat}, (ins n l).length ≤ l.length + 1
  | [] => by simp [ins]
  | m :: l => by
    simp only [ins]
    split
    · simp
    · split
      · simp
      · simp only [List.length_cons]; have := ins_len (n := n) (l := l); omega

theorem alignUp_spec {n : Nat} (h : n + 8 ≤ 2 ^ 32) : n ≤ alignUp n ∧ alignUp n % 8 = 0 ∧ alignUp n < n + 8 := by
  unfold alignUp
  split
  · omega
  · have : (n + 8 - n % 8) % 2 ^ 32 = n + 8 - n % 8 := by omega
    rw [this]; omega

theorem alignUp_le {n m : Nat} (hm : m % 8 = 0) (h : n ≤ m) (h2 : m ≤ KS) : alignUp n ≤ m := by
  have := alignUp_spec (n := n) (by omega)
  omega

theorem maximize_spec {n : Nat} (h0 : 0 < n) (hk : n ≤ KS) (h8 : n % 8 = 0) :
    n ≤ maximize n ∧ maximize n % 8 = 0 ∧ maximize n ≤ KS ∧ KS / maximize n = KS / n := by
  unfold maximize
  simp only
  have hp : 0 < KS / n := Nat.div_pos hk h0
  have h1 : n ≤ KS / (KS / n) := by
    rw [Nat.le_div_iff_mul_le hp, Nat.mul_comm]; exact Nat.div_mul_le_self _ _
  have h2 : KS / (KS / n) ≤ KS := Nat.div_le_self _ _
  have h3 : n ≤ KS / (KS / n) - KS / (KS / n) % 8 := by omega
  refine ⟨h3, by omega, by omega, ?_⟩
  apply Nat.le_antisymm
  · exact Nat.div_le_div_left h3 h0
  · rw [Nat.le_div_iff_mul_le (by omega)]
    calc KS / n * (KS / (KS / n) - KS / (KS / n) % 8) ≤ KS / n * (KS / (KS / n)) := Nat.mul_le_mul_left _ (Nat.sub_le _ _)
      _ ≤ KS := by rw [Nat.mul_comm]; exact Nat.div_mul_le_self _ _

/-- what is known of `static_cast<uint32_t>(size * factor)` for a factor above 1 -/
structure Grows (mul : Nat → Nat) : Prop where
  ge : ∀ n, n ≤ KS → n ≤ mul n
  fits : ∀ n, n ≤ KS → mul n + 8 ≤ 2 ^ 32

theorem nextSize_spec {mul : Nat → Nat} (hg : Grows mul) {prev : Nat} (h0 : 0 < prev) (hpk : prev ≤ KS) : ∀ (k new : Nat), prev ≤ new → new ≤ KS → KS < new + k →
    nextSize mul prev k new ≠ .fuel ∧ ∀ r, nextSize mul prev k new = .ok r → prev < r ∧ r % 8 = 0
  | 0, new, _, h2, h3 => by omega
  | k + 1, new, h1, h2, h3 => by
    have ha := alignUp_spec (hg.fits new h2)
    have hb := hg.ge new h2
    simp only [nextSize]
    split
    · simp
    · rename_i hne
      split
      · simp only [ne_eq, reduceCtorEq, not_false_eq_true, Gen.ok.injEq, true_and]
        intro r hr; subst hr; omega
      · split
        · exact nextSize_spec hg h0 hpk k _ (by omega) (by omega) (by omega)
        · simp only [ne_eq, reduceCtorEq, not_false_eq_true, Gen.ok.injEq, true_and]
          intro r hr; subst hr
          have := maximize_spec (n := alignUp (mul new)) (by omega) (by omega) ha.2.1
          omega

theorem genLoop_spec {mul : Nat → Nat} (hg : Grows mul) {maxSize minSize : Nat} (hm : maxSize ≤ KS) (h0 : 0 < minSize) (reduce : Bool) :
    ∀ (k size : Nat) (acc : List Nat), 0 < k → minSize ≤ size → KS < size + k → (size % 8 = 0 ∨ size = minSize) →
    acc.Pairwise (· < ·) → (∀ x ∈ acc, minSize ≤ x ∧ x < maxSize ∧ x < size ∧ (x % 8 = 0 ∨ x = minSize)) →
    genLoop mul maxSize reduce k size acc ≠ .fuel ∧ ∀ l, genLoop mul maxSize reduce k size acc = .ok l →
      l.Pairwise (· < ·) ∧ (∀ x ∈ l, minSize ≤ x ∧ x < maxSize ∧ (x % 8 = 0 ∨ x = minSize))
  | 0, size, acc, hk, h1, h2, _, _, hacc => absurd hk (Nat.lt_irrefl 0)
  | k + 1, size, acc, _, h1, h2, h8, hs, hacc => by
    have done : ∀ x ∈ acc, minSize ≤ x ∧ x < maxSize ∧ (x % 8 = 0 ∨ x = minSize) := fun x hx => ⟨(hacc x hx).1, (hacc x hx).2.1, (hacc x hx).2.2.2⟩
    simp only [genLoop]
    split
    · simp only [ne_eq, reduceCtorEq, not_false_eq_true, Gen.ok.injEq, true_and]
      intro l hl; subst hl; exact ⟨hs, done⟩
    rename_i hlt
    split
    · simp only [ne_eq, reduceCtorEq, not_false_eq_true, Gen.ok.injEq, true_and]
      intro l hl; subst hl; exact ⟨hs, done⟩
    have next : ∀ n, size < n → ∀ x ∈ ins size acc, minSize ≤ x ∧ x < maxSize ∧ x < n ∧ (x % 8 = 0 ∨ x = minSize) := by
      intro n hn x hx
      rcases mem_ins.1 hx with rfl | hx
      · exact ⟨h1, by omega, hn, h8⟩
      · have := hacc x hx; exact ⟨this.1, this.2.1, by omega, this.2.2.2⟩
    split
    · have hns := nextSize_spec hg (prev := size) (by omega) (by omega) (KS + 1) size (Nat.le_refl _) (by omega) (by omega)
      split
      · rename_i n hn
        have hr := hns.2 n hn
        exact genLoop_spec hg hm h0 reduce k n _ (by omega) (by omega) (by omega) (Or.inl hr.2) (sorted_ins hs) (next n hr.1)
      · simp
      · rename_i hf; exact absurd hf hns.1
    · have ha := alignUp_spec (hg.fits size (by omega))
      have hb := hg.ge size (by omega)
      split
      · simp
      · exact genLoop_spec hg hm h0 reduce k _ _ (by omega) (by omega) (by omega) (Or.inl ha.2.1) (sorted_ins hs) (next _ (by omega))


/-- C18: what generateAllocSizes returns for a factor above 1 is strictly increasing, at most the slab size, aligned (except
the given minimum), and ends with the given maximum rounded up to the alignment; its loops always end. -/
theorem generate_spec {mul : Nat → Nat} (hg : Grows mul) {maxSize minSize : Nat} {reduce : Bool} (h0 : 0 < minSize) :
    generateAllocSizes mul true maxSize minSize reduce ≠ .fuel ∧
    ∀ l, generateAllocSizes mul true maxSize minSize reduce = .ok l →
      l.Pairwise (· < ·) ∧ (∀ x ∈ l, x ≤ 4194304 ∧ (x % 8 = 0 ∨ x = minSize) ∧ (minSize ≤ x ∨ maxSize ≤ x)) ∧
      (∃ x ∈ l, maxSize ≤ x ∧ x < maxSize + 8) ∧ ∀ x ∈ l, x < maxSize + 8 := by
  unfold generateAllocSizes
  split
  · simp
  rename_i hm
  have hm : maxSize ≤ KS := by omega
  have h := genLoop_spec hg hm h0 reduce (KS + 1) minSize [] (by omega) (Nat.le_refl _) (by omega) (Or.inr rfl)
    List.Pairwise.nil (by simp)
  have ha := alignUp_spec (n := maxSize) (by omega)
  have hle : alignUp maxSize ≤ KS := alignUp_le (by decide) hm (Nat.le_refl _)
  split
  · simp at *
  split
  · rename_i l hl
    obtain ⟨h1, h2⟩ := h.2 l hl
    simp only [ne_eq, reduceCtorEq, not_false_eq_true, Gen.ok.injEq, true_and]
    intro l' hl'; subst hl'
    refine ⟨sorted_ins h1, ?_, ⟨_, mem_ins.2 (Or.inl rfl), ha.1, ha.2.2⟩, ?_⟩
    · intro x hx
      rcases mem_ins.1 hx with rfl | hx
      · exact ⟨hle, Or.inl ha.2.1, Or.inr ha.1⟩
      · have := h2 x hx; exact ⟨by omega, this.2.2, Or.inl this.1⟩
    · intro x hx
      rcases mem_ins.1 hx with rfl | hx
      · exact ha.2.2
      · have := h2 x hx; omega
  · simp
  · rename_i hf; exact absurd hf h.1

theorem getD_eq (l : List Nat) (c : Nat) (h : c < l.length) : l.getD c 0 = l[c] := by
  simp [List.getD, List.getElem?_eq_getElem h]

theorem ins_ne_nil {n : Nat} {l : List Nat} : ins n l ≠ [] := by
  intro h
  have : n ∈ ins n l := mem_ins.2 (Or.inl rfl)
  rw [h] at this; simp at this

/-- C18: a pool can be created with the sizes that were generated, if both bounds are at least 64. -/
theorem generate_accepted {mul : Nat → Nat} (hg : Grows mul) {maxSize minSize : Nat} {reduce : Bool} (h0 : 64 ≤ minSize)
    (h1 : 64 ≤ maxSize) {l} (h : generateAllocSizes mul true maxSize minSize reduce = .ok l) : sizesOK l = true := by
  obtain ⟨s1, s2, ⟨x, hx, _⟩, _⟩ := (generate_spec hg (by omega)).2 l h
  simp only [sizesOK, Bool.and_eq_true, List.all_eq_true, decide_eq_true_eq, Bool.not_eq_true', List.isEmpty_eq_false_iff]
  refine ⟨⟨by intro h; rw [h] at hx; simp at hx, ?_⟩, s1⟩
  intro x hx
  have := s2 x hx
  omega

theorem optSize_spec {lo hi i : Nat} (hlo : 64 ≤ lo) (hlh : lo ≤ hi) (hhi : hi ≤ KS) (h1 : KS / hi ≤ i) (h2 : i ≤ KS / lo) :
    64 ≤ optSize lo hi (KS / hi) i ∧ optSize lo hi (KS / hi) i ≤ KS ∧ optSize lo hi (KS / hi) i % 8 = 0 ∧
    lo ≤ optSize lo hi (KS / hi) i ∧ (i = KS / hi → hi ≤ optSize lo hi (KS / hi) i) := by
  have hi0 : 0 < i := Nat.lt_of_lt_of_le (Nat.div_pos hhi (by omega)) h1
  have ha : lo ≤ KS / i := by
    rw [Nat.le_div_iff_mul_le hi0, Nat.mul_comm]
    exact (Nat.le_div_iff_mul_le (by omega)).1 h2
  have hk : KS / i ≤ KS := Nat.div_le_self _ _
  have hc : i = KS / hi → hi ≤ KS / i := by
    intro e
    rw [Nat.le_div_iff_mul_le hi0, e, Nat.mul_comm]; exact Nat.div_mul_le_self _ _
  have hu := alignUp_spec (n := KS / i) (by omega)
  have hul : alignUp (KS / i) ≤ KS := alignUp_le (by decide) hk (Nat.le_refl _)
  have hm := maximize_spec (n := alignUp (KS / i)) (by omega) hul hu.2.1
  by_cases hn : alignDown (KS / i) < lo ∨ (i = KS / hi ∧ hi > alignDown (KS / i))
  · rw [show optSize lo hi (KS / hi) i = maximize (alignUp (KS / i)) from if_pos hn]
    refine ⟨by omega, by omega, by omega, by omega, ?_⟩
    intro e; have := hc e; omega
  · rw [show optSize lo hi (KS / hi) i = alignDown (KS / i) from if_neg hn]
    unfold alignDown at hn ⊢
    refine ⟨by omega, by omega, by omega, by omega, ?_⟩
    intro e; have := hc e; omega

theorem optLoop_spec {lo hi : Nat} (hlo : 64 ≤ lo) (hlh : lo ≤ hi) (hhi : hi ≤ KS) : ∀ (k i : Nat) (acc : List Nat) (l : List Nat),
    KS / hi ≤ i → i + k = KS / lo + 1 → acc.Pairwise (· < ·) → (∀ x ∈ acc, 64 ≤ x ∧ x ≤ KS ∧ x % 8 = 0 ∧ lo ≤ x) →
    optLoop lo hi (KS / hi) k i acc = some l →
    l.Pairwise (· < ·) ∧ (∀ x ∈ l, 64 ≤ x ∧ x ≤ KS ∧ x % 8 = 0 ∧ lo ≤ x) ∧ (∀ x ∈ acc, x ∈ l) ∧
    (∀ j, i ≤ j → j ≤ KS / lo → optSize lo hi (KS / hi) j ∈ l) ∧ (0 < k → l.length ≤ 128)
  | 0, i, acc, l, _, hk, hs, ha, h => by
    simp only [optLoop, Option.some.injEq] at h; subst h
    exact ⟨hs, ha, fun _ h => h, fun j h1 h2 => by omega, fun h => by omega⟩
  | k + 1, i, acc, l, hi1, hk, hs, ha, h => by
    simp only [optLoop] at h
    split at h
    · simp at h
    rename_i hlen
    have ho := optSize_spec (i := i) hlo hlh hhi hi1 (by omega)
    obtain ⟨r1, r2, r3, r4, r5⟩ := optLoop_spec hlo hlh hhi k (i + 1) _ l (by omega) (by omega) (sorted_ins hs) (by
      intro x hx
      rcases mem_ins.1 hx with rfl | hx
      · exact ⟨ho.1, ho.2.1, ho.2.2.1, ho.2.2.2.1⟩
      · exact ha x hx) h
    refine ⟨r1, r2, fun x hx => r3 x (mem_ins.2 (Or.inr hx)), ?_, ?_⟩
    · intro j h1 h2
      by_cases e : j = i
      · subst e; exact r3 _ (mem_ins.2 (Or.inl rfl))
      · exact r4 j (by omega) h2
    · intro _
      by_cases hk0 : 0 < k
      · exact r5 hk0
      · have : k = 0 := by omega
        subst this
        simp only [optLoop, Option.some.injEq] at h; subst h
        omega

/-- C18: the sizes made for a range of items are valid, strictly increasing, at most 128, none is below the smallest item,
and they cover the largest item. -/
theorem optimal_spec {minItem maxItem : Nat} {l : List Nat} (h : generateOptimal minItem maxItem = some l) :
    l.Pairwise (· < ·) ∧ (∀ x ∈ l, 64 ≤ x ∧ x ≤ 4194304 ∧ x % 8 = 0 ∧ minItem ≤ x) ∧ (∃ x ∈ l, maxItem ≤ x) ∧ l.length ≤ 128 := by
  unfold generateOptimal at h
  split at h
  · simp at h
  rename_i h1
  split at h
  · simp at h
  rename_i h2
  simp only at h
  have hd : KS / max maxItem 64 ≤ KS / max minItem 64 := Nat.div_le_div_left (by omega) (by omega)
  obtain ⟨r1, r2, _, r4, r5⟩ := optLoop_spec (lo := max minItem 64) (hi := max maxItem 64) (by omega) (by omega) (by omega) _ _ [] l
    (Nat.le_refl _) (by omega) List.Pairwise.nil (by simp) h
  refine ⟨r1, ?_, ⟨_, r4 _ (Nat.le_refl _) hd, ?_⟩, r5 (by omega)⟩
  · intro x hx; have := r2 x hx; omega
  · have := (optSize_spec (lo := max minItem 64) (hi := max maxItem 64) (i := KS / max maxItem 64) (by omega) (by omega) (by omega)
      (Nat.le_refl _) hd).2.2.2.2 rfl
    omega

theorem evenLoop_spec {lo hi n : Nat} (hlo : 64 ≤ lo) (hlh : lo ≤ hi) (hhi : hi ≤ KS) (hn0 : 0 < n) (hn : n ≤ 128) : ∀ (k i : Nat) (acc : List Nat),
    i + k = n → acc.Pairwise (· < ·) → (∀ x ∈ acc, 64 ≤ x ∧ x ≤ KS ∧ x % 8 = 0 ∧ lo ≤ x) →
    (evenLoop lo hi n k i acc).Pairwise (· < ·) ∧ (∀ x ∈ evenLoop lo hi n k i acc, 64 ≤ x ∧ x ≤ KS ∧ x % 8 = 0 ∧ lo ≤ x) ∧
    (∀ x ∈ acc, x ∈ evenLoop lo hi n k i acc) ∧
    (∀ j, i ≤ j → j < n → ∃ x ∈ evenLoop lo hi n k i acc, hi - (hi - lo) * j / n ≤ x) ∧
    (evenLoop lo hi n k i acc).length ≤ acc.length + k
  | 0, i, acc, hk, hs, ha => ⟨hs, ha, fun _ h => h, fun j h1 h2 => by omega, by simp [evenLoop]⟩
  | k + 1, i, acc, hk, hs, ha => by
    simp only [evenLoop]
    have hmul : (hi - lo) * i ≤ KS * 128 := Nat.mul_le_mul (by omega) (by omega)
    have hmod : (hi - lo) * i % 2 ^ 32 = (hi - lo) * i := Nat.mod_eq_of_lt (by omega)
    rw [hmod]
    have hoff : (hi - lo) * i / n ≤ hi - lo := by
      rw [Nat.div_le_iff_le_mul hn0]
      have : (hi - lo) * i ≤ (hi - lo) * n := Nat.mul_le_mul_left _ (by omega)
      omega
    generalize hof : (hi - lo) * i / n = off at hoff ⊢
    have hu := alignUp_spec (n := hi - off) (by omega)
    have hul : alignUp (hi - off) ≤ KS := alignUp_le (by decide) (by omega) (Nat.le_refl _)
    have hm := maximize_spec (n := alignUp (hi - off)) (by omega) hul hu.2.1
    obtain ⟨r1, r2, r3, r4, r5⟩ := evenLoop_spec hlo hlh hhi hn0 hn k (i + 1) (ins (maximize (alignUp (hi - off))) acc)
      (by omega) (sorted_ins hs) (by
        intro x hx
        rcases mem_ins.1 hx with rfl | hx
        · exact ⟨by omega, by omega, by omega, by omega⟩
        · exact ha x hx)
    refine ⟨r1, r2, fun x hx => r3 x (mem_ins.2 (Or.inr hx)), ?_, ?_⟩
    · intro j h1 h2
      by_cases e : j = i
      · subst e; exact ⟨_, r3 _ (mem_ins.2 (Or.inl rfl)), by rw [hof]; omega⟩
      · exact r4 j (by omega) h2
    · have := ins_len (n := maximize (alignUp (hi - off))) (l := acc); omega

/-- C18: the evenly distributed sizes are valid, strictly increasing, at most as many as asked for, none is below the smallest
item, and each of the evenly distributed item sizes, the largest one first, fits in one of them. -/
theorem even_spec {minItem maxItem n : Nat} {l : List Nat} (h : generateEven minItem maxItem n = some l) :
    l.Pairwise (· < ·) ∧ (∀ x ∈ l, 64 ≤ x ∧ x ≤ 4194304 ∧ x % 8 = 0 ∧ minItem ≤ x) ∧ l.length ≤ n ∧
    ∀ j < n, ∃ x ∈ l, max maxItem 64 - (max maxItem 64 - max minItem 64) * j / n ≤ x := by
  unfold generateEven at h
  split at h
  · simp at h
  split at h
  · simp at h
  split at h
  · simp at h
  split at h
  · simp at h
  simp only [Option.some.injEq] at h; subst h
  obtain ⟨r1, r2, _, r4, r5⟩ := evenLoop_spec (lo := max minItem 64) (hi := max maxItem 64) (n := n) (by omega) (by omega) (by omega)
    (by omega) (by omega) n 0 [] (by omega) List.Pairwise.nil (by simp)
  refine ⟨r1, ?_, by simpa using r5, fun j hj => r4 j (by omega) hj⟩
  intro x hx; have := r2 x hx; omega

/-- C18: a request is refused exactly if it is for 0 bytes or for more than the largest class has. -/
theorem classFor_none {sizes : List Nat} {n : Nat} (hs : sizes.Pairwise (· < ·)) (h0 : sizes ≠ []) :
    classFor sizes n = none ↔ n = 0 ∨ ∀ k ∈ sizes, k < n := by
  have hl : sizes.getLastD 0 = sizes.getLast h0 := by
    rw [List.getLastD_eq_getLast?, List.getLast?_eq_getLast_of_ne_nil h0]; rfl
  have hmax : ∀ k ∈ sizes, k ≤ sizes.getLast h0 := by
    intro k hk
    obtain ⟨ys, y, rfl⟩ : ∃ ys y, sizes = ys ++ [y] := ⟨_, _, (List.dropLast_append_getLast h0).symm⟩
    simp only [List.getLast_append_singleton]
    rcases List.mem_append.1 hk with h | h
    · exact Nat.le_of_lt ((List.pairwise_append.1 hs).2.2 k h y (by simp))
    · simp at h; omega
  unfold classFor
  rw [hl]
  split
  · rename_i h
    simp only [true_iff]
    rcases h with h | h
    · exact Or.inr fun k hk => Nat.lt_of_le_of_lt (hmax k hk) h
    · exact Or.inl h
  · rename_i h
    simp only [reduceCtorEq, false_iff]
    rintro (h1 | h1)
    · exact h (Or.inr h1)
    · exact h (Or.inl (h1 _ (List.getLast_mem h0)))

/-- C18: otherwise the class that is used is the smallest one that is large enough. -/
theorem classFor_some {sizes : List Nat} {n c : Nat} (hs : sizes.Pairwise (· < ·)) (h : classFor sizes n = some c) :
    c < sizes.length ∧ n ≤ sizes.getD c 0 ∧ ∀ d < c, sizes.getD d 0 < n := by
  unfold classFor at h
  split at h
  · simp at h
  rename_i hn
  simp only [Option.some.injEq] at h
  have hne : sizes ≠ [] := by
    rintro rfl
    simp at hn
  have hl : sizes.getLastD 0 = sizes.getLast hne := by
    rw [List.getLastD_eq_getLast?, List.getLast?_eq_getLast_of_ne_nil hne]; rfl
  have hc : c < sizes.length := by
    rw [← h, List.findIdx_lt_length]
    refine ⟨sizes.getLast hne, List.getLast_mem hne, ?_⟩
    simp only [decide_eq_true_eq]
    omega
  refine ⟨hc, ?_, ?_⟩
  · rw [getD_eq _ _ hc]
    have := List.findIdx_getElem (xs := sizes) (p := fun k => decide (¬ k < n)) (w := by rw [h]; exact hc)
    simp only [h, decide_eq_true_eq] at this
    omega
  · intro d hd
    rw [getD_eq _ _ (by omega)]
    have := List.not_of_lt_findIdx (xs := sizes) (p := fun k => decide (¬ k < n)) (i := d) (by rw [h]; exact hd)
    simpa using this

end Verif.MemPool
