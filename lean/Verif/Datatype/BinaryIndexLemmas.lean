import Verif.Datatype.BinaryIndex

set_option linter.unusedSectionVars false

/-! # The sorted index: invariant and correctness -/

namespace Verif.Datatype

/-- `operator<` of the key type is a strict total order (what `std::lower_bound` requires). -/
structure StrictTotal {K : Type} (lt : K → K → Bool) : Prop where
  irrefl : ∀ a, lt a a = false
  trans : ∀ a b c, lt a b = true → lt b c = true → lt a c = true
  total : ∀ a b, a ≠ b → lt a b = true ∨ lt b a = true

namespace BI
variable {K : Type} [DecidableEq K] {lt : K → K → Bool}

structure Inv (lt : K → K → Bool) (t : BI K) : Prop where
  sorted : ∀ (i j : Nat), i < j → j < t.num → lt (t.ents i).1 (t.ents j).1 = true
  numb : t.num ≤ t.cap

def Has (t : BI K) (k : K) (a : Nat) : Prop := ∃ i, i < t.num ∧ t.ents i = (k, a)

theorem Inv.idx_unique (hl : StrictTotal lt) {t : BI K} (h : Inv lt t) {i j : Nat} (hi : i < t.num) (hj : j < t.num)
    (he : (t.ents i).1 = (t.ents j).1) : i = j := by
  rcases Nat.lt_trichotomy i j with h1 | h1 | h1
  · have := h.sorted i j h1 hj; rw [he, hl.irrefl] at this; cases this
  · exact h1
  · have := h.sorted j i h1 hi; rw [he, hl.irrefl] at this; cases this

theorem Inv.has_unique (hl : StrictTotal lt) {t : BI K} (h : Inv lt t) {k : K} {a b : Nat}
    (h1 : Has t k a) (h2 : Has t k b) : a = b := by
  obtain ⟨i, hi, e1⟩ := h1
  obtain ⟨j, hj, e2⟩ := h2
  have := h.idx_unique hl hi hj (by rw [e1, e2])
  subst this
  rw [e1] at e2; simpa using e2

theorem lowerLoop_spec (hl : StrictTotal lt) {t : BI K} (h : Inv lt t) (key : K) : ∀ (f first len : Nat),
    len < f → first + len ≤ t.num →
    (∀ i, i < first → lt (t.ents i).1 key = true) →
    (∀ i, first + len ≤ i → i < t.num → lt (t.ents i).1 key = false) →
    (lowerLoop lt t.ents key f first len ≤ t.num ∧
      (∀ i, i < lowerLoop lt t.ents key f first len → lt (t.ents i).1 key = true) ∧
      (∀ i, lowerLoop lt t.ents key f first len ≤ i → i < t.num → lt (t.ents i).1 key = false)) := by
  intro f
  induction f with
  | zero => intro first len hf; omega
  | succ f ih =>
    intro first len hf hle h1 h2
    unfold lowerLoop
    by_cases hz : len = 0
    · rw [if_pos hz]; subst hz; exact ⟨by omega, h1, by simpa using h2⟩
    · rw [if_neg hz]
      dsimp only
      have hmid : first + len / 2 < t.num := by omega
      by_cases hc : lt (t.ents (first + len / 2)).1 key = true
      · rw [if_pos hc]
        apply ih _ _ (by omega) (by omega)
        · intro i hi
          by_cases hi2 : i = first + len / 2
          · subst hi2; exact hc
          · exact hl.trans _ _ _ (h.sorted i (first + len / 2) (by omega) hmid) hc
        · intro i hi hi2; exact h2 i (by omega) hi2
      · rw [if_neg hc]
        apply ih _ _ (by omega) (by omega) h1
        intro i hi hi2
        by_cases hi3 : i = first + len / 2
        · subst hi3; simpa using hc
        · cases hx : lt (t.ents i).1 key with
          | false => rfl
          | true =>
            exact absurd (hl.trans _ _ _ (h.sorted (first + len / 2) i (by omega) hi2) hx) hc

theorem lower_spec (hl : StrictTotal lt) {t : BI K} (h : Inv lt t) (key : K) :
    t.lookupLowerbound lt key ≤ t.num ∧
      (∀ i, i < t.lookupLowerbound lt key → lt (t.ents i).1 key = true) ∧
      (∀ i, t.lookupLowerbound lt key ≤ i → i < t.num → lt (t.ents i).1 key = false) :=
  lowerLoop_spec hl h key (t.num + 1) 0 t.num (by omega) (by omega) (by intros; omega) (by intros; omega)

theorem lookup_spec (hl : StrictTotal lt) {t : BI K} (h : Inv lt t) (key : K) :
    (t.lookup lt key < t.num ∧ (t.ents (t.lookup lt key)).1 = key) ∨
    (t.lookup lt key = t.num ∧ ∀ a, ¬ Has t key a) := by
  obtain ⟨h1, h2, h3⟩ := lower_spec hl h key
  unfold lookup
  dsimp only
  by_cases hc : t.lookupLowerbound lt key = t.num ∨ (t.ents (t.lookupLowerbound lt key)).1 ≠ key
  · rw [if_pos hc]
    right
    refine ⟨rfl, ?_⟩
    rintro a ⟨i, hi, he⟩
    have hki : lt (t.ents i).1 key = false := by rw [he]; exact hl.irrefl _
    have hge : t.lookupLowerbound lt key ≤ i := by
      rcases Nat.lt_or_ge i (t.lookupLowerbound lt key) with hh | hh
      · rw [h2 i hh] at hki; cases hki
      · exact hh
    rcases hc with hc | hc
    · omega
    · have hne : t.lookupLowerbound lt key ≠ i := by rintro e; rw [e, he] at hc; exact hc rfl
      have := h.sorted (t.lookupLowerbound lt key) i (by omega) hi
      rw [he] at this
      rw [h3 _ (Nat.le_refl _) (by omega)] at this; cases this
  · rw [if_neg hc]
    left
    have hne : ¬ t.lookupLowerbound lt key = t.num := fun e => hc (Or.inl e)
    refine ⟨by omega, Classical.byContradiction fun e => hc (Or.inr e)⟩

theorem memmove_up {m : Nat → K × Nat} {res n x : Nat} :
    memmove m (res + 1) res (n - res) x = if res + 1 ≤ x ∧ x < res + 1 + (n - res) then m (x - 1) else m x := by
  unfold memmove
  split
  · congr 1; omega
  · rfl

theorem insertInternal_spec (hl : StrictTotal lt) {t : BI K} (h : Inv lt t) (key : K) (addr : Nat)
    (hc : t.num < t.cap) (hno : ∀ a, ¬ Has t key a) :
    ∃ t', t.insertInternal lt key addr = some t' ∧ Inv lt t' ∧ t'.cap = t.cap ∧ t'.num = t.num + 1 ∧
      (∀ k a, Has t' k a ↔ (k = key ∧ a = addr) ∨ Has t k a) := by
  obtain ⟨h1, h2, h3⟩ := lower_spec hl h key
  obtain ⟨r, hr⟩ : ∃ r, r = t.lookupLowerbound lt key := ⟨_, rfl⟩
  rw [← hr] at h1 h2 h3
  unfold insertInternal
  dsimp only
  rw [if_neg (by omega), ← hr]
  obtain ⟨m', hm'⟩ : ∃ m' : Nat → K × Nat, m' = fun x => if x = r then (key, addr) else
      (if r < t.num then memmove t.ents (r + 1) r (t.num - r) else t.ents) x := ⟨_, rfl⟩
  have e1 : ∀ x, x < r → m' x = t.ents x := by
    intro x hx; rw [hm']; dsimp only; rw [if_neg (by omega)]
    split
    · rw [memmove_up, if_neg (by omega)]
    · rfl
  have e2 : m' r = (key, addr) := by rw [hm']; simp
  have e3 : ∀ x, r < x → x < t.num + 1 → m' x = t.ents (x - 1) := by
    intro x hx hx2; rw [hm']; dsimp only; rw [if_neg (by omega), if_pos (by omega), memmove_up, if_pos (by omega)]
  rw [← hm']
  refine ⟨_, rfl, ⟨?_, by dsimp only; omega⟩, rfl, rfl, ?_⟩
  · dsimp only
    have hgt : ∀ i, r ≤ i → i < t.num → lt key (t.ents i).1 = true := by
      intro i hi hi2
      have hne : key ≠ (t.ents i).1 := by
        intro e; exact hno (t.ents i).2 ⟨i, hi2, by rw [e]⟩
      rcases hl.total _ _ hne with hh | hh
      · exact hh
      · rw [h3 i hi hi2] at hh; cases hh
    intro i j hij hj
    rcases Nat.lt_trichotomy j r with hjr | hjr | hjr
    · rw [e1 i (by omega), e1 j hjr]; exact h.sorted i j hij (by omega)
    · subst hjr
      rw [e1 i hij, e2]; exact h2 i hij
    · rw [e3 j hjr hj]
      rcases Nat.lt_trichotomy i r with hir | hir | hir
      · rw [e1 i hir]; exact h.sorted i (j - 1) (by omega) (by omega)
      · subst hir; rw [e2]; exact hgt (j - 1) (by omega) (by omega)
      · rw [e3 i hir (by omega)]; exact h.sorted (i - 1) (j - 1) (by omega) (by omega)
  · intro k a
    unfold Has
    dsimp only
    constructor
    · rintro ⟨i, hi, he⟩
      rcases Nat.lt_trichotomy i r with hir | hir | hir
      · rw [e1 i hir] at he; exact Or.inr ⟨i, by omega, he⟩
      · subst hir; rw [e2] at he; cases he; exact Or.inl ⟨rfl, rfl⟩
      · rw [e3 i hir hi] at he; exact Or.inr ⟨i - 1, by omega, he⟩
    · rintro (⟨rfl, rfl⟩ | ⟨i, hi, he⟩)
      · exact ⟨r, by omega, e2⟩
      · by_cases hir : i < r
        · exact ⟨i, by omega, by rw [e1 i hir]; exact he⟩
        · exact ⟨i + 1, by omega, by rw [e3 (i + 1) (by omega) (by omega)]; exact he⟩

theorem insertOrReplace_spec (hl : StrictTotal lt) {t : BI K} (h : Inv lt t) (key : K) (addr : Nat)
    (hc : t.num < t.cap ∨ ∃ a, Has t key a) (hnn : ∀ k a, Has t k a → isNull a = false) :
    ∃ t' old, t.insertOrReplace lt key addr = some (t', old) ∧ Inv lt t' ∧ t'.cap = t.cap ∧
      (∀ k a, Has t' k a ↔ (k = key ∧ a = addr) ∨ (k ≠ key ∧ Has t k a)) ∧
      (Has t key old ∧ isNull old = false ∧ t'.num = t.num ∨
        (∀ a, ¬ Has t key a) ∧ old = nullAddr ∧ t'.num = t.num + 1) := by
  unfold insertOrReplace
  dsimp only
  rcases lookup_spec hl h key with ⟨h1, h2⟩ | ⟨h1, h2⟩
  · rw [if_pos (by omega)]
    obtain ⟨e, he⟩ : ∃ e, e = t.lookup lt key := ⟨_, rfl⟩
    rw [← he] at h1 h2 ⊢
    have hhas : Has t key (t.ents e).2 := ⟨e, h1, by rw [← h2]⟩
    refine ⟨_, _, rfl, ⟨?_, h.numb⟩, rfl, ?_, Or.inl ⟨hhas, hnn _ _ hhas, rfl⟩⟩
    · dsimp only
      have hk : ∀ x, (if x = e then ((t.ents e).1, addr) else t.ents x).1 = (t.ents x).1 := by
        intro x; split
        · rename_i hx; rw [hx]
        · rfl
      intro i j hij hj
      rw [hk, hk]; exact h.sorted i j hij hj
    · intro k a
      constructor
      · rintro ⟨i, hi, hie⟩
        dsimp only at hi hie
        by_cases hx : i = e
        · rw [if_pos hx] at hie
          rw [h2] at hie; cases hie; exact Or.inl ⟨rfl, rfl⟩
        · rw [if_neg hx] at hie
          refine Or.inr ⟨?_, i, hi, hie⟩
          rintro rfl
          exact hx (h.idx_unique hl hi h1 (by rw [hie, h2]))
      · rintro (⟨rfl, rfl⟩ | ⟨hne, i, hi, hie⟩)
        · exact ⟨e, h1, by simp [h2]⟩
        · refine ⟨i, hi, ?_⟩
          dsimp only
          rw [if_neg]
          · exact hie
          · rintro rfl; rw [hie] at h2; exact hne h2
  · rw [if_neg (by omega)]
    have hc' : t.num < t.cap := by
      rcases hc with hc | ⟨a, ha⟩
      · exact hc
      · exact absurd ha (h2 a)
    obtain ⟨t', g1, g2, g3, g4, g5⟩ := insertInternal_spec hl h key addr hc' h2
    rw [g1]
    refine ⟨t', nullAddr, rfl, g2, g3, ?_, Or.inr ⟨h2, rfl, g4⟩⟩
    intro k a
    rw [g5]
    constructor
    · rintro (h4 | h4)
      · exact Or.inl h4
      · exact Or.inr ⟨by rintro rfl; exact h2 a h4, h4⟩
    · rintro (h4 | h4)
      · exact Or.inl h4
      · exact Or.inr h4.2

theorem memmove_down {m : Nat → K × Nat} {e n x : Nat} (hx : x < n) :
    (if e < n then memmove m e (e + 1) (n - e) else m) x = if e ≤ x then m (x + 1) else m x := by
  by_cases h : e < n
  · rw [if_pos h]; unfold memmove
    by_cases h2 : e ≤ x
    · rw [if_pos (by omega), if_pos h2]; congr 1; omega
    · rw [if_neg (by omega), if_neg h2]
  · rw [if_neg h, if_neg (by omega)]

theorem remove_spec (hl : StrictTotal lt) {t : BI K} (h : Inv lt t) (key : K) :
    Inv lt (t.remove lt key).1 ∧ (t.remove lt key).1.cap = t.cap ∧
      (∀ k a, Has (t.remove lt key).1 k a ↔ k ≠ key ∧ Has t k a) ∧
      (Has t key (t.remove lt key).2 ∧ (t.remove lt key).1.num + 1 = t.num ∨
        (∀ a, ¬ Has t key a) ∧ (t.remove lt key) = (t, nullAddr)) := by
  unfold remove
  dsimp only
  rcases lookup_spec hl h key with ⟨h1, h2⟩ | ⟨h1, h2⟩
  · rw [if_neg (by omega)]
    obtain ⟨e, he⟩ : ∃ e, e = t.lookup lt key := ⟨_, rfl⟩
    rw [← he] at h1 h2 ⊢
    have hn := h.numb
    refine ⟨⟨?_, by dsimp only; omega⟩, rfl, ?_, Or.inl ⟨⟨e, h1, by dsimp only; rw [← h2]⟩, by dsimp only; omega⟩⟩
    · dsimp only
      intro i j hij hj
      rw [memmove_down (by omega), memmove_down hj]
      split <;> split <;> first | omega | exact h.sorted _ _ (by omega) (by omega)
    · intro k a
      unfold Has
      dsimp only
      constructor
      · rintro ⟨i, hi, hie⟩
        rw [memmove_down hi] at hie
        split at hie
        · refine ⟨?_, i + 1, by omega, hie⟩
          rintro rfl
          have := h.idx_unique hl (show i + 1 < t.num by omega) h1 (by rw [hie, h2])
          omega
        · refine ⟨?_, i, by omega, hie⟩
          rintro rfl
          have := h.idx_unique hl (show i < t.num by omega) h1 (by rw [hie, h2])
          omega
      · rintro ⟨hne, i, hi, hie⟩
        have hie' : i ≠ e := by rintro rfl; rw [hie] at h2; exact hne h2
        by_cases hlt : i < e
        · exact ⟨i, by omega, by rw [memmove_down (by omega), if_neg (by omega)]; exact hie⟩
        · refine ⟨i - 1, by omega, ?_⟩
          rw [memmove_down (by omega), if_pos (by omega), show i - 1 + 1 = i by omega]; exact hie
  · rw [if_pos h1]
    refine ⟨h, rfl, ?_, Or.inr ⟨h2, rfl⟩⟩
    intro k a
    constructor
    · intro hk; exact ⟨by rintro rfl; exact h2 a hk, hk⟩
    · exact fun hk => hk.2

theorem countBefore_spec (hl : StrictTotal lt) {t : BI K} (h : Inv lt t) (key : K) : ∀ (f cur : Nat),
    cur ≤ t.num → t.num < cur + f → (∀ i, i < cur → lt (t.ents i).1 key = true) →
    (t.countBefore lt key f cur ≤ t.num ∧
      (∀ i, i < t.countBefore lt key f cur → lt (t.ents i).1 key = true) ∧
      (∀ i, t.countBefore lt key f cur ≤ i → i < t.num → lt (t.ents i).1 key = false)) := by
  intro f
  induction f with
  | zero => intro cur hc hf; omega
  | succ f ih =>
    intro cur hc hf h1
    unfold countBefore
    by_cases hcond : cur ≠ t.num ∧ lt (t.ents cur).1 key = true
    · rw [if_pos hcond]
      apply ih _ (by omega) (by omega)
      intro i hi
      by_cases hi2 : i = cur
      · subst hi2; exact hcond.2
      · exact h1 i (by omega)
    · rw [if_neg hcond]
      refine ⟨hc, h1, ?_⟩
      intro i hi hi2
      have hcf : lt (t.ents cur).1 key = false := by
        cases hx : lt (t.ents cur).1 key with
        | false => rfl
        | true => exact absurd ⟨by omega, hx⟩ hcond
      by_cases hi3 : i = cur
      · subst hi3; exact hcf
      · cases hx : lt (t.ents i).1 key with
        | false => rfl
        | true =>
          have := hl.trans _ _ _ (h.sorted cur i (by omega) hi2) hx
          rw [hcf] at this; cases this

/-- `removeBefore` removes exactly the keys below `key`, and hands each of their addresses, once, to the callback. -/
theorem removeBefore_spec (hl : StrictTotal lt) {t : BI K} (h : Inv lt t) (key : K) :
    Inv lt (t.removeBefore lt key).1 ∧ (t.removeBefore lt key).1.cap = t.cap ∧
      (∀ k a, Has (t.removeBefore lt key).1 k a ↔ lt k key = false ∧ Has t k a) ∧
      (t.removeBefore lt key).1.num + (t.removeBefore lt key).2.1 = t.num ∧
      (t.removeBefore lt key).2.2.length = (t.removeBefore lt key).2.1 ∧
      (∃ ks : List K, (ks.zip (t.removeBefore lt key).2.2).length = (t.removeBefore lt key).2.1 ∧ ks.Nodup ∧
        ∀ k a, (k, a) ∈ ks.zip (t.removeBefore lt key).2.2 ↔ lt k key = true ∧ Has t k a) := by
  obtain ⟨h1, h2, h3⟩ := countBefore_spec hl h key (t.num + 1) 0 (by omega) (by omega) (by intros; omega)
  unfold removeBefore
  dsimp only
  obtain ⟨c, hc⟩ : ∃ c, c = t.countBefore lt key (t.num + 1) 0 := ⟨_, rfl⟩
  rw [← hc] at h1 h2 h3 ⊢
  have hn := h.numb
  by_cases hz : c = 0
  · rw [if_pos hz]
    refine ⟨h, rfl, ?_, by simp, rfl, [], by simp, by simp, ?_⟩
    · intro k a
      constructor
      · rintro ⟨i, hi, hie⟩
        refine ⟨?_, i, hi, hie⟩
        have := h3 i (by omega) hi
        rw [hie] at this; exact this
      · exact fun hk => hk.2
    · intro k a
      simp only [List.zip_nil_left, List.not_mem_nil, false_iff, not_and]
      rintro hk ⟨i, hi, hie⟩
      have := h3 i (by omega) hi
      rw [hie] at this; dsimp only at this; rw [hk] at this; cases this
  · rw [if_neg hz]
    dsimp only
    have hmv : ∀ x, x < t.num - c →
        (if c ≠ t.num then memmove t.ents 0 c (t.num - c) else t.ents) x = t.ents (c + x) := by
      intro x hx
      rw [if_pos (by omega)]
      unfold memmove
      rw [if_pos (by omega)]; rfl
    refine ⟨⟨?_, by dsimp only; omega⟩, rfl, ?_, by omega, by simp, ?_⟩
    · dsimp only
      intro i j hij hj
      rw [hmv i (by omega), hmv j hj]; exact h.sorted _ _ (by omega) (by omega)
    · intro k a
      unfold Has
      dsimp only
      constructor
      · rintro ⟨i, hi, hie⟩
        rw [hmv i hi] at hie
        refine ⟨?_, c + i, by omega, hie⟩
        have := h3 (c + i) (by omega) (by omega)
        rw [hie] at this; exact this
      · rintro ⟨hk, i, hi, hie⟩
        have hci : c ≤ i := by
          rcases Nat.lt_or_ge i c with hh | hh
          · have := h2 i hh; rw [hie] at this; dsimp only at this; rw [hk] at this; cases this
          · exact hh
        refine ⟨i - c, by omega, ?_⟩
        rw [hmv _ (by omega), show c + (i - c) = i by omega]; exact hie
    · refine ⟨(List.range c).map (fun i => (t.ents i).1), by simp, ?_, ?_⟩
      · unfold List.Nodup
        rw [List.pairwise_map]
        apply List.Pairwise.imp_of_mem _ (List.nodup_range (n := c))
        intro a b ha hb hab he
        rw [List.mem_range] at ha hb
        exact hab (h.idx_unique hl (by omega) (by omega) he)
      · intro k a
        have hzip : ((List.range c).map (fun i => (t.ents i).1)).zip ((List.range c).map (fun i => (t.ents i).2)) =
            (List.range c).map t.ents := by
          rw [List.zip_map']
        rw [hzip, List.mem_map]
        constructor
        · rintro ⟨i, hi, he⟩
          rw [List.mem_range] at hi
          refine ⟨?_, i, by omega, he⟩
          have := h2 i hi
          rw [he] at this; exact this
        · rintro ⟨hk, i, hi, hie⟩
          refine ⟨i, ?_, hie⟩
          rw [List.mem_range]
          rcases Nat.lt_or_ge i c with hh | hh
          · exact hh
          · have := h3 i hh hi; rw [hie] at this; dsimp only at this; rw [hk] at this; cases this

theorem new_inv (cap : Nat) (junk : Nat → K × Nat) : Inv lt (new cap junk) ∧ ∀ k a, ¬ Has (new cap junk) k a := by
  refine ⟨⟨?_, Nat.zero_le _⟩, ?_⟩
  · intro i j _ hj; simp [new] at hj
  · rintro k a ⟨i, hi, _⟩; simp [new] at hi

theorem clone_spec {t : BI K} (h : Inv lt t) {cap : Nat} (hc : t.cap ≤ cap) (junk : Nat → K × Nat) :
    Inv lt (cloneIndex (new cap junk) t) ∧ (cloneIndex (new cap junk) t).cap = cap ∧
      (cloneIndex (new cap junk) t).num = t.num ∧ ∀ k a, Has (cloneIndex (new cap junk) t) k a ↔ Has t k a := by
  have hn := h.numb
  refine ⟨⟨?_, by simp [cloneIndex, new]; omega⟩, rfl, rfl, ?_⟩
  · intro i j hij hj
    simp only [cloneIndex] at hj ⊢
    rw [if_pos (by omega), if_pos hj]; exact h.sorted i j hij hj
  · intro k a
    unfold Has
    simp only [cloneIndex]
    constructor
    · rintro ⟨i, hi, hie⟩; rw [if_pos hi] at hie; exact ⟨i, hi, hie⟩
    · rintro ⟨i, hi, hie⟩; exact ⟨i, hi, by rw [if_pos hi]; exact hie⟩

end BI
end Verif.Datatype
