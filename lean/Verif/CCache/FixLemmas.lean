import Verif.CCache.FixModel

/-! Fixed-size buckets: the array represents a list of entries. -/
namespace Verif.CCache

variable {K V : Type}

/-- The occupied slots are a prefix of the array. -/
structure FRep (c : FCfg K V) (b : Nat → K × V) (l : List (K × V)) : Prop where
  len : l.length ≤ c.num
  used : ∀ (i : Nat) (e : K × V), l[i]? = some e → b i = e ∧ c.isEmpty e.1 = false
  free : ∀ i : Nat, l.length ≤ i → i < c.num → c.isEmpty (b i).1 = true

variable {c : FCfg K V} {b : Nat → K × V} {l : List (K × V)}

theorem FRep.valid (h : FRep c b l) (i : Nat) : fValid c b i = true ↔ i < l.length := by
  have hlen := h.len
  simp only [fValid, Bool.and_eq_true, decide_eq_true_eq, Bool.not_eq_true']
  constructor
  · rintro ⟨h1, h2⟩
    rcases Nat.lt_or_ge i l.length with h3 | h3
    · exact h3
    · rw [h.free i h3 h1] at h2; cases h2
  · intro hi
    have := h.used i _ (List.getElem?_eq_getElem hi)
    exact ⟨by omega, by rw [this.1]; exact this.2⟩

theorem fInsert_spec (hn : 0 < c.num) (h : FRep c b l) {k : K} {v : V} (hk : c.isEmpty k = false) :
    FRep c (fInsert c b k v).2.1 ((k, v) :: l.take (c.num - 1)) ∧
    (fInsert c b k v).2.2 = (l.drop (c.num - 1)).reverse ∧
    ((fInsert c b k v).1 = true ↔ l.length = c.num) := by
  have hlen := h.len
  have hget : ∀ i, (fInsert c b k v).2.1 i =
      if i = 0 then (k, v) else if i < c.num then b (i - 1) else b i := by
    intro i
    simp only [fInsert, put, memmove]
    by_cases h0 : i = 0
    · simp [h0]
    · by_cases h1 : i < c.num
      · simp only [h0, h1, if_false, if_true]
        rw [if_pos (by omega), Nat.add_zero]
      · simp only [h0, h1, if_false]
        rw [if_neg (by omega)]
  have hev : c.isEmpty (b (c.num - 1)).1 = false ↔ l.length = c.num := by
    have := (h.valid (c.num - 1))
    simp only [fValid, Bool.and_eq_true, decide_eq_true_eq, Bool.not_eq_true'] at this
    constructor
    · intro he; have := this.1 ⟨by omega, he⟩; omega
    · intro he; exact (this.2 (by omega)).2
  refine ⟨⟨?_, ?_, ?_⟩, ?_, ?_⟩
  · simp only [List.length_cons, List.length_take]; omega
  · intro i e hi
    rw [hget]
    cases i with
    | zero =>
      simp only [List.getElem?_cons_zero, Option.some.injEq] at hi
      subst hi; simp [hk]
    | succ i =>
      rw [List.getElem?_cons_succ, List.getElem?_take] at hi
      split at hi
      · have := h.used i e hi
        rw [if_neg (by omega), if_pos (by omega)]
        simpa using this
      · cases hi
  · intro i h1 h2
    simp only [List.length_cons, List.length_take] at h1
    rw [hget, if_neg (by omega), if_pos h2]
    exact h.free _ (by omega) (by omega)
  · simp only [fInsert]
    by_cases he : l.length = c.num
    · have h1 := h.used (c.num - 1) _ (List.getElem?_eq_getElem (by omega))
      rw [hev.2 he]
      have : l.drop (c.num - 1) = [l[c.num - 1]'(by omega)] := by
        rw [List.drop_eq_getElem_cons (by omega), List.drop_eq_nil_of_le (by omega)]
      rw [this]; simp [h1.1]
    · have : c.isEmpty (b (c.num - 1)).1 = true := by
        cases hb : c.isEmpty (b (c.num - 1)).1 with
        | true => rfl
        | false => exact absurd (hev.1 hb) he
      rw [this, List.drop_eq_nil_of_le (by omega)]; rfl
  · simp only [fInsert, Bool.not_eq_true']; exact hev

theorem fPromote_spec (h : FRep c b l) {pos : Nat} {e : K × V} (hp : l[pos]? = some e) :
    FRep c (fPromote b pos) (e :: l.eraseIdx pos) := by
  have hlen := h.len
  have hlt : pos < l.length := (List.getElem?_eq_some_iff.1 hp).1
  have hu := h.used pos e hp
  have hlen' : (e :: l.eraseIdx pos).length = l.length := by
    rw [List.length_cons, List.length_eraseIdx_of_lt hlt]; omega
  have hget : ∀ i, fPromote b pos i =
      if i = 0 then e else if i ≤ pos then b (i - 1) else b i := by
    intro i
    simp only [fPromote]
    by_cases hp0 : pos = 0
    · subst hp0
      simp only [ne_eq, not_true_eq_false, if_false]
      by_cases h0 : i = 0
      · simp [h0, hu.1]
      · rw [if_neg h0, if_neg (by omega)]
    · rw [if_pos hp0]
      simp only [put, memmove]
      by_cases h0 : i = 0
      · simp [h0, hu.1]
      · rw [if_neg h0, if_neg h0]
        by_cases h1 : i ≤ pos
        · rw [if_pos (by omega), if_pos h1, Nat.add_zero]
        · rw [if_neg (by omega), if_neg h1]
  refine ⟨by omega, ?_, ?_⟩
  · intro i e' hi
    rw [hget]
    cases i with
    | zero =>
      simp only [List.getElem?_cons_zero, Option.some.injEq] at hi
      subst hi; simp [hu.2]
    | succ i =>
      rw [List.getElem?_cons_succ, List.getElem?_eraseIdx] at hi
      rw [if_neg (by omega)]
      split at hi
      · rw [if_pos (by omega)]; exact h.used i e' hi
      · rw [if_neg (by omega)]; exact h.used _ e' hi
  · intro i h1 h2
    rw [hlen'] at h1
    rw [hget, if_neg (by omega), if_neg (by omega)]
    exact h.free i h1 h2

theorem fDel_spec (hz : c.isEmpty c.zero.1 = true) (h : FRep c b l) {pos : Nat}
    (hlt : pos < l.length) : FRep c (fDel c b pos) (l.eraseIdx pos) := by
  have hlen := h.len
  have hlen' : (l.eraseIdx pos).length = l.length - 1 := List.length_eraseIdx_of_lt hlt
  have hget : ∀ i, i < c.num → fDel c b pos i =
      if i = c.num - 1 then c.zero else if pos ≤ i then b (i + 1) else b i := by
    intro i hi
    simp only [fDel, put, memmove]
    by_cases h0 : i = c.num - 1
    · simp [h0]
    · rw [if_neg h0, if_neg h0]
      by_cases h1 : pos ≤ i
      · rw [if_pos (by omega), if_pos h1]; congr 1; omega
      · rw [if_neg (by omega), if_neg h1]
  refine ⟨by omega, ?_, ?_⟩
  · intro i e hi
    have hi' : i < l.length - 1 := by
      have := (List.getElem?_eq_some_iff.1 hi).1; omega
    rw [hget i (by omega), if_neg (by omega)]
    rw [List.getElem?_eraseIdx] at hi
    split at hi
    · rw [if_neg (by omega)]; exact h.used i e hi
    · rw [if_pos (by omega)]; exact h.used _ e hi
  · intro i h1 h2
    rw [hget i h2]
    split
    · exact hz
    · rw [if_pos (by omega)]
      exact h.free (i + 1) (by omega) (by omega)

theorem fUpdate_spec (h : FRep c b l) {pos : Nat} {k : K} {w v : V} (hp : l[pos]? = some (k, w)) :
    FRep c (fUpdate b pos v) (l.set pos (k, v)) := by
  have hlen := h.len
  have hlt : pos < l.length := (List.getElem?_eq_some_iff.1 hp).1
  have hu := h.used pos _ hp
  refine ⟨by simpa using h.len, ?_, ?_⟩
  · intro i e hi
    rw [List.getElem?_set] at hi
    simp only [fUpdate, put]
    by_cases h1 : pos = i
    · subst h1
      simp only [hlt, if_true, Option.some.injEq] at hi
      subst hi
      simp [hu.1, hu.2]
    · rw [if_neg h1] at hi
      rw [if_neg (fun e => h1 e.symm)]
      exact h.used i e hi
  · intro i h1 h2
    rw [List.length_set] at h1
    simp only [fUpdate, put]
    rw [if_neg (by omega)]
    exact h.free i h1 h2

end Verif.CCache
