import Verif.Datatype.FixedArray

/-! # C39: a `FixedSizeArray` is an array -/

namespace Verif.Datatype
namespace FA
variable {T : Type} [DecidableEq T]

/-! ## Specification -/

/-- What each item holds: an array, once one has been constructed there. -/
abbrev SpecA (T : Type) := List (Option (List T))

/-- What the user must respect; `hd` and `es` are the sizes of the header and of an element. -/
def Pre (hd es : Nat) (w : SpecA T) : FAOp T → Prop
  | .construct i n => i < w.length ∧ hd + n * es < 4294967296
  | .size i => ∃ l : List T, w[i]? = some (some l)
  | .at i j => (∃ l : List T, w[i]? = some (some l)) ∧ j < 4294967296
  | .setAt i j _ => (∃ l : List T, w[i]? = some (some l)) ∧ j < 4294967296
  | .get i j => ∃ l : List T, w[i]? = some (some l) ∧ j < l.length
  | .set i j _ => ∃ l : List T, w[i]? = some (some l) ∧ j < l.length
  | .copyTo i => ∃ l : List T, w[i]? = some (some l)
  | .copyFrom i s => ∃ l : List T, w[i]? = some (some l) ∧ s.length ≤ l.length
  | .eq i j => (∃ l : List T, w[i]? = some (some l)) ∧ ∃ l : List T, w[j]? = some (some l)
  | .ne i j => (∃ l : List T, w[i]? = some (some l)) ∧ ∃ l : List T, w[j]? = some (some l)
  | .isEqual i _ => ∃ l : List T, w[i]? = some (some l)

/-- What a call returns and does; `size i` is the size of item `i`. -/
inductive Step (hd es : Nat) (dflt : T) (size : Nat → Nat) (w : SpecA T) : FAOp T → FAOut T → SpecA T → Prop
  /-- all the elements are default-initialised -/
  | construct {i n} : hd + n * es ≤ size i →
      Step hd es dflt size w (.construct i n) .unit (w.set i (some (List.replicate n dflt)))
  /-- a too small item is rejected and left alone -/
  | construct_throws {i n} : size i < hd + n * es → Step hd es dflt size w (.construct i n) .throws w
  | size {i} {l : List T} : w[i]? = some (some l) → Step hd es dflt size w (.size i) (.num l.length) w
  | at {i j x} {l : List T} : w[i]? = some (some l) → l[j]? = some x → Step hd es dflt size w (.at i j) (.val x) w
  | at_throws {i j} {l : List T} : w[i]? = some (some l) → l.length ≤ j → Step hd es dflt size w (.at i j) .throws w
  | setAt {i j x} {l : List T} : w[i]? = some (some l) → j < l.length →
      Step hd es dflt size w (.setAt i j x) .unit (w.set i (some (l.set j x)))
  | setAt_throws {i j x} {l : List T} : w[i]? = some (some l) → l.length ≤ j →
      Step hd es dflt size w (.setAt i j x) .throws w
  | get {i j x} {l : List T} : w[i]? = some (some l) → l[j]? = some x → Step hd es dflt size w (.get i j) (.val x) w
  | set {i j x} {l : List T} : w[i]? = some (some l) →
      Step hd es dflt size w (.set i j x) .unit (w.set i (some (l.set j x)))
  | copyTo {i} {l : List T} : w[i]? = some (some l) → Step hd es dflt size w (.copyTo i) (.vals l) w
  | copyFrom {i s} {l : List T} : w[i]? = some (some l) →
      Step hd es dflt size w (.copyFrom i s) .unit (w.set i (some (s ++ l.drop s.length)))
  | eq {i j b} {l l' : List T} : w[i]? = some (some l) → w[j]? = some (some l') → (b = true ↔ l = l') →
      Step hd es dflt size w (.eq i j) (.bool b) w
  | ne {i j b} {l l' : List T} : w[i]? = some (some l) → w[j]? = some (some l') → (b = true ↔ l ≠ l') →
      Step hd es dflt size w (.ne i j) (.bool b) w
  | isEqual {i b s} {l : List T} : w[i]? = some (some l) → (b = true ↔ l = s) →
      Step hd es dflt size w (.isEqual i s) (.bool b) w

/-- A sequence of calls and results, as long as the user respects the preconditions. -/
def Conforms (hd es : Nat) (dflt : T) (size : Nat → Nat) : SpecA T → List (FAOp T × FAOut T) → Prop
  | _, [] => True
  | w, (op, out) :: r =>
    Pre hd es w op → ∃ w', Step hd es dflt size w op out w' ∧ Conforms hd es dflt size w' r

/-! ## Proofs -/

variable {cfg : FACfg T}

/-- The item holds the array `l`. -/
structure Holds (cfg : FACfg T) (it : FAItem) (l : List T) : Prop where
  n : numElements it = l.length
  fit : cfg.hd + l.length * cfg.E.ks ≤ it.sz
  lim : l.length < 4294967296
  el : ∀ (i : Nat) (x : T), l[i]? = some x → rdBytes it.mem (cfg.hd + i * cfg.E.ks) cfg.E.ks = cfg.E.enc x

theorem mul_succ_le {i n k : Nat} (h : i < n) : (i + 1) * k ≤ n * k := Nat.mul_le_mul_right _ h

theorem Holds.rd {it : FAItem} {l : List T} (h : Holds cfg it l) {i : Nat} {x : T} (hx : l[i]? = some x) :
    rdE cfg it i = some x := by
  have hi := (List.getElem?_eq_some_iff.mp hx).1
  have := mul_succ_le (k := cfg.E.ks) hi
  have hf := h.fit
  unfold rdE
  rw [if_pos (by omega), h.el i x hx, cfg.E.dec_enc]

theorem wr_other (it : FAItem) (i j : Nat) (x : T) (h : i ≠ j) :
    rdBytes (wrBytes it.mem (cfg.hd + i * cfg.E.ks) (cfg.E.enc x)) (cfg.hd + j * cfg.E.ks) cfg.E.ks =
      rdBytes it.mem (cfg.hd + j * cfg.E.ks) cfg.E.ks := by
  apply rdBytes_congr
  intro y h1 h2
  apply wrBytes_other
  rw [cfg.E.len]
  rcases Nat.lt_or_gt_of_ne h with h | h
  · have := mul_succ_le (k := cfg.E.ks) h
    rw [Nat.add_mul, Nat.one_mul] at this
    omega
  · have := mul_succ_le (k := cfg.E.ks) h
    rw [Nat.add_mul, Nat.one_mul] at this
    omega

theorem wr_same (it : FAItem) (i : Nat) (x : T) :
    rdBytes (wrBytes it.mem (cfg.hd + i * cfg.E.ks) (cfg.E.enc x)) (cfg.hd + i * cfg.E.ks) cfg.E.ks = cfg.E.enc x := by
  have := rdBytes_wrBytes it.mem (cfg.hd + i * cfg.E.ks) (cfg.E.enc x)
  rw [cfg.E.len] at this
  exact this

theorem wr_num (hh : 4 ≤ cfg.hd) (it : FAItem) (i : Nat) (x : T) :
    rd32 (wrBytes it.mem (cfg.hd + i * cfg.E.ks) (cfg.E.enc x)) 0 = rd32 it.mem 0 := by
  apply rd32_congr
  intro y _ h2
  exact wrBytes_other _ _ _ _ (by omega)

theorem Holds.wr (hh : 4 ≤ cfg.hd) {it : FAItem} {l : List T} (h : Holds cfg it l) {i : Nat} (hi : i < l.length)
    (x : T) : ∃ it', wrE cfg it i x = some it' ∧ it'.sz = it.sz ∧ Holds cfg it' (l.set i x) := by
  have := mul_succ_le (k := cfg.E.ks) hi
  have hf := h.fit
  unfold wrE
  rw [if_pos (by omega)]
  refine ⟨_, rfl, rfl, ?_, ?_, ?_, ?_⟩
  · unfold numElements; dsimp only; rw [wr_num hh, List.length_set]; exact h.n
  · rw [List.length_set]; exact hf
  · rw [List.length_set]; exact h.lim
  · intro j y hy
    dsimp only
    rw [List.getElem?_set] at hy
    by_cases hij : i = j
    · subst hij
      rw [if_pos rfl, if_pos hi] at hy; cases hy
      exact wr_same it i x
    · rw [if_neg hij] at hy
      rw [wr_other it i j x hij]
      exact h.el j y hy

theorem initFrom_spec (hh : 4 ≤ cfg.hd) (n : Nat) : ∀ (m i : Nat) (it : FAItem), i + m = n →
    cfg.hd + n * cfg.E.ks ≤ it.sz →
    ∃ it', initFrom cfg m i it = some it' ∧ it'.sz = it.sz ∧ numElements it' = numElements it ∧
      (∀ j, i ≤ j → j < n → rdBytes it'.mem (cfg.hd + j * cfg.E.ks) cfg.E.ks = cfg.E.enc cfg.dflt) ∧
      (∀ j, j < i → rdBytes it'.mem (cfg.hd + j * cfg.E.ks) cfg.E.ks =
        rdBytes it.mem (cfg.hd + j * cfg.E.ks) cfg.E.ks) := by
  intro m
  induction m with
  | zero =>
    intro i it hi _
    exact ⟨it, rfl, rfl, rfl, by intro j h1 h2; omega, by intro _ _; rfl⟩
  | succ m ih =>
    intro i it hi hf
    have := mul_succ_le (k := cfg.E.ks) (show i < n by omega)
    unfold initFrom wrE
    rw [if_pos (by omega)]
    dsimp only
    obtain ⟨it', h1, h2, h3, h4, h5⟩ := ih (i + 1)
      { it with mem := wrBytes it.mem (cfg.hd + i * cfg.E.ks) (cfg.E.enc cfg.dflt) } (by omega) hf
    refine ⟨it', h1, h2, ?_, ?_, ?_⟩
    · rw [h3]; exact wr_num hh it i _
    · intro j g1 g2
      by_cases hij : i = j
      · subst hij
        rw [h5 i (by omega)]
        exact wr_same it i _
      · exact h4 j (by omega) g2
    · intro j g
      rw [h5 j (by omega)]
      exact wr_other it i j _ (by omega)

theorem copyToFrom_spec {it : FAItem} {l : List T} (h : Holds cfg it l) : ∀ (m i : Nat), i + m = l.length →
    copyToFrom cfg it m i = some (l.drop i) := by
  intro m
  induction m with
  | zero => intro i hi; unfold copyToFrom; rw [List.drop_of_length_le (by omega)]
  | succ m ih =>
    intro i hi
    have hlt : i < l.length := by omega
    unfold copyToFrom
    rw [h.rd (List.getElem?_eq_getElem hlt)]
    dsimp only
    rw [ih (i + 1) (by omega), List.drop_eq_getElem_cons hlt]

theorem set_append_drop (l : List T) (i : Nat) (hi : i < l.length) (x : T) (s : List T) :
    (l.set i x).take (i + 1) ++ (s ++ (l.set i x).drop (i + 1 + s.length)) =
      l.take i ++ (x :: s ++ l.drop (i + (x :: s).length)) := by
  have h1 : (l.set i x).take (i + 1) = l.take i ++ [x] := by
    rw [List.take_add_one, List.take_set_of_le (by omega), List.getElem?_set_self hi]
    rfl
  have h2 : (l.set i x).drop (i + 1 + s.length) = l.drop (i + (x :: s).length) := by
    rw [List.drop_set_of_lt (by omega), List.length_cons]
    congr 1
    omega
  rw [h1, h2]
  simp

theorem copyFromFrom_spec (hh : 4 ≤ cfg.hd) : ∀ (s : List T) (i : Nat) (it : FAItem) (l : List T),
    Holds cfg it l → i + s.length ≤ l.length →
    ∃ it', copyFromFrom cfg s i it = some (it', .unit) ∧ it'.sz = it.sz ∧
      Holds cfg it' (l.take i ++ (s ++ l.drop (i + s.length))) := by
  intro s
  induction s with
  | nil =>
    intro i it l h hi
    refine ⟨it, rfl, rfl, ?_⟩
    simp only [List.nil_append, List.length_nil, Nat.add_zero, List.take_append_drop]
    exact h
  | cons x s ih =>
    intro i it l h hi
    rw [List.length_cons] at hi
    obtain ⟨it', h1, h2, h3⟩ := h.wr hh (show i < l.length by omega) x
    unfold copyFromFrom
    rw [h1]
    dsimp only
    have hn : numElements it' = l.length := by rw [h3.n, List.length_set]
    rw [if_neg (by omega)]
    obtain ⟨it2, g1, g2, g3⟩ := ih (i + 1) it' (l.set i x) h3 (by rw [List.length_set]; omega)
    refine ⟨it2, g1, by rw [g2, h2], ?_⟩
    rw [set_append_drop l i (by omega) x s] at g3
    exact g3

theorem eqFrom_spec {a b : FAItem} {l l' : List T} (ha : Holds cfg a l) (hb : Holds cfg b l')
    (hl : l.length = l'.length) : ∀ (m i : Nat), i + m = l.length →
    ∃ r, eqFrom cfg a b m i = some r ∧ (r = true ↔ l.drop i = l'.drop i) := by
  intro m
  induction m with
  | zero =>
    intro i hi
    exact ⟨true, rfl, by rw [List.drop_of_length_le (by omega), List.drop_of_length_le (by omega)]; simp⟩
  | succ m ih =>
    intro i hi
    have h1 : i < l.length := by omega
    have h2 : i < l'.length := by omega
    unfold eqFrom
    rw [ha.rd (List.getElem?_eq_getElem h1), hb.rd (List.getElem?_eq_getElem h2)]
    dsimp only
    rw [List.drop_eq_getElem_cons h1, List.drop_eq_getElem_cons h2]
    split
    · rename_i hne
      exact ⟨false, rfl, by rw [List.cons.injEq]; simp [hne]⟩
    · rename_i he
      have he := Decidable.not_not.mp he
      obtain ⟨r, g1, g2⟩ := ih (i + 1) (by omega)
      exact ⟨r, g1, by rw [g2, List.cons.injEq]; simp only [he, true_and]⟩

theorem eq_spec {a b : FAItem} {l l' : List T} (ha : Holds cfg a l) (hb : Holds cfg b l') :
    ∃ r, eq cfg a b = some r ∧ (r = true ↔ l = l') := by
  unfold eq
  rw [ha.n, hb.n]
  split
  · rename_i h
    exact ⟨false, rfl, by simp; intro he; exact h (by rw [he])⟩
  · rename_i h
    have h := Decidable.not_not.mp h
    have := eqFrom_spec ha hb h l.length 0 (by omega)
    simpa using this

theorem isEqualFrom_spec {it : FAItem} {l : List T} (h : Holds cfg it l) : ∀ (m i : Nat) (s : List T),
    i + m = l.length → s.length = m → ∃ r, isEqualFrom cfg it m i s = some r ∧ (r = true ↔ l.drop i = s) := by
  intro m
  induction m with
  | zero =>
    intro i s hi hs
    have : s = [] := List.length_eq_zero_iff.mp hs
    subst this
    exact ⟨true, rfl, by rw [List.drop_of_length_le (by omega)]; simp⟩
  | succ m ih =>
    intro i s hi hs
    cases s with
    | nil => cases hs
    | cons y s =>
      have h1 : i < l.length := by omega
      unfold isEqualFrom
      rw [h.rd (List.getElem?_eq_getElem h1)]
      dsimp only
      rw [List.drop_eq_getElem_cons h1]
      split
      · rename_i hne
        exact ⟨false, rfl, by rw [List.cons.injEq]; simp [hne]⟩
      · rename_i he
        have he := Decidable.not_not.mp he
        obtain ⟨r, g1, g2⟩ := ih (i + 1) s (by omega) (by simpa using hs)
        exact ⟨r, g1, by rw [g2, List.cons.injEq]; simp only [he, true_and]⟩

theorem isEqual_spec {it : FAItem} {l : List T} (h : Holds cfg it l) (s : List T) :
    ∃ r, isEqual cfg it s = some r ∧ (r = true ↔ l = s) := by
  unfold isEqual
  rw [h.n]
  split
  · rename_i he
    have := isEqualFrom_spec h l.length 0 s (by omega) he.symm
    simpa using this
  · rename_i he
    exact ⟨false, rfl, by simp; intro hh; exact he (by rw [hh])⟩

theorem construct_spec (hh : 4 ≤ cfg.hd) (it : FAItem) {n : Nat} (hn : cfg.hd + n * cfg.E.ks < 4294967296) :
    (it.sz < cfg.hd + n * cfg.E.ks ∧ construct cfg it n = some none) ∨
    (cfg.hd + n * cfg.E.ks ≤ it.sz ∧ ∃ it', construct cfg it n = some (some it') ∧ it'.sz = it.sz ∧
      Holds cfg it' (List.replicate n cfg.dflt)) := by
  have hk := cfg.E.pos
  have hmul : n * 1 ≤ n * cfg.E.ks := Nat.mul_le_mul_left _ hk
  have hu : u32 n = n := by unfold u32; exact Nat.mod_eq_of_lt (by omega)
  have hs : computeStorageSize cfg (u32 n) = cfg.hd + n * cfg.E.ks := by
    rw [hu]; unfold computeStorageSize u32; exact Nat.mod_eq_of_lt hn
  unfold construct
  dsimp only
  rw [hs, hu]
  by_cases h : cfg.hd + n * cfg.E.ks > it.sz
  · exact Or.inl ⟨h, by rw [if_pos h]⟩
  · right
    refine ⟨by omega, ?_⟩
    rw [if_neg h, if_neg (by omega)]
    have hne : numElements { it with mem := wr32 it.mem 0 n } = n := by
      unfold numElements; dsimp only; exact rd32_wr32 _ _ _ (by omega)
    rw [hne]
    obtain ⟨it', h1, h2, h3, h4, _⟩ := initFrom_spec (cfg := cfg) hh n n 0 { it with mem := wr32 it.mem 0 n } (by omega)
      (by dsimp only; omega)
    rw [h1]
    refine ⟨it', rfl, h2, ?_, ?_, ?_, ?_⟩
    · rw [h3, hne, List.length_replicate]
    · rw [List.length_replicate, h2]; dsimp only; omega
    · rw [List.length_replicate]; omega
    · intro j x hx
      rw [List.getElem?_replicate] at hx
      split at hx
      · rename_i hj; cases hx; exact h4 j (by omega) hj
      · cases hx

/-- The items represent what the specification says. -/
structure ARep (cfg : FACfg T) (size : Nat → Nat) (W : List FAItem) (w : SpecA T) : Prop where
  len : W.length = w.length
  sz : ∀ (i : Nat) (it : FAItem), W[i]? = some it → it.sz = size i
  h : ∀ (i : Nat) (it : FAItem) (l : List T), W[i]? = some it → w[i]? = some (some l) → Holds cfg it l

variable {size : Nat → Nat} {W : List FAItem} {w : SpecA T}

theorem ARep.item (h : ARep cfg size W w) {i : Nat} {l : List T} (hi : w[i]? = some (some l)) :
    ∃ it, W[i]? = some it ∧ Holds cfg it l := by
  have hl := (List.getElem?_eq_some_iff.mp hi).1
  rw [← h.len] at hl
  exact ⟨W[i], List.getElem?_eq_getElem hl, h.h i _ l (List.getElem?_eq_getElem hl) hi⟩

theorem ARep.set (h : ARep cfg size W w) {i : Nat} {it it' : FAItem} (hi : W[i]? = some it) (hs : it'.sz = it.sz)
    {l : List T} (hl : Holds cfg it' l) : ARep cfg size (W.set i it') (w.set i (some l)) := by
  have hlt := (List.getElem?_eq_some_iff.mp hi).1
  have hlt' : i < w.length := by rw [← h.len]; exact hlt
  refine ⟨by simp [h.len], ?_, ?_⟩
  · intro j x hx
    rw [List.getElem?_set] at hx
    by_cases hij : i = j
    · subst hij
      rw [if_pos rfl, if_pos hlt] at hx; cases hx
      rw [hs]; exact h.sz i it hi
    · rw [if_neg hij] at hx; exact h.sz j x hx
  · intro j x l' hx hl'
    rw [List.getElem?_set] at hx hl'
    by_cases hij : i = j
    · subst hij
      rw [if_pos rfl, if_pos hlt] at hx; cases hx
      rw [if_pos rfl, if_pos hlt'] at hl'; cases hl'
      exact hl
    · rw [if_neg hij] at hx hl'; exact h.h j x l' hx hl'

theorem step_ok (hh : 4 ≤ cfg.hd) (h : ARep cfg size W w) (op : FAOp T) (hp : Pre cfg.hd cfg.E.ks w op) :
    ∃ w', Step cfg.hd cfg.E.ks cfg.dflt size w op (step cfg W op).2 w' ∧ ARep cfg size (step cfg W op).1 w' := by
  cases op with
  | construct i n =>
    obtain ⟨hi, hn⟩ := hp
    have hi' : i < W.length := by rw [h.len]; exact hi
    have hW := List.getElem?_eq_getElem hi'
    simp only [step]
    rw [hW]
    dsimp only
    rcases construct_spec hh W[i] hn with ⟨h1, h2⟩ | ⟨h1, it', h2, h3, h4⟩
    · rw [h2]
      exact ⟨w, .construct_throws (by rw [← h.sz i _ hW]; exact h1), h⟩
    · rw [h2]
      exact ⟨_, .construct (by rw [← h.sz i _ hW]; exact h1), h.set hW h3 h4⟩
  | size i =>
    obtain ⟨l, hl⟩ := hp
    obtain ⟨it, h1, h2⟩ := h.item hl
    simp only [step]
    rw [h1]
    dsimp only
    rw [h2.n]
    exact ⟨w, .size hl, h⟩
  | «at» i j =>
    obtain ⟨⟨l, hl⟩, hj⟩ := hp
    obtain ⟨it, h1, h2⟩ := h.item hl
    have hu : u32 j = j := by unfold u32; exact Nat.mod_eq_of_lt hj
    simp only [step, checkBounds]
    rw [h1]
    simp only [hu, h2.n]
    by_cases hjl : j < l.length
    · rw [if_pos (by simp; omega), h2.rd (List.getElem?_eq_getElem hjl)]
      exact ⟨w, .at hl (List.getElem?_eq_getElem hjl), h⟩
    · rw [if_neg (by simp; omega)]
      exact ⟨w, .at_throws hl (by omega), h⟩
  | setAt i j x =>
    obtain ⟨⟨l, hl⟩, hj⟩ := hp
    obtain ⟨it, h1, h2⟩ := h.item hl
    have hu : u32 j = j := by unfold u32; exact Nat.mod_eq_of_lt hj
    simp only [step, checkBounds]
    rw [h1]
    simp only [hu, h2.n]
    by_cases hjl : j < l.length
    · rw [if_pos (by simp; omega)]
      obtain ⟨it', g1, g2, g3⟩ := h2.wr hh hjl x
      rw [g1]
      exact ⟨_, .setAt hl hjl, h.set h1 g2 g3⟩
    · rw [if_neg (by simp; omega)]
      exact ⟨w, .setAt_throws hl (by omega), h⟩
  | get i j =>
    obtain ⟨l, hl, hj⟩ := hp
    obtain ⟨it, h1, h2⟩ := h.item hl
    have hu : u32 j = j := by unfold u32; exact Nat.mod_eq_of_lt (Nat.lt_trans hj h2.lim)
    simp only [step]
    rw [h1]
    dsimp only
    rw [hu, h2.rd (List.getElem?_eq_getElem hj)]
    exact ⟨w, .get hl (List.getElem?_eq_getElem hj), h⟩
  | set i j x =>
    obtain ⟨l, hl, hj⟩ := hp
    obtain ⟨it, h1, h2⟩ := h.item hl
    have hu : u32 j = j := by unfold u32; exact Nat.mod_eq_of_lt (Nat.lt_trans hj h2.lim)
    obtain ⟨it', g1, g2, g3⟩ := h2.wr hh hj x
    simp only [step]
    rw [h1]
    dsimp only
    rw [hu, g1]
    exact ⟨_, .set hl, h.set h1 g2 g3⟩
  | copyTo i =>
    obtain ⟨l, hl⟩ := hp
    obtain ⟨it, h1, h2⟩ := h.item hl
    simp only [step]
    rw [h1]
    dsimp only
    rw [copyToFrom_spec h2 _ 0 (by rw [h2.n]; omega)]
    exact ⟨w, .copyTo hl, h⟩
  | copyFrom i s =>
    obtain ⟨l, hl, hs⟩ := hp
    obtain ⟨it, h1, h2⟩ := h.item hl
    obtain ⟨it', g1, g2, g3⟩ := copyFromFrom_spec hh s 0 it l h2 (by omega)
    simp only [step]
    rw [h1]
    dsimp only
    rw [g1]
    rw [List.take_zero, List.nil_append, Nat.zero_add] at g3
    exact ⟨_, .copyFrom hl, h.set h1 g2 g3⟩
  | eq i j =>
    obtain ⟨⟨l, hl⟩, l', hl'⟩ := hp
    obtain ⟨it, h1, h2⟩ := h.item hl
    obtain ⟨it', h1', h2'⟩ := h.item hl'
    obtain ⟨r, g1, g2⟩ := eq_spec h2 h2'
    simp only [step]
    rw [h1, h1']
    dsimp only
    rw [g1]
    exact ⟨w, .eq hl hl' g2, h⟩
  | ne i j =>
    obtain ⟨⟨l, hl⟩, l', hl'⟩ := hp
    obtain ⟨it, h1, h2⟩ := h.item hl
    obtain ⟨it', h1', h2'⟩ := h.item hl'
    obtain ⟨r, g1, g2⟩ := eq_spec h2 h2'
    simp only [step]
    rw [h1, h1']
    dsimp only
    rw [g1]
    exact ⟨w, .ne hl hl' (by rw [Ne, ← g2]; simp), h⟩
  | isEqual i s =>
    obtain ⟨l, hl⟩ := hp
    obtain ⟨it, h1, h2⟩ := h.item hl
    obtain ⟨r, g1, g2⟩ := isEqual_spec h2 s
    simp only [step]
    rw [h1]
    dsimp only
    rw [g1]
    exact ⟨w, .isEqual hl g2, h⟩

theorem run_conforms (hh : 4 ≤ cfg.hd) : ∀ (ops : List (FAOp T)) (W : List FAItem) (w : SpecA T), ARep cfg size W w →
    Conforms cfg.hd cfg.E.ks cfg.dflt size w (run cfg W ops) := by
  intro ops
  induction ops with
  | nil => intro W w _; trivial
  | cons op ops ih =>
    intro W w h hp
    obtain ⟨w', h1, h2⟩ := step_ok hh h op hp
    exact ⟨w', h1, ih _ _ h2⟩

/-- **C39.**  Take any items, with any sizes and contents.  Whatever arrays are constructed in them and whatever is
done with them (within the preconditions), no access leaves an item and all the results are those of arrays: a read
returns the last write at the index, indices out of range are rejected by `at`, an item that is too small is
rejected. -/
theorem fixed_array_is_an_array (cfg : FACfg T) (hh : 4 ≤ cfg.hd) (items : List FAItem) (ops : List (FAOp T)) :
    Conforms cfg.hd cfg.E.ks cfg.dflt (fun i => (items[i]?.map FAItem.sz).getD 0) (items.map (fun _ => none))
      (run cfg items ops) := by
  apply run_conforms hh
  refine ⟨by simp, ?_, ?_⟩
  · intro i it h; simp [h]
  · intro i it l _ h
    rw [List.getElem?_map] at h
    cases hx : items[i]? with
    | none => rw [hx] at h; cases h
    | some x => rw [hx] at h; cases h

/-- **C39**, storage: the computed storage size is sufficient and wrap-free whenever the array is below 4 GB. -/
theorem computeStorageSize_sufficient (cfg : FACfg T) (n : Nat) (h : cfg.hd + n * cfg.E.ks < 4294967296) :
    computeStorageSize cfg n = cfg.hd + n * cfg.E.ks := by
  unfold computeStorageSize u32; exact Nat.mod_eq_of_lt h

/-- … but not beyond: a request of `2^30` elements of four bytes is said to need four bytes. -/
theorem computeStorageSize_wraps (cfg : FACfg T) (h4 : cfg.E.ks = 4) (hd : cfg.hd = 4) :
    computeStorageSize cfg 1073741824 = 4 := by
  unfold computeStorageSize u32; rw [h4, hd]

/-! ## Non-vacuity -/

section
def exCfg : FACfg UInt8 :=
  { E := { ks := 1, enc := fun k => [k], dec := fun l => l.headD 0, len := by intro k; rfl, pos := by decide,
           dec_enc := by intro k; rfl }, dflt := 7, hd := 4 }
def exItems : List FAItem := [⟨10, fun _ => 255⟩, ⟨9, fun _ => 254⟩]
def exOps : List (FAOp UInt8) :=
  [.construct 0 5, .construct 1 6, .construct 1 5, .size 0, .at 0 4, .at 0 5, .setAt 0 4 9, .setAt 0 5 9, .get 0 4,
   .set 0 1 8, .copyTo 0, .eq 0 1, .copyFrom 1 [7, 8, 7, 7, 9], .eq 0 1, .ne 0 1, .isEqual 1 [7, 8, 7, 7, 9],
   .isEqual 1 [7, 8, 7, 7], .copyFrom 1 [1, 2], .copyTo 1]

example : (run exCfg exItems exOps).map Prod.snd =
    [.unit, .throws, .unit, .num 5, .val 7, .throws, .unit, .throws, .val 9, .unit, .vals [7, 8, 7, 7, 9], .bool false,
     .unit, .bool true, .bool false, .bool true, .bool false, .unit, .vals [1, 2, 7, 7, 9]] := by decide +kernel

/-- Copying one element too many is not rejected before it has been written past the end of the array (here past the
end of item 1). -/
example : (step exCfg (step exCfg exItems (.construct 1 5)).1 (.copyFrom 1 [1, 2, 3, 4, 5, 6])).2 = .ub := by
  decide +kernel
end

end FA
end Verif.Datatype
