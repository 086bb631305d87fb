import Verif.Cohort.Model
import Mathlib.Data.Nat.Bitwise
/-
C35: when a switch returns, all tokens from before it are released; readers are never blocked.
-/
namespace Verif.Cohort

/-! ### the word -/

/-- the word when `a` readers are in the top cohort, `b` in the bottom one -/
def enc (top : Bool) (a b : Nat) : Nat := 2 ^ 32 * (a + if top then 2 ^ 31 else 0) + (b + if top then 0 else 2 ^ 31)

theorem halves_xor {h1 l1 h2 l2 : Nat} (e1 : l1 < 2 ^ 32) (e2 : l2 < 2 ^ 32) :
    (2 ^ 32 * h1 + l1) ^^^ (2 ^ 32 * h2 + l2) = 2 ^ 32 * (h1 ^^^ h2) + (l1 ^^^ l2) := by
  apply Nat.eq_of_testBit_eq
  intro i
  have e3 : l1 ^^^ l2 < 2 ^ 32 := Nat.xor_lt_two_pow e1 e2
  rw [Nat.testBit_xor, Nat.testBit_two_pow_mul_add _ e1, Nat.testBit_two_pow_mul_add _ e2, Nat.testBit_two_pow_mul_add _ e3]
  split <;> rw [Nat.testBit_xor]

theorem halves_and {h1 l1 h2 l2 : Nat} (e1 : l1 < 2 ^ 32) (e2 : l2 < 2 ^ 32) :
    (2 ^ 32 * h1 + l1) &&& (2 ^ 32 * h2 + l2) = 2 ^ 32 * (h1 &&& h2) + (l1 &&& l2) := by
  apply Nat.eq_of_testBit_eq
  intro i
  have e3 : l1 &&& l2 < 2 ^ 32 := Nat.and_lt_two_pow _ e2
  rw [Nat.testBit_and, Nat.testBit_two_pow_mul_add _ e1, Nat.testBit_two_pow_mul_add _ e2, Nat.testBit_two_pow_mul_add _ e3]
  split <;> rw [Nat.testBit_and]

theorem flip0 {a : Nat} (h : a < 2 ^ 31) : a ^^^ 2 ^ 31 = a + 2 ^ 31 := by
  have h1 := Nat.two_pow_add_eq_or_of_lt h 1
  have h2 : a &&& 2 ^ 31 = 0 := by
    rw [Nat.and_two_pow, Nat.testBit_lt_two_pow h]; rfl
  apply Nat.eq_of_testBit_eq
  intro i
  rw [show a + 2 ^ 31 = 2 ^ 31 * 1 + a by omega, Nat.testBit_two_pow_mul_add _ h, Nat.testBit_xor, Nat.testBit_two_pow]
  split
  · have : ¬ (31 = i) := by omega
    simp [this]
  · rename_i hi
    have : a.testBit i = false := Nat.testBit_lt_two_pow (Nat.lt_of_lt_of_le h (Nat.pow_le_pow_right (by omega) (by omega)))
    rw [this]
    by_cases e : i = 31
    · subst e; decide
    · have h31 : ¬ (31 = i) := by omega
      have : Nat.testBit 1 (i - 31) = false := Nat.testBit_lt_two_pow (Nat.lt_of_lt_of_le (by decide : 1 < 2 ^ 1) (Nat.pow_le_pow_right (by omega) (by omega)))
      simp [h31, this]

theorem flip1 {a : Nat} (h : a < 2 ^ 31) : (a + 2 ^ 31) ^^^ 2 ^ 31 = a := by
  rw [← flip0 h, Nat.xor_assoc, Nat.xor_self, Nat.xor_zero]

theorem and0 {a : Nat} (h : a < 2 ^ 31) : a &&& 2 ^ 31 = 0 := by
  rw [Nat.and_two_pow, Nat.testBit_lt_two_pow h]; rfl

theorem and1 {a : Nat} (h : a < 2 ^ 31) : (a + 2 ^ 31) &&& 2 ^ 31 = 2 ^ 31 := by
  rw [Nat.and_two_pow, show a + 2 ^ 31 = 2 ^ 31 * 1 + a by omega, Nat.testBit_two_pow_mul_add _ h]; simp

theorem swap_enc {top a b} (ha : a < 2 ^ 31) (hb : b < 2 ^ 31) : swap (enc top a b) = enc (!top) a b := by
  unfold swap enc
  rw [show kTop + kBottom = 2 ^ 32 * 2 ^ 31 + 2 ^ 31 by decide, halves_xor (by cases top <;> simp <;> omega) (by decide)]
  cases top <;> simp [flip0 ha, flip0 hb, flip1 ha, flip1 hb, -Nat.reducePow]

theorem isTop_enc {top a b} (ha : a < 2 ^ 31) (hb : b < 2 ^ 31) : isTop (enc top a b) = top := by
  unfold isTop enc
  rw [show kTop = 2 ^ 32 * 2 ^ 31 + 0 by decide, halves_and (by cases top <;> simp <;> omega) (by decide)]
  cases top <;> simp [and0 ha, and1 ha, -Nat.reducePow]

theorem drained_enc {top a b} (ha : a < 2 ^ 31) (hb : b < 2 ^ 31) :
    drained (enc top a b) = true ↔ (if top then b else a) = 0 := by
  unfold drained enc
  rw [Nat.shiftLeft_eq, Nat.shiftRight_eq_div_pow]
  cases top <;> simp <;> omega

theorem add_enc {top a b t} (ha : a + 1 < 2 ^ 31) (hb : b + 1 < 2 ^ 31) :
    add (enc top a b) (ref t) = if t then enc top (a + 1) b else enc top a (b + 1) := by
  unfold add enc ref
  cases top <;> cases t <;> simp <;> omega

theorem sub_enc {top a b t} (ha : a < 2 ^ 31) (hb : b < 2 ^ 31) (h : 0 < if t then a else b) :
    sub (enc top a b) (ref t) = if t then enc top (a - 1) b else enc top a (b - 1) := by
  unfold sub enc ref
  cases top <;> cases t <;> simp only [if_true, Bool.false_eq_true, if_false] at h ⊢ <;> omega

/-! ### the invariant -/

/-- readers that are counted in cohort `t` -/
def cnt (s : S) (t : Bool) : Nat := (s.toks.map Prod.snd).count t + s.wrong.count t

structure Inv (s : S) (top : Bool) : Prop where
  word : s.w = enc top (cnt s true) (cnt s false)
  room : s.toks.length + s.wrong.length < 2 ^ 31
  ids : (s.toks.map Prod.fst).Nodup
  fresh : ∀ x ∈ s.toks, x.1 < s.next
  idle : s.sw = none → ∀ x ∈ s.toks, x.2 = top
  busy : ∀ l, s.sw = some l → (∀ x ∈ s.toks, x.1 ∈ l → x.2 = !top) ∧ (∀ x ∈ s.toks, x.1 ∉ l → x.2 = top) ∧ ∀ i ∈ l, i < s.next
  seen : ∀ x ∈ s.loaded, x.2 ≤ s.nsw ∧ (x.2 = s.nsw → x.1 = top)

theorem cnt_add (s : S) : cnt s true + cnt s false = s.toks.length + s.wrong.length := by
  have key : ∀ l : List Bool, l.count true + l.count false = l.length := by
    intro l
    induction l with
    | nil => rfl
    | cons b l ih => cases b <;> simp [List.count_cons] <;> omega
  have h1 := key (s.toks.map Prod.snd)
  have h2 := key s.wrong
  rw [List.length_map] at h1
  unfold cnt; omega

theorem count_snd_erase {l : List (Nat × Bool)} {i : Nat} {t : Bool} (h : (i, t) ∈ l) (u : Bool) :
    ((l.erase (i, t)).map Prod.snd).count u + (if t = u then 1 else 0) = (l.map Prod.snd).count u := by
  have := ((List.perm_cons_erase h).map Prod.snd).count_eq u
  rw [this, List.map_cons, List.count_cons]
  simp

theorem inv_init : Inv S.init false := by
  refine ⟨by decide, by decide, by simp [S.init], by simp [S.init], by simp [S.init], by simp [S.init], by simp [S.init]⟩

theorem inv_step {s s' : S} {top} (h : Inv s top) (st : Step s s') : ∃ top', Inv s' top' := by
  have hc := cnt_add s
  obtain ⟨h1, h2, h3, h4, h5, h6, h7⟩ := h
  have ha : cnt s true < 2 ^ 31 := by omega
  have hb : cnt s false < 2 ^ 31 := by omega
  have htop : isTop s.w = top := by rw [h1]; exact isTop_enc ha hb
  cases st with
  | load =>
    refine ⟨top, h1, h2, h3, h4, h5, h6, ?_⟩
    intro x hx
    rcases List.mem_cons.1 hx with rfl | hx
    · exact ⟨Nat.le_refl _, fun _ => htop⟩
    · exact h7 x hx
  | enter t k hm hroom ht =>
    rw [htop] at ht; subst ht
    refine ⟨top, ?_, ?_, ?_, ?_, ?_, ?_, ?_⟩
    · simp only
      rw [h1, add_enc (by omega) (by omega)]
      cases top <;> simp [cnt, List.count_cons] <;> congr 1 <;> omega
    · simp only [List.length_cons]; omega
    · simp only [List.map_cons, List.nodup_cons]
      refine ⟨?_, h3⟩
      intro hx
      obtain ⟨y, hy, e⟩ := List.mem_map.1 hx
      have := h4 y hy; omega
    · intro x hx
      rcases List.mem_cons.1 hx with rfl | hx
      · simp
      · have := h4 x hx; simp only; omega
    · intro hs x hx
      rcases List.mem_cons.1 hx with rfl | hx
      · rfl
      · exact h5 hs x hx
    · intro l hl
      obtain ⟨b1, b2, b3⟩ := h6 l hl
      refine ⟨?_, ?_, ?_⟩
      · intro x hx hxl
        rcases List.mem_cons.1 hx with rfl | hx
        · exact absurd (b3 _ hxl) (by simp)
        · exact b1 x hx hxl
      · intro x hx hxl
        rcases List.mem_cons.1 hx with rfl | hx
        · rfl
        · exact b2 x hx hxl
      · intro i hi; have := b3 i hi; simp only; omega
    · intro x hx; exact h7 x (List.mem_of_mem_erase hx)
  | miss t k hm hroom ht =>
    refine ⟨top, ?_, ?_, h3, h4, h5, h6, ?_⟩
    · simp only
      rw [h1, add_enc (by omega) (by omega)]
      cases t <;> simp [cnt, List.count_cons] <;> congr 1 <;> omega
    · simp only [List.length_cons]; omega
    · intro x hx; exact h7 x (List.mem_of_mem_erase hx)
  | undo t hm =>
    have hpos := List.count_pos_iff.2 hm
    refine ⟨top, ?_, ?_, h3, h4, h5, h6, h7⟩
    · simp only
      rw [h1, sub_enc ha hb (by cases t <;> simp [cnt] <;> omega)]
      cases t <;> simp [cnt, List.count_erase] <;> congr 1 <;> omega
    · simp only; have := List.length_erase_of_mem hm; omega
  | release i t hm =>
    have e1 := count_snd_erase hm true
    have e2 := count_snd_erase hm false
    refine ⟨top, ?_, ?_, ?_, ?_, ?_, ?_, h7⟩
    · simp only
      rw [h1, sub_enc ha hb (by cases t <;> simp [cnt] at e1 e2 ⊢ <;> omega)]
      cases t <;> simp [cnt] at e1 e2 ⊢ <;> congr 1 <;> omega
    · simp only; have := List.length_erase_of_mem hm; omega
    · exact (List.Sublist.map _ List.erase_sublist).nodup h3
    · intro x hx; exact h4 x (List.mem_of_mem_erase hx)
    · intro hs x hx; exact h5 hs x (List.mem_of_mem_erase hx)
    · intro l hl
      obtain ⟨b1, b2, b3⟩ := h6 l hl
      exact ⟨fun x hx => b1 x (List.mem_of_mem_erase hx), fun x hx => b2 x (List.mem_of_mem_erase hx), b3⟩
  | swBegin hs =>
    refine ⟨!top, ?_, h2, h3, h4, by simp, ?_, ?_⟩
    · simp only; rw [h1, swap_enc ha hb]; rfl
    · intro l hl
      simp only [Option.some.injEq] at hl; subst hl
      refine ⟨?_, ?_, ?_⟩
      · intro x hx _; rw [h5 hs x hx, Bool.not_not]
      · intro x hx hn; exact absurd (List.mem_map_of_mem hx) hn
      · intro i hi
        obtain ⟨x, hx, rfl⟩ := List.mem_map.1 hi
        exact h4 x hx
    · intro x hx
      have := (h7 x hx).1
      exact ⟨by simp only; omega, fun e => by simp only at e; omega⟩
  | swEnd l hl hd =>
    refine ⟨top, h1, h2, h3, h4, ?_, by simp, h7⟩
    intro _ x hx
    rw [h1, drained_enc ha hb] at hd
    have : (s.toks.map Prod.snd).count (!top) = 0 := by
      cases top <;> simp [cnt] at hd ⊢ <;> grind
    have hx2 : x.2 ∈ s.toks.map Prod.snd := List.mem_map_of_mem hx
    have hne : x.2 ≠ !top := fun e => by rw [e] at hx2; exact List.count_eq_zero.1 this hx2
    cases hx : x.2 <;> cases top <;> simp_all

theorem reach_inv {s : S} (h : Reach s) : ∃ top, Inv s top := by
  induction h with
  | init => exact ⟨false, inv_init⟩
  | step s s' _ st ih => obtain ⟨top, ih⟩ := ih; exact inv_step ih st

/-! ### the properties -/

/-- C35: when a switch can return, none of the tokens that were held when it swapped the cohorts is still held. -/
theorem switch_drains {s : S} (h : Reach s) {l : List Nat} (hs : s.sw = some l) (hd : drained s.w = true) :
    ∀ i ∈ l, ∀ t, (i, t) ∉ s.toks := by
  obtain ⟨top, hi⟩ := reach_inv h
  obtain ⟨top', hi'⟩ := inv_step hi (Step.swEnd s l hs hd)
  intro i hil t ht
  have e1 := (hi.busy l hs).1 _ ht hil
  -- after the switch all tokens are in the same cohort as the word says
  have hc := cnt_add s
  have htop : isTop s.w = top := by rw [hi.word]; exact isTop_enc (by have := hi.room; omega) (by have := hi.room; omega)
  have htop' : isTop s.w = top' := by
    have := hi'.word; simp only at this
    rw [this]
    have hr := hi'.room; have hc' := cnt_add { s with sw := none }
    exact isTop_enc (by omega) (by omega)
  have e2 := hi'.idle rfl _ ht
  rw [← htop', htop] at e2
  simp only at e1 e2
  rw [e1] at e2
  cases top <;> simp at e2

/-- C35: a switch waits only for readers: as long as it cannot return, a token from before it or a reader about to retry is
in the old cohort; tokens taken after the swap never are. -/
theorem switch_waits_for {s : S} (h : Reach s) {l : List Nat} (hs : s.sw = some l) (hd : drained s.w = false) :
    (∃ i ∈ l, ∃ t, (i, t) ∈ s.toks) ∨ s.wrong ≠ [] := by
  obtain ⟨top, hi⟩ := reach_inv h
  have hc := cnt_add s
  have hr := hi.room
  have : ¬ (drained s.w = true) := by simp [hd]
  rw [hi.word, drained_enc (by omega) (by omega)] at this
  by_cases hw : s.wrong = []
  · left
    have hpos : 0 < (s.toks.map Prod.snd).count (!top) := by
      cases top <;> simp only [cnt, hw, List.count_nil, Nat.add_zero, if_true, Bool.false_eq_true, if_false, Bool.not_true, Bool.not_false] at this ⊢ <;> omega
    obtain ⟨x, hx, e⟩ := List.mem_map.1 (List.count_pos_iff.1 hpos)
    by_cases hxl : x.1 ∈ l
    · exact ⟨x.1, hxl, x.2, hx⟩
    · have := (hi.busy l hs).2.1 x hx hxl
      rw [this] at e
      cases top <;> simp at e
  · exact Or.inr hw

/-- C35: a reader is never blocked: it can always take its next step, and it has to start again only if a switch happened
between its load and its addition. -/
theorem reader_free {s : S} (h : Reach s) {t : Bool} {k : Nat} (hm : (t, k) ∈ s.loaded) :
    (isTop s.w ≠ t → k < s.nsw) ∧
    (s.toks.length + s.wrong.length + 1 < 2 ^ 31 → ∃ s', Step s s' ∧ (k = s.nsw → s'.toks = (s.next, t) :: s.toks)) := by
  obtain ⟨top, hi⟩ := reach_inv h
  have hc := cnt_add s
  have hr := hi.room
  have htop : isTop s.w = top := by rw [hi.word]; exact isTop_enc (by omega) (by omega)
  have hse := hi.seen _ hm
  have h1 : isTop s.w ≠ t → k < s.nsw := by
    intro hne
    rcases Nat.lt_or_eq_of_le hse.1 with g | g
    · exact g
    · exact absurd (hse.2 g) (by simp only; rw [← htop]; exact fun e => hne e.symm)
  refine ⟨h1, ?_⟩
  intro hroom
  by_cases e : isTop s.w = t
  · exact ⟨_, Step.enter s t k hm hroom e, fun _ => rfl⟩
  · exact ⟨_, Step.miss s t k hm hroom e, fun g => by have := h1 e; omega⟩

/-- C35: getPending is exact: the tokens of the cohort and the readers that will leave it again at once. -/
theorem pending_exact {s : S} (h : Reach s) (t : Bool) :
    getPending s.w t = (s.toks.filter fun x => x.2 == t).length + (s.wrong.filter fun x => x == t).length := by
  obtain ⟨top, hi⟩ := reach_inv h
  have hc := cnt_add s
  have hr := hi.room
  have ha : cnt s true < 2 ^ 31 := by omega
  have hb : cnt s false < 2 ^ 31 := by omega
  have e : (s.toks.filter fun x => x.2 == t).length + (s.wrong.filter fun x => x == t).length = cnt s t := by
    unfold cnt
    simp only [← List.countP_eq_length_filter, List.count_eq_countP, List.countP_map]
    rfl
  rw [e, hi.word]
  unfold getPending enc
  cases t
  · rw [show kBottom = 2 ^ 32 * 0 + 2 ^ 31 by decide, halves_and (by cases top <;> simp <;> omega) (by decide)]
    cases top
    · simp only [if_true, Bool.false_eq_true, if_false, and1 hb, Nat.and_zero]
      rw [halves_xor (by omega) (by decide), flip1 hb, Nat.shiftLeft_eq, Nat.shiftRight_eq_div_pow]
      simp; omega
    · simp only [if_true, Bool.false_eq_true, if_false, Nat.add_zero, and0 hb, Nat.and_zero, Nat.mul_zero]
      rw [Nat.xor_zero, Nat.shiftLeft_eq, Nat.shiftRight_eq_div_pow]
      omega
  · rw [show kTop = 2 ^ 32 * 2 ^ 31 + 0 by decide, halves_and (by cases top <;> simp <;> omega) (by decide)]
    cases top
    · simp only [if_true, Bool.false_eq_true, if_false, Nat.add_zero, and0 ha, Nat.and_zero, Nat.mul_zero]
      rw [Nat.xor_zero, Nat.shiftRight_eq_div_pow]
      omega
    · simp only [if_true, Bool.false_eq_true, if_false, Nat.add_zero, and1 ha, Nat.and_zero]
      rw [show 2 ^ 32 * 2 ^ 31 = 2 ^ 32 * 2 ^ 31 + 0 by rfl, halves_xor (by omega) (by decide), flip1 ha, Nat.shiftRight_eq_div_pow]
      simp; omega

/-! ### a history that meets the hypotheses -/

/-- one reader has a token, a switch begins, another reader that had loaded the old cohort misses -/
def ex1 : S := ⟨kTop + 2, [], [false], [(0, false)], 1, some [0], 1⟩

theorem reach_ex1 : Reach ex1 := by
  have r0 := Reach.init
  have r1 := Reach.step _ _ r0 (Step.load _)
  have r2 := Reach.step _ _ r1 (Step.load _)
  have r3 := Reach.step _ _ r2 (Step.enter _ false 0 (by decide) (by decide) (by decide))
  have r4 := Reach.step _ _ r3 (Step.swBegin _ rfl)
  have r5 := Reach.step _ _ r4 (Step.miss _ false 0 (by decide) (by decide) (by decide))
  exact r5

/-- `switch_waits_for`: the switch cannot return yet -/
example : Reach ex1 ∧ ex1.sw = some [0] ∧ drained ex1.w = false := ⟨reach_ex1, rfl, by decide +kernel⟩

/-- `switch_drains`: after the token is released and the other reader has left, it can -/
example : ∃ s, Reach s ∧ s.sw = some [0] ∧ drained s.w = true := by
  refine ⟨_, Reach.step _ _ (Reach.step _ _ reach_ex1 (Step.release _ 0 false (by decide))) (Step.undo _ false (by decide)), rfl, by decide +kernel⟩

end Verif.Cohort
