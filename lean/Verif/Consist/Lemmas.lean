import Verif.Consist.Spec

namespace Verif.Consist
open Spec

def isSet (e : Event) : Prop := e = .beginSet ∨ e = .endSet
def isGet (e : Event) : Prop := e = .beginGet ∨ e = .endGet

def opn (at_ : Nat → Rec) (j : Nat) : Prop := (at_ j).event = .beginSet ∧ (at_ j).other = j
instance (at_ : Nat → Rec) (j : Nat) : Decidable (opn at_ j) := by unfold opn; infer_instance

def cnt (at_ : Nat → Rec) : Nat → Nat
  | 0 => 0
  | i + 1 => cnt at_ i + if opn at_ i then 1 else 0

theorem cnt_pos {at_ : Nat → Rec} {n : Nat} : 0 < cnt at_ n ↔ ∃ j, j < n ∧ opn at_ j := by
  induction n with
  | zero => simp [cnt]
  | succ n ih =>
    simp only [cnt]
    constructor
    · intro h
      by_cases ho : opn at_ n
      · exact ⟨n, by omega, ho⟩
      · simp only [ho, if_false, Nat.add_zero] at h
        obtain ⟨j, hj, h⟩ := ih.mp h
        exact ⟨j, by omega, h⟩
    · rintro ⟨j, hj, h⟩
      by_cases hn : j = n
      · subst hn; simp [h]
      · have := ih.mpr ⟨j, by omega, h⟩; omega

theorem cnt_congr {a b : Nat → Rec} {n : Nat} (h : ∀ j, j < n → (opn a j ↔ opn b j)) : cnt a n = cnt b n := by
  induction n with
  | zero => rfl
  | succ n ih => simp only [cnt]; rw [ih fun j hj => h j (by omega)]; simp only [h n (by omega)]

theorem cnt_close {a b : Nat → Rec} {n x : Nat} (h : ∀ j, j < n → j ≠ x → (opn a j ↔ opn b j)) (hx : x < n)
    (ha : opn a x) (hb : ¬ opn b x) : cnt a n = cnt b n + 1 := by
  induction n with
  | zero => omega
  | succ n ih =>
    simp only [cnt]
    by_cases hn : x = n
    · subst hn; rw [cnt_congr fun j hj => h j (by omega) (by omega)]; simp [ha, hb]
    · rw [ih (fun j hj => h j (by omega)) (by omega)]; simp only [h n (by omega) (Ne.symm hn)]; omega

/-- a record that a change completed before the lookup overrides -/
def Ovr (at_ : Nat → Rec) (bg j : Nat) : Prop :=
  ∃ w, w < bg ∧ (at_ w).event.isWriteEnd = true ∧ j < (at_ w).other

def Acc (at_ : Nat → Rec) (bg v j : Nat) : Prop :=
  (isSet (at_ j).event ∧ (at_ j).value = v ∧ ((at_ j).other = j ∨ ¬ Ovr at_ bg j)) ∨
  (j = 0 ∧ isGet (at_ j).event ∧ ¬ Ovr at_ bg 0)

structure RecWF (at_ : Nat → Rec) (n : Nat) : Prop where
  we : ∀ w, w < n → (at_ w).event.isWriteEnd = true → (at_ w).other < w ∧ ¬ isGet (at_ (at_ w).other).event
  es : ∀ w, w < n → (at_ w).event = .endSet → (at_ w).other ≠ w

theorem findBegin_spec (at_ : Nat → Rec) (bg : Nat) :
    (findBegin at_ 0 bg = 0 ∧ ∀ w, w < bg → (at_ w).event.isWriteEnd = false) ∨
    (∃ w, w < bg ∧ (at_ w).event.isWriteEnd = true ∧ findBegin at_ 0 bg = (at_ w).other ∧
      ∀ w', w < w' → w' < bg → (at_ w').event.isWriteEnd = false) := by
  induction bg with
  | zero => left; exact ⟨rfl, fun w h => by omega⟩
  | succ n ih =>
    simp only [findBegin, Nat.zero_lt_succ, if_true]
    split
    · next h => right; exact ⟨n, by omega, h, rfl, fun w' h1 h2 => by omega⟩
    · next h =>
      have h : (at_ n).event.isWriteEnd = false := by simpa using h
      rcases ih with ⟨h1, h2⟩ | ⟨w, hw, h1, h2, h3⟩
      · left
        refine ⟨h1, fun w hw => ?_⟩
        by_cases hn : w = n
        · subst hn; exact h
        · exact h2 w (by omega)
      · right
        refine ⟨w, by omega, h1, h2, fun w' h4 h5 => ?_⟩
        by_cases hn : w' = n
        · subst hn; exact h
        · exact h3 w' h4 (by omega)

theorem scan_iff {at_ : Nat → Rec} {n O v bg : Nat} (hw : RecWF at_ n) (hbg : bg ≤ n) :
    ∀ i m c, i ≤ n → (∀ j, j < i → (j < m ↔ ∃ w, i ≤ w ∧ w < bg ∧ (at_ w).event.isWriteEnd = true ∧ j < (at_ w).other)) →
      c + cnt at_ i = O →
      (scan at_ 0 O v bg (findBegin at_ 0 bg) i m c = true ↔ ∃ j, j < i ∧ Acc at_ bg v j) := by
  intro i
  induction i with
  | zero => intro m c _ _ _; simp [scan]
  | succ i ih =>
    intro m c hi hm hc
    have hcnt : cnt at_ (i+1) = cnt at_ i + if opn at_ i then 1 else 0 := rfl
    simp only [scan]
    split
    case isFalse h =>
      -- loop ends
      refine ⟨fun h => by simp at h, ?_⟩
      rintro ⟨j, hj, hacc⟩
      exfalso
      have h1 : i + 1 ≤ findBegin at_ 0 bg ∧ O ≤ c := by omega
      have h0 : ¬ 0 < cnt at_ (i+1) := by omega
      rw [cnt_pos] at h0
      have hov : Ovr at_ bg j := by
        rcases findBegin_spec at_ bg with ⟨h2, _⟩ | ⟨w, hw1, hw2, hw3, _⟩
        · omega
        · exact ⟨w, hw1, hw2, by omega⟩
      rcases hacc with ⟨hs, hv, ho | ho⟩ | ⟨h2, h3, h4⟩
      · rcases hs with hs | hs
        · exact h0 ⟨j, hj, hs, ho⟩
        · exact hw.es j (by omega) hs ho
      · exact ho hov
      · subst h2; exact h4 hov
    case isTrue h =>
      have hc' : (if (at_ i).event = .beginSet ∧ (at_ i).other = i then c + 1 else c) + cnt at_ i = O := by
        have : (if (at_ i).event = .beginSet ∧ (at_ i).other = i then c + 1 else c) = c + if opn at_ i then 1 else 0 := by
          unfold opn; split <;> rename_i h1 <;> simp [h1]
        omega
      have hovr : ¬ i < m → ¬ Ovr at_ bg i := by
        rintro h1 ⟨w, hw1, hw2, hw3⟩
        have := (hw.we w (by omega) hw2).1
        exact h1 ((hm i (by omega)).mpr ⟨w, by omega, hw1, hw2, hw3⟩)
      have hovr' : i < m → Ovr at_ bg i := by
        intro h1
        obtain ⟨w, _, hw1, hw2, hw3⟩ := (hm i (by omega)).mp h1
        exact ⟨w, hw1, hw2, hw3⟩
      -- the invariant for `m` one step further when nothing is recorded
      have hcont : ∀ m', (∀ j, j < i → (j < m' ↔ j < m ∨ (i < bg ∧ (at_ i).event.isWriteEnd = true ∧ j < (at_ i).other))) →
          ¬ Acc at_ bg v i →
          (scan at_ 0 O v bg (findBegin at_ 0 bg) i m'
            (if (at_ i).event = .beginSet ∧ (at_ i).other = i then c + 1 else c) = true ↔ ∃ j, j < i + 1 ∧ Acc at_ bg v j) := by
        intro m' hm' hna
        rw [ih m' _ (by omega) ?_ hc']
        · constructor
          · rintro ⟨j, hj, h⟩; exact ⟨j, by omega, h⟩
          · rintro ⟨j, hj, h⟩
            by_cases hji : j = i
            · subst hji; rename_i h'; first | exact absurd h hna | exact absurd h' hna
            · exact ⟨j, by omega, h⟩
        · intro j hj
          rw [hm' j hj, hm j (by omega)]
          constructor
          · rintro (⟨w, h1, h2⟩ | h1)
            · exact ⟨w, by omega, h2⟩
            · exact ⟨i, by omega, h1⟩
          · rintro ⟨w, h1, h2⟩
            by_cases hwi : w = i
            · subst hwi; right; exact h2
            · left; exact ⟨w, by omega, h2⟩
      split
      · next hskip =>
        refine hcont m (fun j hj => ?_) ?_
        · constructor
          · exact Or.inl
          · rintro (h1 | ⟨h1, h2, h3⟩)
            · exact h1
            · have := (hw.we i (by omega) h2).1; omega
        · rintro (⟨hs, hv, ho | ho⟩ | ⟨h2, h3, h4⟩)
          · exact hskip.1 ho.symm
          · exact ho (hovr' hskip.2)
          · subst h2; exact h4 (hovr' hskip.2)
      · next hskip =>
        have hk : (at_ i).other = i ∨ ¬ Ovr at_ bg i := by
          by_cases h1 : i = (at_ i).other
          · exact Or.inl h1.symm
          · exact Or.inr (hovr fun h2 => hskip ⟨h1, h2⟩)
        split
        · next hs => exact ⟨fun _ => ⟨i, by omega, Or.inl ⟨hs.1, hs.2, hk⟩⟩, fun _ => rfl⟩
        · next hs =>
          split
          · next hg =>
            obtain ⟨hg1, hg2, hg3⟩ := hg
            refine ⟨fun _ => ⟨i, by omega, Or.inr ⟨hg2, hg3, ?_⟩⟩, fun _ => rfl⟩
            subst hg2
            have h0 : ¬ 0 < cnt at_ (0+1) := by
              rw [cnt_pos]
              rintro ⟨j, hj, ho⟩
              have : j = 0 := by omega
              subst this
              exact hg1 (Or.inl ho.1)
            have hbs : findBegin at_ 0 bg = 0 := by omega
            rintro ⟨w, hw1, hw2, hw3⟩
            rcases findBegin_spec at_ bg with ⟨_, h2⟩ | ⟨w', h1, h2, h3, h4⟩
            · rw [h2 w hw1] at hw2; simp at hw2
            · have := (hw.we w' (by omega) h2).2
              rw [← h3, hbs] at this
              exact this hg3
          · next hg =>
            refine hcont _ (fun j hj => ?_) ?_
            · split
              · next h1 => constructor
                           · intro h2
                             rcases Nat.lt_or_ge j m with h3 | h3
                             · exact Or.inl h3
                             · right; exact ⟨h1.2, h1.1, by omega⟩
                           · rintro (h2 | h2) <;> omega
              · next h1 => constructor
                           · exact Or.inl
                           · rintro (h2 | h2)
                             · exact h2
                             · exact absurd ⟨h2.2.1, h2.1⟩ h1
            · rintro (⟨h1, hv, ho⟩ | ⟨h2, h3, h4⟩)
              · exact hs ⟨h1, hv⟩
              · refine hg ⟨fun h1 => ?_, h2, h3⟩
                rcases h1 with h1 | h1 <;> rcases h3 with h3 | h3 <;> rw [h1] at h3 <;> cases h3

end Verif.Consist
