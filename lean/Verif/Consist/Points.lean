import Verif.Consist.Step

namespace Verif.Consist
open Spec

/-- The condition on intervals that decides a lookup. -/
def Interval (evs : List Call) (g v : Nat) : Prop :=
  (∃ s, Stores evs s v ∧ ∀ s1, Ended evs s s1 → ¬ ∃ w0 w1, Ended evs w0 w1 ∧ Changes evs w0 ∧ w1 < g ∧ s1 < w0) ∨
  (UnknownAtFirst evs ∧ ¬ ∃ w0 w1, Ended evs w0 w1 ∧ Changes evs w0 ∧ w1 < g)

theorem Spec.Ended.lt {evs : List Call} {b e : Nat} (h : Ended evs b e) : e < evs.length := by
  obtain ⟨c, h1, _⟩ := h; exact (List.getElem?_eq_some_iff.mp h1).1

theorem Spec.Ended.inj {evs : List Call} {b b' e : Nat} (h : Ended evs b e) (h' : Ended evs b' e) : b = b' := by
  obtain ⟨c, h1, h2⟩ := h
  obtain ⟨c', h3, h4⟩ := h'
  rw [h1] at h3; injection h3 with h3; subst h3; rw [h2] at h4; injection h4

/-- a begin is not an end -/
theorem Spec.Ended.ne {evs : List Call} (w : WF evs) {b e a f : Nat} (h : Ended evs b e) (h' : Ended evs a f) : b ≠ f := by
  obtain ⟨c, h1, h2⟩ := h
  obtain ⟨c', h3, h4⟩ := h'
  rintro rfl
  cases c <;> simp [ends] at h2 <;> subst h2
  · have := w.get _ _ _ h1; rw [h3] at this; injection this with this; subst this; simp [ends] at h4
  · obtain ⟨v, this⟩ := w.set _ _ h1; rw [h3] at this; injection this with this; subst this; simp [ends] at h4
  · have := w.del _ _ h1; rw [h3] at this; injection this with this; subst this; simp [ends] at h4

theorem changes_get {evs : List Call} {b : Nat} (h : evs[b]? = some .beginGet) (hc : Changes evs b) :
    ∃ e : Nat, evs[e]? = some (Call.endGet b none) := by
  rcases hc with (h1 | h1) | ⟨v, h1⟩
  · rw [h] at h1; cases h1
  · exact h1
  · rw [Stores, h] at h1; cases h1

theorem writeEnd_iff {K : Nat} {evs : List Call} {h : Hist} (r : Rel K evs h) (w : WF evs) {j : Nat} (hj : j < evs.length)
    (b : Nat) : ((h.data (j % K)).event.isWriteEnd = true ∧ (h.data (j % K)).other = b) ↔ (Ended evs b j ∧ Changes evs b) := by
  have := r.recs j hj
  revert this
  generalize h.data (j % K) = x
  intro hx
  cases hx with
  | openGet h _ | hitGet h _ _ _ | missGet h _ _ | openSet _ h _ | doneSet _ _ h _ | openDel h _ | doneDel _ h _ =>
    simp only [Event.isWriteEnd, Bool.false_eq_true, false_and, false_iff]
    rintro ⟨⟨c, h1, h2⟩, _⟩
    rw [h] at h1; injection h1 with h1; subst h1; simp [ends] at h2
  | endGet b' v h =>
    simp only [Event.isWriteEnd, Bool.false_eq_true, false_and, false_iff]
    rintro ⟨h1, h2⟩
    have := Ended.inj h1 ⟨_, h, rfl⟩; subst this
    obtain ⟨e, he⟩ := changes_get (w.get _ _ _ h) h2
    have := w.once _ _ _ ⟨_, he, rfl⟩ h1; subst this
    rw [h] at he; simp at he
  | endMiss b' h =>
    simp only [Event.isWriteEnd, true_and]
    constructor
    · rintro rfl; exact ⟨⟨_, h, rfl⟩, Or.inl (Or.inr ⟨j, h⟩)⟩
    · rintro ⟨h1, _⟩; exact Ended.inj ⟨_, h, rfl⟩ h1
  | endSet b' v h hv =>
    simp only [Event.isWriteEnd, true_and]
    constructor
    · rintro rfl; exact ⟨⟨_, h, rfl⟩, Or.inr ⟨v, hv⟩⟩
    · rintro ⟨h1, _⟩; exact Ended.inj ⟨_, h, rfl⟩ h1
  | endDel b' h =>
    simp only [Event.isWriteEnd, true_and]
    constructor
    · rintro rfl; exact ⟨⟨_, h, rfl⟩, Or.inl (Or.inl (w.del _ _ h))⟩
    · rintro ⟨h1, _⟩; exact Ended.inj ⟨_, h, rfl⟩ h1

theorem ovr_iff {K : Nat} {evs : List Call} {h : Hist} (r : Rel K evs h) (w : WF evs) {g j : Nat} (hg : g < evs.length) :
    Ovr (fun i => h.data (i % K)) g j ↔ ∃ w0 w1, Ended evs w0 w1 ∧ Changes evs w0 ∧ w1 < g ∧ j < w0 := by
  unfold Ovr
  constructor
  · rintro ⟨x, h1, h2, h3⟩
    obtain ⟨h4, h5⟩ := (writeEnd_iff r w (show x < evs.length by omega) _).mp ⟨h2, rfl⟩
    exact ⟨_, x, h4, h5, h1, h3⟩
  · rintro ⟨w0, w1, h4, h5, h1, h3⟩
    obtain ⟨h6, h7⟩ := (writeEnd_iff r w (show w1 < evs.length by omega) _).mpr ⟨h4, h5⟩
    exact ⟨w1, h1, h6, by rw [h7]; exact h3⟩

theorem acc_iff {K : Nat} {evs : List Call} {h : Hist} (r : Rel K evs h) (w : WF evs) {g v : Nat} (hg : g < evs.length) :
    (∃ j, j < evs.length ∧ Acc (fun i => h.data (i % K)) g v j) ↔ Interval evs g v := by
  have h0 : UnknownAtFirst evs → ∀ w0 w1, Ended evs w0 w1 → Changes evs w0 → 0 < w0 := by
    rintro ⟨h1, h2⟩ w0 w1 _ hc
    rcases Nat.eq_zero_or_pos w0 with h3 | h3
    · subst h3; exact absurd (changes_get h1 hc) h2
    · exact h3
  constructor
  · rintro ⟨j, hj, hacc⟩
    unfold Acc at hacc
    simp only [ovr_iff r w hg] at hacc
    have hrec := r.recs j hj
    revert hacc hrec
    generalize h.data (j % K) = x
    intro hacc hrec
    rcases hacc with ⟨hs, hv, ho⟩ | ⟨h1, hget, ho⟩
    · left
      cases hrec with
      | openSet v' h h' =>
        simp only at hv; subst hv
        exact ⟨j, h, fun s1 hs1 => absurd hs1 (h' s1)⟩
      | doneSet v' e h he =>
        simp only at hv; subst hv
        refine ⟨j, h, fun s1 hs1 => ?_⟩
        have := w.once _ _ _ hs1 ⟨_, he, rfl⟩; subst this
        have hlt := w.before _ _ hs1
        simp only at ho
        rcases ho with ho | ho
        · omega
        · rintro ⟨w0, w1, a, b, c, d⟩; exact ho ⟨w0, w1, a, b, c, by omega⟩
      | endSet b v' h hb =>
        simp only at hv; subst hv
        refine ⟨b, hb, fun s1 hs1 => ?_⟩
        have := w.once _ _ _ hs1 ⟨_, h, rfl⟩; subst this
        have hlt := w.before _ _ hs1
        simp only at ho
        rcases ho with ho | ho
        · omega
        · exact ho
      | _ => rcases hs with hs | hs <;> cases hs
    · right
      subst h1
      have hun : UnknownAtFirst evs := by
        cases hrec with
        | openGet h h' => exact ⟨h, fun ⟨e, he⟩ => h' e ⟨_, he, rfl⟩⟩
        | hitGet h e v he =>
          refine ⟨h, fun ⟨e', he'⟩ => ?_⟩
          have := w.once _ _ _ ⟨_, he, rfl⟩ ⟨_, he', rfl⟩; subst this
          rw [he] at he'; simp at he'
        | endGet b v h => have := w.before _ _ ⟨_, h, rfl⟩; omega
        | _ => rcases hget with hs | hs <;> cases hs
      exact ⟨hun, fun ⟨w0, w1, a, b, c⟩ => ho ⟨w0, w1, a, b, c, h0 hun _ _ a b⟩⟩
  · rintro (⟨s, hs, hn⟩ | ⟨hun, hn⟩)
    · have hsl : s < evs.length := (List.getElem?_eq_some_iff.mp hs).1
      by_cases he : ∃ e, Ended evs s e
      · obtain ⟨e, he⟩ := he
        refine ⟨e, he.lt, Or.inl ?_⟩
        have hno := hn e he
        have hrec := r.recs e he.lt
        dsimp only
        rw [ovr_iff r w hg]
        revert hrec
        generalize h.data (e % K) = x
        intro hrec
        obtain ⟨c, h1, h2⟩ := he
        cases hrec with
        | endSet b v' h hb =>
          have := Ended.inj ⟨_, h, rfl⟩ ⟨c, h1, h2⟩; subst this
          rw [Stores, hb] at hs; injection hs with hs; injection hs with hs; subst hs
          exact ⟨Or.inr rfl, rfl, Or.inr hno⟩
        | endGet b v' h =>
          have := Ended.inj ⟨_, h, rfl⟩ ⟨c, h1, h2⟩; subst this
          have := w.get _ _ _ h; rw [hs] at this; simp at this
        | endMiss b h =>
          have := Ended.inj ⟨_, h, rfl⟩ ⟨c, h1, h2⟩; subst this
          have := w.get _ _ _ h; rw [hs] at this; simp at this
        | endDel b h =>
          have := Ended.inj ⟨_, h, rfl⟩ ⟨c, h1, h2⟩; subst this
          have := w.del _ _ h; rw [hs] at this; simp at this
        | openGet h _ | hitGet h _ _ _ | missGet h _ _ | openSet _ h _ | doneSet _ _ h _ | openDel h _ | doneDel _ h _ =>
          rw [h] at h1; injection h1 with h1; subst h1; simp [ends] at h2
      · refine ⟨s, hsl, Or.inl ?_⟩
        have := r.openSet hs fun e h => he ⟨e, h⟩
        simp [isSet, this]
    · refine ⟨0, by omega, Or.inr ⟨rfl, ?_, ?_⟩⟩
      · have hrec := r.recs 0 (by omega)
        dsimp only
        revert hrec
        generalize h.data (0 % K) = x
        intro hrec
        obtain ⟨h1, h2⟩ := hun
        cases hrec with
        | openGet | hitGet => exact Or.inl rfl
        | missGet h e he => exact absurd ⟨e, he⟩ h2
        | openSet _ h _ | doneSet _ _ h _ | openDel h _ | doneDel _ h _ | endSet _ _ h _ | endGet _ _ h | endDel _ h | endMiss _ h =>
          rw [h] at h1; simp at h1
      · rw [ovr_iff r w hg]
        rintro ⟨w0, w1, a, b, c, _⟩
        exact hn ⟨w0, w1, a, b, c⟩

/-! ## Intervals and schedules -/

theorem interval_of_mayFind {evs : List Call} {g v : Nat} (h : MayFind evs g v) : Interval evs g v := by
  obtain ⟨S, p, hp, _, hh⟩ := h
  rcases hh with ⟨s, q, hs, hq, hqp, hl⟩ | ⟨hu, hl⟩
  · left
    refine ⟨s, hs, ?_⟩
    rintro s1 hs1 ⟨w0, w1, hw, hc, hw1, hlt⟩
    obtain ⟨r, hr⟩ := S.completed _ _ hw hc
    have h1 := (S.inside _ _ hr).1
    have h2 := (S.inside _ _ hr).2 _ hw
    have h3 := (S.inside _ _ hq).2 _ hs1
    have h4 := S.mono _ _ hlt
    have h5 := S.mono _ _ hw1
    have := hl w0 r hc hr (by omega)
    omega
  · right
    refine ⟨hu, ?_⟩
    rintro ⟨w0, w1, hw, hc, hw1⟩
    obtain ⟨r, hr⟩ := S.completed _ _ hw hc
    have h2 := (S.inside _ _ hr).2 _ hw
    have h5 := S.mono _ _ hw1
    have := hl w0 r hc hr
    omega

open Classical in
noncomputable def endIdx (evs : List Call) (b : Nat) : Option Nat :=
  if h : ∃ e, Ended evs b e then some h.choose else none

theorem endIdx_some {evs : List Call} (w : WF evs) {b e : Nat} : endIdx evs b = some e ↔ Ended evs b e := by
  unfold endIdx
  split
  · next h =>
    constructor
    · intro h'; injection h' with h'; rw [← h']; exact h.choose_spec
    · intro h'; rw [w.once _ _ _ h.choose_spec h']
  · next h =>
    constructor
    · intro h'; cases h'
    · intro h'; exact absurd ⟨e, h'⟩ h

theorem mayFind_of_interval {evs : List Call} {g v : Nat} (w : WF evs) (hg : evs[g]? = some .beginGet)
    (h : Interval evs g v) : MayFind evs g v := by
  have hgl : g < evs.length := (List.getElem?_eq_some_iff.mp hg).1
  have hne : ∀ b e, Ended evs b e → e ≠ g := by
    rintro b e ⟨c, h1, h2⟩ rfl
    rw [hg] at h1; injection h1 with h1; subst h1; simp [ends] at h2
  -- the plain schedule: every completed operation takes effect just before its end
  let plain : Sched evs :=
    { time := fun i => 8 * i
      eff := fun b => (endIdx evs b).map fun e => 8 * e - 1
      mono := fun i j h => by omega
      inside := by
        intro b p hp
        obtain ⟨e, he, rfl⟩ := Option.map_eq_some_iff.mp hp
        rw [endIdx_some w] at he
        have := w.before _ _ he
        refine ⟨by omega, fun e' he' => ?_⟩
        have := w.once _ _ _ he he'; subst this; omega
      completed := by
        intro b e he _
        exact ⟨8 * e - 1, by rw [(endIdx_some w).mpr he]; rfl⟩
      distinct := by
        intro a b p ha hb
        obtain ⟨e, he, rfl⟩ := Option.map_eq_some_iff.mp ha
        obtain ⟨f, hf, hfe⟩ := Option.map_eq_some_iff.mp hb
        rw [endIdx_some w] at he hf
        have := w.before _ _ he
        have := w.before _ _ hf
        have : e = f := by omega
        subst this; exact Ended.inj he hf }
  rcases h with ⟨s, hs, hn⟩ | ⟨hu, hn⟩
  · have hsl : s < evs.length := (List.getElem?_eq_some_iff.mp hs).1
    have hsg : s ≠ g := by rintro rfl; rw [Stores, hg] at hs; simp at hs
    by_cases hb : ∃ s1, Ended evs s s1 ∧ s1 < g
    · obtain ⟨s1, hs1, hlt⟩ := hb
      have hss1 := w.before _ _ hs1
      have hno := hn s1 hs1
      let S : Sched evs :=
        { time := fun i => 8 * i
          eff := fun b => (endIdx evs b).map fun e => if s1 < e ∧ e < g then 8 * b + 1 else 8 * e - 1
          mono := fun i j h => by omega
          inside := by
            intro b p hp
            obtain ⟨e, he, rfl⟩ := Option.map_eq_some_iff.mp hp
            rw [endIdx_some w] at he
            have := w.before _ _ he
            refine ⟨by split <;> omega, fun e' he' => ?_⟩
            have := w.once _ _ _ he he'; subst this; split <;> omega
          completed := by
            intro b e he _
            rw [(endIdx_some w).mpr he]; exact ⟨_, rfl⟩
          distinct := by
            intro a b p ha hb
            obtain ⟨e, he, hpe⟩ := Option.map_eq_some_iff.mp ha
            obtain ⟨f, hf, hfe⟩ := Option.map_eq_some_iff.mp hb
            rw [endIdx_some w] at he hf
            have := w.before _ _ he
            have := w.before _ _ hf
            split at hpe <;> split at hfe
            · omega
            · omega
            · omega
            · have : e = f := by omega
              subst this; exact Ended.inj he hf }
      refine ⟨S, 8 * g + 1, by show 8 * g < _; omega, by show _ < 8 * _; omega, Or.inl ⟨s, 8 * s1 - 1, hs, ?_, by omega, ?_⟩⟩
      · show (endIdx evs s).map _ = _
        rw [(endIdx_some w).mpr hs1]
        simp
      · intro a r ha hr hrp
        obtain ⟨e, he, hre⟩ := Option.map_eq_some_iff.mp hr
        rw [endIdx_some w] at he
        have hbe := w.before _ _ he
        have hneg := hne _ _ he
        split at hre
        · next hc =>
          have h1 : ¬ s1 < a := fun h => hno ⟨a, e, he, ha, hc.2, h⟩
          have h2 : a ≠ s1 := Ended.ne w he hs1
          omega
        · omega
    · have hb : ∀ s1, Ended evs s s1 → g < s1 := by
        intro s1 h1
        have := hne _ _ h1
        have : ¬ s1 < g := fun h2 => hb ⟨s1, h1, h2⟩
        omega
      let S : Sched evs :=
        { time := fun i => 8 * i
          eff := fun b => if b = s then some (8 * max s g + 1) else (endIdx evs b).map fun e => 8 * e - 1
          mono := fun i j h => by omega
          inside := by
            intro b p hp
            split at hp
            · next h =>
              subst h
              injection hp with hp; subst hp
              refine ⟨by omega, fun e' he' => ?_⟩
              have := hb _ he'
              have := w.before _ _ he'
              omega
            · obtain ⟨e, he, rfl⟩ := Option.map_eq_some_iff.mp hp
              rw [endIdx_some w] at he
              have := w.before _ _ he
              refine ⟨by omega, fun e' he' => ?_⟩
              have := w.once _ _ _ he he'; subst this; omega
          completed := by
            intro b e he _
            by_cases h : b = s
            · exact ⟨8 * max s g + 1, if_pos h⟩
            · refine ⟨8 * e - 1, ?_⟩; rw [if_neg h, (endIdx_some w).mpr he]; rfl
          distinct := by
            intro a b p ha hb
            split at ha <;> split at hb
            · omega
            · obtain ⟨f, hf, hfe⟩ := Option.map_eq_some_iff.mp hb
              rw [endIdx_some w] at hf
              have := w.before _ _ hf
              injection ha with ha
              omega
            · obtain ⟨f, hf, hfe⟩ := Option.map_eq_some_iff.mp ha
              rw [endIdx_some w] at hf
              have := w.before _ _ hf
              injection hb with hb
              omega
            · exact plain.distinct a b p ha hb }
      refine ⟨S, 8 * max s g + 2, by show 8 * g < _; omega, by show _ < 8 * _; omega,
        Or.inl ⟨s, 8 * max s g + 1, hs, ?_, by omega, ?_⟩⟩
      · show (if s = s then _ else _) = _
        simp
      · intro a r ha hr hrp
        by_cases h : a = s
        · have hr : (if a = s then some (8 * max s g + 1) else (endIdx evs a).map fun e => 8 * e - 1) = some r := hr
          rw [if_pos h] at hr; injection hr with hr; omega
        · have hr : (if a = s then some (8 * max s g + 1) else (endIdx evs a).map fun e => 8 * e - 1) = some r := hr
          rw [if_neg h] at hr
          obtain ⟨e, he, hre⟩ := Option.map_eq_some_iff.mp hr
          omega
  · refine ⟨plain, 8 * g + 1, by show 8 * g < _; omega, by show _ < 8 * _; omega, Or.inr ⟨hu, ?_⟩⟩
    intro a r ha hr
    obtain ⟨e, he, hre⟩ := Option.map_eq_some_iff.mp hr
    rw [endIdx_some w] at he
    have h1 := hne _ _ he
    have : ¬ e < g := fun h => hn ⟨a, e, he, ha, h⟩
    omega

end Verif.Consist
