import Verif.Worker.Model

namespace Verif.Worker

theorem upd_same {α} (f : Nat → α) (i : Nat) (x : α) : upd f i x i = x := by simp [upd]
theorem upd_ne {α} (f : Nat → α) {i j : Nat} (x : α) (h : j ≠ i) : upd f i x j = f j := by simp [upd, h]

def C.pending : C → Bool
  | .stopping _ _ | .joining _ | .returning _ => true
  | _ => false

def C.isS : C → Bool
  | .stopping _ _ => true
  | _ => false

theorem W.all (x : W) : x = .starting ∨ x = .working ∨ x = .worked ∨ x = .waiting false ∨ x = .waiting true ∨
    x = .exiting ∨ x = .done := by
  rcases x with _ | _ | _ | (_ | _) | _ | _ <;> simp

def W.gone (x : W) : Prop := x = .exiting ∨ x = .done

/-- the callers that wait in `stop` -/
def Sys.S (s : Sys) (i : Nat) : Bool := (s.c i).isS

theorem S_keep {c : Nat → C} {i : Nat} {x : C} (h : x.isS = (c i).isS) (k : Nat) : (upd c i x k).isS = (c k).isS := by
  unfold upd; split
  · next e => rw [e, h]
  · rfl

structure Inv (s : Sys) : Prop where
  fresh : ∀ j, s.next ≤ j → s.w j = .done
  thr : ∀ j, s.thread = some j → j < s.next
  old : ∀ j, s.thread ≠ some j → (s.w j).gone
  stopT : s.stop = true → ∃ i, s.S i = true
  live : ∀ j, s.thread = some j → (s.w j).gone → ∃ i, s.S i = true
  stp : ∀ i, s.S i = true → ∃ j, s.thread = some j
  sf : s.stop = false → ∀ i j, s.S i = true → s.thread = some j → (s.w j).gone
  two : ∀ i i', i ≠ i' → s.S i = true → s.S i' = true → s.stop = true ∧ ∀ j, s.thread = some j → (s.w j).gone
  gn : s.stop = true → ∀ j, s.thread = some j → (s.w j).gone → ∀ i, ∃ i', i' ≠ i ∧ s.S i' = true
  three : ∀ i i' i'', s.S i = true → s.S i' = true → s.S i'' = true → i = i' ∨ i = i'' ∨ i' = i''
  st : s.stop = true → ∀ j, s.thread = some j → s.w j ≠ .waiting false
  wk : s.wake = true → ∀ j, s.thread = some j → s.w j = .waiting false → ∃ i, s.c i = .waking
  jn : ∀ i j, s.c i = .joining j → j < s.next ∧ s.thread ≠ some j ∧ (s.w j).gone

theorem Inv.init : Inv {} := by
  constructor <;> simp [W.gone, Sys.S, C.isS]

set_option maxHeartbeats 4000000 in
theorem Inv.step {s s' : Sys} {b : By} {o : Option Obs} (hi : Inv s) (h : Step s b o s') : Inv s' := by
  obtain ⟨fresh, thr, old, stopT, live, stp, sf, two, gn, three, st, wk, jn⟩ := hi
  simp only [Sys.S] at stopT live stp sf two gn three
  -- steps that leave the set of waiting `stop` calls
  have callerStep : ∀ (i : Nat) (x : C), x.isS = (s.c i).isS → (s.c i ≠ .waking) → (∀ j, x = .joining j → s.c i = .joining j) →
      Inv { s with c := upd s.c i x } := by
    intro i x hS hw hj
    have hk := S_keep hS
    constructor <;> simp only [Sys.S, hk] <;> first | assumption | skip
    · intro h1 j h2 h3
      obtain ⟨k, hk'⟩ := wk h1 j h2 h3
      refine ⟨k, ?_⟩
      have : k ≠ i := by rintro rfl; exact hw hk'
      rw [upd_ne _ _ this]; exact hk'
    · intro k j h1
      by_cases hki : k = i
      · subst hki; rw [upd_same] at h1; exact jn k j (hj j h1)
      · rw [upd_ne _ _ hki] at h1; exact jn k j h1
  -- steps of a worker that has not gone, without other changes
  have workStep : ∀ (j : Nat) (x : W), ¬ (s.w j).gone → ¬ x.gone → (x = .waiting false → s.stop = false ∧ s.wake = false) →
      Inv { s with w := upd s.w j x } := by
    intro j x h1 h2 h3
    have hj : s.thread = some j := Classical.byContradiction fun h => h1 (old j h)
    constructor <;> simp only [Sys.S] <;> first | assumption | skip
    all_goals (try simp only [upd]); grind
  have waited : ∀ (j : Nat) s' o, ¬ (s.w j).gone → s.waited j = (s', o) → Inv s' := by
    intro j s' o h1 he
    have hj : s.thread = some j := Classical.byContradiction fun h => h1 (old j h)
    unfold Sys.waited Sys.loopTest at he
    split at he <;> cases he
    · have hg : W.gone .exiting := Or.inl rfl
      constructor <;> simp only [Sys.S] <;> first | assumption | skip
      all_goals (try simp only [upd]); grind
    · have hg : ¬ W.gone .working := by simp [W.gone]
      constructor <;> simp only [Sys.S] <;> first | assumption | skip
      all_goals (try simp only [upd]); grind
  cases h with
  | startNop i hi => exact ⟨fresh, thr, old, stopT, live, stp, sf, two, gn, three, st, wk, jn⟩
  | start i hi ht =>
    have hg : ¬ W.gone .starting := by simp [W.gone]
    constructor <;> simp only [Sys.S] <;> first | assumption | skip
    all_goals (try simp only [upd]); grind
  | stopBusy i f hi hs => exact callerStep i _ (by simp [hi, C.isS]) (by simp [hi]) (by simp)
  | stopNone i f hi hs ht => exact callerStep i _ (by simp [hi, C.isS]) (by simp [hi]) (by simp)
  | stop s' i j f hi hs ht hn =>
    have hnew : ∀ c' : Nat → C, (upd c' i (.stopping f false) i).isS = true := by intro c'; simp [upd_same, C.isS]
    have hSi : (s.c i).isS = false := by simp [hi, C.isS]
    have hk : ∀ c' : Nat → C, (∀ k, (c' k).isS = (s.c k).isS) → ∀ k,
        (upd c' i (.stopping f false) k).isS = if k = i then true else (s.c k).isS := by
      intro c' hc' k
      unfold upd; split
      · rfl
      · rw [hc']
    have hk1 := hk s.c fun _ => rfl
    have hwne : ∀ k, k ≠ i → s.c k = .waking → upd s.c i (.stopping f false) k = .waking := by
      intro k h1 h2; rw [upd_ne _ _ h1]; exact h2
    have hjn : ∀ k j, upd s.c i (.stopping f false) k = .joining j → s.c k = .joining j := by
      intro k j h
      unfold upd at h; split at h
      · cases h
      · exact h
    have hne : ∀ k, s.c k = .waking → k ≠ i := by rintro k h rfl; rw [hi] at h; cases h
    have hx : ∃ k, (if k = i then true else (s.c k).isS) = true := ⟨i, by simp⟩
    have hgn : (s.w j).gone → ∀ k, ∃ k', k' ≠ k ∧ (if k' = i then true else (s.c k').isS) = true := by
      intro hg k
      by_cases hki : k = i
      · obtain ⟨m, hm⟩ := live j ht hg
        refine ⟨m, ?_, ?_⟩
        · rintro rfl; rw [hki, hSi] at hm; cases hm
        · rw [hm]; simp
      · exact ⟨i, fun h => hki h.symm, by simp⟩
    have hnw : W.gone (.waiting true) = False := by simp [W.gone]
    have hnw' : W.gone (.waiting false) = False := by simp [W.gone]
    have hthree : ∀ a b, (s.c a).isS = true → (s.c b).isS = true → a = b := by
      intro a b h1 h2
      by_cases hab : a = b
      · exact hab
      · have := (two a b hab h1 h2).1; rw [hs] at this; cases this
    cases hn with
    | worker j' h =>
      simp only at h
      have hj' : j' = j := by
        by_cases hh : s.thread = some j'
        · rw [ht] at hh; injection hh with hh; exact hh.symm
        · have := old j' hh; rw [h] at this; simp [W.gone] at this
      subst hj'
      have hnS : ∀ k, (s.c k).isS = false := by
        intro k
        cases hk : (s.c k).isS with
        | false => rfl
        | true => have := sf hs k j' hk ht; rw [h] at this; simp [W.gone] at this
      constructor <;> simp only [Sys.S, hk1]
      all_goals clear hk hnew
      all_goals (try simp only [upd])
      all_goals first | exact fun _ => hx | exact fun _ _ _ => hx | grind
    | caller i' f' h =>
      simp only at h
      have hS' : (s.c i').isS = true := by simp [h, C.isS]
      have hk2 := hk (upd s.c i' (.stopping f' true)) (S_keep (by rw [h]; rfl))
      have hg := sf hs i' j hS' ht
      constructor <;> simp only [Sys.S, hk2]
      all_goals clear hk hnew
      all_goals (try simp only [upd])
      all_goals first | exact fun _ => hx | exact fun _ _ _ => hx | grind [W.gone]
    | none hw hc =>
      have hw := hw j
      simp only at hw
      constructor <;> simp only [Sys.S, hk1]
      all_goals clear hk hnew
      all_goals (try simp only [upd])
      all_goals first | exact fun _ => hx | exact fun _ _ _ => hx | grind
  | stopAgain i f hi hp => exact callerStep i _ (by simp [hi, C.isS]) (by simp [hi]) (by simp)
  | stopTake i j f hi hp ht =>
    simp only [Sys.stopped] at hp
    have hSi : (s.c i).isS = true := by simp [hi, C.isS]
    have honly : ∀ k, (s.c k).isS = true → k = i := by
      intro k h1
      by_cases hab : k = i
      · exact hab
      · have := (two k i hab h1 hSi).1; rw [this] at hp; cases hp
    have hg := sf (by simpa using hp) i j hSi ht
    have hk : ∀ k, (upd s.c i (.joining j) k).isS = false := by
      intro k
      unfold upd; split
      · rfl
      · next h =>
        cases hk : (s.c k).isS with
        | false => rfl
        | true => exact absurd (honly k hk) h
    constructor <;> simp only [Sys.S, hk]
    all_goals (try simp only [upd])
    all_goals grind
  | stopTakeNone i f hi hp ht =>
    have hSi : (s.c i).isS = true := by simp [hi, C.isS]
    obtain ⟨j, hj⟩ := stp i hSi
    rw [ht] at hj; cases hj
  | stopSpurious i f hi => exact callerStep i _ (by simp [hi, C.isS]) (by simp [hi]) (by simp)
  | stopTimeout i n hi hs =>
    have hSi : (s.c i).isS = true := by simp [hi, C.isS]
    have hk : ∀ k, (upd s.c i (.returning false) k).isS = if k = i then false else (s.c k).isS := by
      intro k
      unfold upd; split <;> rfl
    have hl : ∀ j, s.thread = some j → (s.w j).gone → ∃ k, (if k = i then false else (s.c k).isS) = true := by
      intro j h1 h2
      obtain ⟨k, h3, h4⟩ := gn hs j h1 h2 i
      exact ⟨k, by simp [h3, h4]⟩
    constructor <;> simp only [Sys.S, hk]
    all_goals (try simp only [upd])
    all_goals first | exact hl | grind
  | join i j hi hw => exact callerStep i _ (by simp [hi, C.isS]) (by simp [hi]) (by simp)
  | stopRet i b hi => exact callerStep i _ (by simp [hi, C.isS]) (by simp [hi]) (by simp)
  | wakeUp i hi =>
    have hk := S_keep (c := s.c) (i := i) (x := .waking) (by simp [hi, C.isS])
    have hx : ∃ k, upd s.c i .waking k = .waking := ⟨i, by simp [upd_same]⟩
    constructor <;> simp only [Sys.S, hk] <;> first | assumption | skip
    all_goals (try simp only [upd] at *); grind
  | wakeRet s' i hi hn =>
    cases hn with
    | worker j h =>
      have hng : ¬ (s.w j).gone := by rw [h]; simp [W.gone]
      have hj : s.thread = some j := Classical.byContradiction fun h => hng (old j h)
      have hk := S_keep (c := s.c) (i := i) (x := .idle) (by simp [hi, C.isS])
      have hnw : W.gone (.waiting true) = False := by simp [W.gone]
      constructor <;> simp only [Sys.S, hk] <;> first | assumption | skip
      all_goals (try simp only [upd])
      all_goals grind
    | caller i' f h =>
      have hS : (s.c i').isS = true := by simp [h, C.isS]
      obtain ⟨j, hj⟩ := stp i' hS
      have hnw : s.w j ≠ .waiting false := by
        intro hw
        cases hs : s.stop with
        | true => exact st hs j hj hw
        | false => have := sf hs i' j hS hj; rw [hw] at this; simp [W.gone] at this
      have hne : i ≠ i' := by rintro rfl; rw [hi] at h; cases h
      have hk : ∀ k, (upd (upd s.c i' (.stopping f true)) i .idle k).isS = (s.c k).isS := by
        intro k
        rw [S_keep (by rw [upd_ne _ _ hne, hi]; rfl), S_keep (by rw [h]; rfl)]
      constructor <;> simp only [Sys.S, hk] <;> first | assumption | skip
      all_goals (try simp only [upd])
      all_goals grind
    | none hw hc =>
      have hk := S_keep (c := s.c) (i := i) (x := .idle) (by simp [hi, C.isS])
      constructor <;> simp only [Sys.S, hk] <;> first | assumption | skip
      all_goals (try simp only [upd])
      all_goals grind
  | begin s' j o hj he =>
    have h1 : ¬ (s.w j).gone := by rw [hj]; simp [W.gone]
    have ht : s.thread = some j := Classical.byContradiction fun h => h1 (old j h)
    unfold Sys.loopTest at he
    split at he <;> cases he
    · have hg : W.gone .exiting := Or.inl rfl
      constructor <;> simp only [Sys.S] <;> first | assumption | skip
      all_goals (try simp only [upd]); grind
    · exact workStep j _ h1 (by simp [W.gone]) (by simp)
  | worked j hj => exact workStep j _ (by rw [hj]; simp [W.gone]) (by simp [W.gone]) (by simp)
  | sleep j hj hp =>
    simp only [Sys.breakOut, Bool.or_eq_false_iff] at hp
    exact workStep j _ (by rw [hj]; simp [W.gone]) (by simp [W.gone]) (fun _ => ⟨hp.2, hp.1⟩)
  | noSleep s' j o hj hp he => exact waited j _ _ (by rw [hj]; simp [W.gone]) he
  | sleepAgain j hj hp =>
    simp only [Sys.breakOut, Bool.or_eq_false_iff] at hp
    exact workStep j _ (by rw [hj]; simp [W.gone]) (by simp [W.gone]) (fun _ => ⟨hp.2, hp.1⟩)
  | woken s' j o hj hp he => exact waited j _ _ (by rw [hj]; simp [W.gone]) he
  | spurious j hj => exact workStep j _ (by rw [hj]; simp [W.gone]) (by simp [W.gone]) (by simp)
  | timeout s' j n o hj he => exact waited j _ _ (by rw [hj]; simp [W.gone]) he
  | exit s' j hj hn =>
    have hg1 : W.gone .exiting := Or.inl rfl
    have hg2 : W.gone .done := Or.inr rfl
    have hnw : W.gone (.waiting true) = False := by simp [W.gone]
    have hnw' : W.gone (.waiting false) = False := by simp [W.gone]
    have hgj : (s.w j).gone := by rw [hj]; exact hg1
    have hgone : ∀ k, (upd s.w j .done k).gone → (s.w k).gone := by
      intro k hk
      by_cases h : k = j
      · rw [h]; exact hgj
      · rwa [upd_ne _ _ h] at hk
    cases hn with
    | worker j' h =>
      have hng : ¬ (s.w j').gone := by rw [h]; simp [W.gone]
      have hj' : s.thread = some j' := Classical.byContradiction fun h => hng (old j' h)
      have hne : j' ≠ j := by rintro rfl; rw [hj] at h; cases h
      have hgone' : ∀ k, (upd (upd s.w j' (.waiting true)) j .done k).gone → (s.w k).gone := by
        intro k hk
        by_cases h : k = j
        · rw [h]; exact hgj
        · rw [upd_ne _ _ h] at hk
          by_cases h' : k = j'
          · rw [h', upd_same, hnw] at hk; exact hk.elim
          · rwa [upd_ne _ _ h'] at hk
      constructor <;> simp only [Sys.S] <;> first | assumption | exact fun h1 k h2 h3 => gn h1 k h2 (hgone' k h3) | skip
      all_goals (try simp only [upd])
      all_goals grind
    | caller i' f h =>
      have hk := S_keep (c := s.c) (i := i') (x := .stopping f true) (by rw [h]; rfl)
      constructor <;> simp only [Sys.S, hk] <;> first | assumption | exact fun h1 k h2 h3 => gn h1 k h2 (hgone k h3) | skip
      all_goals (try simp only [upd])
      all_goals grind
    | none hw hc =>
      constructor <;> simp only [Sys.S] <;> first | assumption | exact fun h1 k h2 h3 => gn h1 k h2 (hgone k h3) | skip
      all_goals (try simp only [upd])
      all_goals grind

end Verif.Worker
