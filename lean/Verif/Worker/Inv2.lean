import Verif.Worker.Inv

namespace Verif.Worker

/-- what holds besides when calls of `stop` do not overlap -/
structure Inv2 (s : Sys) : Prop where
  one : ∀ i i', (s.c i).pending = true → (s.c i').pending = true → i = i'
  ntf : s.stop = false → ∀ i f n j, s.c i = .stopping f n → s.thread = some j → s.w j = .done → n = true
  alv : s.stop = true → ∀ j, s.thread = some j → ¬ (s.w j).gone

theorem Inv2.init : Inv2 {} := by
  constructor <;> simp [C.pending]

theorem C.isS_pending {x : C} (h : x.isS = true) : x.pending = true := by
  cases x <;> simp [C.isS, C.pending] at *

theorem C.isS_iff {x : C} : x.isS = true ↔ ∃ f n, x = .stopping f n := by
  cases x <;> simp [C.isS]

set_option maxHeartbeats 4000000 in
theorem Inv2.step {s s' : Sys} {b : By} {o : Option Obs} (hi : Inv s) (hi2 : Inv2 s) (h : Step s b o s')
    (hser : ∀ i f, o = some (.stopCall i f) → ∀ i', (s.c i').pending = false) : Inv2 s' := by
  obtain ⟨fresh, thr, old, stopT, live, stp, sf, two, gn, three, st, wk, jn⟩ := hi
  obtain ⟨one, ntf, alv⟩ := hi2
  simp only [Sys.S] at stopT live stp sf two gn three
  have hne : W.gone (.waiting true) = False := by simp [W.gone]
  have hnf : W.gone (.waiting false) = False := by simp [W.gone]
  cases h with
  | startNop i hi => exact ⟨one, ntf, alv⟩
  | stop s' i j f hi hs ht hn =>
    have hnp := hser i f rfl
    have hnS : ∀ k, (s.c k).isS = false := by
      intro k
      cases hk : (s.c k).isS with
      | false => rfl
      | true => have := C.isS_pending hk; rw [hnp k] at this; cases this
    have hal : ¬ (s.w j).gone := fun h => by
      obtain ⟨k, hk⟩ := live j ht h
      rw [hnS k] at hk; cases hk
    cases hn with
    | worker j' h => constructor <;> simp only [upd] <;> grind [C.pending]
    | caller i' f' h => have := hnS i'; rw [h] at this; cases this
    | none hw hc => constructor <;> simp only [upd] <;> grind [C.pending]
  | begin s' j o hj he =>
    unfold Sys.loopTest at he
    split at he <;> (cases he; constructor <;> simp only [upd] <;> grind [C.pending, W.gone])
  | noSleep s' j o hj hp he =>
    unfold Sys.waited Sys.loopTest at he
    split at he <;> (cases he; constructor <;> simp only [upd] <;> grind [C.pending, W.gone])
  | woken s' j o hj hp he =>
    unfold Sys.waited Sys.loopTest at he
    split at he <;> (cases he; constructor <;> simp only [upd] <;> grind [C.pending, W.gone])
  | timeout s' j n o hj he =>
    unfold Sys.waited Sys.loopTest at he
    split at he <;> (cases he; constructor <;> simp only [upd] <;> grind [C.pending, W.gone])
  | exit s' j hj hn =>
    have hgj : (s.w j).gone := by rw [hj]; exact Or.inl rfl
    cases hn with
    | worker j' h =>
      have hng : ¬ (s.w j').gone := by rw [h]; simp [W.gone]
      have hj' : s.thread = some j' := Classical.byContradiction fun h => hng (old j' h)
      constructor <;> simp only [upd] <;> grind [C.pending, W.gone]
    | caller i' f h =>
      have hS : (s.c i').isS = true := by rw [h]; rfl
      have h1 := C.isS_pending hS
      constructor <;> simp only [upd] <;> grind [C.pending, W.gone]
    | none hw hc => constructor <;> simp only [upd] <;> grind [C.pending, W.gone]
  | wakeRet s' i hi hn =>
    cases hn <;> (constructor <;> simp only [upd] <;> grind [C.pending, W.gone])
  | stopAgain i f hi hp =>
    simp only [Sys.stopped] at hp
    constructor <;> simp only [upd] <;> grind [C.pending, W.gone]
  | stopTake i j f hi hp ht =>
    simp only [Sys.stopped] at hp
    constructor <;> simp only [upd] <;> grind [C.pending, W.gone]
  | _ => constructor <;> simp only [upd] <;> grind [C.pending, W.gone]

end Verif.Worker
