import Verif.Consist.Lemmas

namespace Verif.Consist
open Spec

inductive RecOk (evs : List Call) (j : Nat) : Rec → Prop
  | openGet (h : evs[j]? = some .beginGet) (ho : ∀ e, ¬ Ended evs j e) : RecOk evs j ⟨.beginGet, j, 0⟩
  | hitGet (h : evs[j]? = some .beginGet) (e v : Nat) (he : evs[e]? = some (.endGet j (some v))) :
      RecOk evs j ⟨.beginGet, e, 0⟩
  | missGet (h : evs[j]? = some .beginGet) (e : Nat) (he : evs[e]? = some (.endGet j none)) :
      RecOk evs j ⟨.beginMiss, e, 0⟩
  | openSet (v : Nat) (h : evs[j]? = some (.beginSet v)) (ho : ∀ e, ¬ Ended evs j e) : RecOk evs j ⟨.beginSet, j, v⟩
  | doneSet (v e : Nat) (h : evs[j]? = some (.beginSet v)) (he : evs[e]? = some (.endSet j)) :
      RecOk evs j ⟨.beginSet, e, v⟩
  | openDel (h : evs[j]? = some .beginDelete) (ho : ∀ e, ¬ Ended evs j e) : RecOk evs j ⟨.beginDelete, j, 0⟩
  | doneDel (e : Nat) (h : evs[j]? = some .beginDelete) (he : evs[e]? = some (.endDelete j)) :
      RecOk evs j ⟨.beginDelete, e, 0⟩
  | endGet (b v : Nat) (h : evs[j]? = some (.endGet b (some v))) : RecOk evs j ⟨.endGet, b, v⟩
  | endMiss (b : Nat) (h : evs[j]? = some (.endGet b none)) : RecOk evs j ⟨.endMiss, b, 0⟩
  | endSet (b v : Nat) (h : evs[j]? = some (.endSet b)) (hb : evs[b]? = some (.beginSet v)) :
      RecOk evs j ⟨.endSet, b, v⟩
  | endDel (b : Nat) (h : evs[j]? = some (.endDelete b)) : RecOk evs j ⟨.endDelete, b, 0⟩

structure Rel (K : Nat) (evs : List Call) (h : Hist) : Prop where
  first : h.first = 0
  last : h.last = evs.length
  recs : ∀ j, j < evs.length → RecOk evs j (h.data (j % K))
  opens : h.openSets = cnt (fun i => h.data (i % K)) evs.length

theorem ap {evs : List Call} {c x : Call} {j : Nat} (h : evs[j]? = some x) : (evs ++ [c])[j]? = some x := by
  have : j < evs.length := by
    rcases Nat.lt_or_ge j evs.length with h1 | h1
    · exact h1
    · rw [List.getElem?_eq_none h1] at h; cases h
  rw [List.getElem?_append_left this]; exact h

theorem ap_inv {evs : List Call} {c x : Call} {j : Nat} (h : (evs ++ [c])[j]? = some x) :
    evs[j]? = some x ∨ (j = evs.length ∧ x = c) := by
  rcases Nat.lt_or_ge j evs.length with h1 | h1
  · left; rwa [List.getElem?_append_left h1] at h
  · right
    rw [List.getElem?_append_right h1] at h
    by_cases h2 : j - evs.length = 0
    · rw [h2] at h; simp at h; exact ⟨by omega, h.symm⟩
    · rw [List.getElem?_eq_none (by simp; omega)] at h; cases h

theorem Ended_ap {evs : List Call} {c : Call} {b e : Nat} (h : Ended (evs ++ [c]) b e) :
    Ended evs b e ∨ (e = evs.length ∧ ends c = some b) := by
  obtain ⟨x, h1, h2⟩ := h
  rcases ap_inv h1 with h1 | ⟨h4, h3⟩
  · exact Or.inl ⟨x, h1, h2⟩
  · subst h3; exact Or.inr ⟨h4, h2⟩

theorem RecOk.mono {evs : List Call} {c : Call} {j : Nat} {r : Rec} (h : RecOk evs j r) (hc : ends c ≠ some j) :
    RecOk (evs ++ [c]) j r := by
  have ho : (∀ e, ¬ Ended evs j e) → ∀ e, ¬ Ended (evs ++ [c]) j e := by
    intro h e he
    rcases Ended_ap he with h1 | ⟨_, h1⟩
    · exact h e h1
    · exact hc h1
  cases h with
  | openGet h h' => exact .openGet (ap h) (ho h')
  | hitGet h e v he => exact .hitGet (ap h) e v (ap he)
  | missGet h e he => exact .missGet (ap h) e (ap he)
  | openSet v h h' => exact .openSet v (ap h) (ho h')
  | doneSet v e h he => exact .doneSet v e (ap h) (ap he)
  | openDel h h' => exact .openDel (ap h) (ho h')
  | doneDel e h he => exact .doneDel e (ap h) (ap he)
  | endGet b v h => exact .endGet b v (ap h)
  | endMiss b h => exact .endMiss b (ap h)
  | endSet b v h hb => exact .endSet b v (ap h) (ap hb)
  | endDel b h => exact .endDel b (ap h)

theorem Spec.WF.pre {evs : List Call} {c : Call} (h : WF (evs ++ [c])) : WF evs := by
  have up : ∀ {b e}, Ended evs b e → Ended (evs ++ [c]) b e := fun ⟨x, h1, h2⟩ => ⟨x, ap h1, h2⟩
  refine ⟨fun e b r h1 => ?_, fun e b h1 => ?_, fun e b h1 => ?_, fun e b h1 => h.before e b (up h1),
    fun e e' b h1 h2 => h.once e e' b (up h1) (up h2)⟩
  · have hb := h.before e b (up ⟨_, h1, rfl⟩)
    have he : e < evs.length := (List.getElem?_eq_some_iff.mp h1).1
    rcases ap_inv (h.get e b r (ap h1)) with h2 | h2
    · exact h2
    · omega
  · have hb := h.before e b (up ⟨_, h1, rfl⟩)
    have he : e < evs.length := (List.getElem?_eq_some_iff.mp h1).1
    obtain ⟨v, hv⟩ := h.set e b (ap h1)
    rcases ap_inv hv with h2 | h2
    · exact ⟨v, h2⟩
    · omega
  · have hb := h.before e b (up ⟨_, h1, rfl⟩)
    have he : e < evs.length := (List.getElem?_eq_some_iff.mp h1).1
    rcases ap_inv (h.del e b (ap h1)) with h2 | h2
    · exact h2
    · omega

theorem last_at {evs : List Call} {c : Call} : (evs ++ [c])[evs.length]? = some c := by simp

/-- an end call ends an open operation -/
theorem Spec.WF.last_end {evs : List Call} {c : Call} {b : Nat} (h : WF (evs ++ [c])) (hc : ends c = some b) :
    b < evs.length ∧ ∀ e, ¬ Ended evs b e := by
  have hn : Ended (evs ++ [c]) b evs.length := ⟨c, last_at, hc⟩
  refine ⟨h.before _ _ hn, fun e he => ?_⟩
  obtain ⟨x, h1, h2⟩ := he
  have he : e < evs.length := (List.getElem?_eq_some_iff.mp h1).1
  have := h.once e evs.length b ⟨x, ap h1, h2⟩ hn
  omega

/-! ## The effect of a call -/

theorem mod_eq {K x y : Nat} (hx : x < K) (hy : y < K) : x % K = y % K ↔ x = y := by
  rw [Nat.mod_eq_of_lt hx, Nat.mod_eq_of_lt hy]

theorem Rel.begin {K : Nat} {evs : List Call} {h : Hist} {c : Call} {e : Event} {v : Nat} (r : Rel K evs h)
    (hK : evs.length < K) (hc : ends c = none) (hr : RecOk (evs ++ [c]) evs.length ⟨e, evs.length, v⟩) :
    ∃ h', h.begin K e v = some (h', evs.length) ∧
      Rel K (evs ++ [c]) { h' with openSets := h'.openSets + if e = .beginSet then 1 else 0 } := by
  have hnf : ¬ (h.last - h.first = K) := by rw [r.first, r.last]; omega
  have hnf' : ¬ (K ≤ h.last - h.first) := by rw [r.first, r.last]; omega
  refine ⟨{ h with data := fun x => if x = evs.length % K then ⟨e, evs.length, v⟩ else h.data x, last := evs.length + 1 }, ?_, ?_⟩
  · simp only [Hist.begin, Hist.cleanupIfFull, hnf, if_false, Option.bind_some, Hist.write, hnf']
    rw [r.last]
  · have hd : ∀ j, j < evs.length → j % K ≠ evs.length % K := fun j hj => by
      rw [Ne, mod_eq (by omega) hK]; omega
    refine ⟨r.first, by simp, ?_, ?_⟩
    · intro j hj
      simp only
      by_cases hjn : j = evs.length
      · subst hjn; simpa using hr
      · have hj : j < evs.length := by simp at hj; omega
        rw [if_neg (hd j hj)]
        exact (r.recs j hj).mono (by rw [hc]; simp)
    · simp only [List.length_append, List.length_cons, List.length_nil, Nat.zero_add, cnt]
      rw [r.opens]
      congr 1
      · refine cnt_congr fun j hj => ?_
        simp only [opn, if_neg (hd j hj)]
      · simp only [opn, if_true]
        by_cases he : e = .beginSet <;> simp [he]

/-- the records after an end call -/
theorem Rel.end_ {K : Nat} {evs : List Call} {h h' : Hist} {c : Call} {b : Nat} {B N : Rec} (r : Rel K evs h)
    (hc : ends c = some b) (hb : b < evs.length)
    (hB : RecOk (evs ++ [c]) b B) (hN : RecOk (evs ++ [c]) evs.length N) (hNe : N.event ≠ .beginSet)
    (h1 : h'.first = h.first) (h2 : h'.last = h.last + 1)
    (h3 : ∀ j, j ≤ evs.length → h'.data (j % K) = if j = b then B else if j = evs.length then N else h.data (j % K))
    (h4 : (opn (fun i => h.data (i % K)) b ∧ ¬ (B.event = .beginSet ∧ B.other = b) ∧ h'.openSets = h.openSets - 1) ∨
          (¬ opn (fun i => h.data (i % K)) b ∧ ¬ (B.event = .beginSet ∧ B.other = b) ∧ h'.openSets = h.openSets)) :
    Rel K (evs ++ [c]) h' := by
  refine ⟨by rw [h1, r.first], by rw [h2, r.last]; simp, ?_, ?_⟩
  · intro j hj
    have hj' : j ≤ evs.length := by simp at hj; omega
    rw [h3 j hj']
    split
    · next h => subst h; exact hB
    · next hjb =>
      split
      · next h => subst h; exact hN
      · exact (r.recs j (by omega)).mono (by rw [hc]; simpa using Ne.symm hjb)
  · simp only [List.length_append, List.length_cons, List.length_nil, Nat.zero_add, cnt]
    have hn : ¬ opn (fun i => h'.data (i % K)) evs.length := by
      simp only [opn, h3 _ (Nat.le_refl _), if_neg (show ¬ evs.length = b by omega), if_true]
      exact fun h => hNe h.1
    have hob : opn (fun i => h'.data (i % K)) b ↔ (B.event = .beginSet ∧ B.other = b) := by
      simp only [opn, h3 b (by omega), if_true]
    have hoj : ∀ j, j < evs.length → j ≠ b → (opn (fun i => h.data (i % K)) j ↔ opn (fun i => h'.data (i % K)) j) := by
      intro j hj hjb
      simp only [opn, h3 j (by omega), if_neg hjb, if_neg (show ¬ j = evs.length by omega)]
    simp only [hn, if_false, Nat.add_zero]
    rcases h4 with ⟨ha, hb', hs⟩ | ⟨ha, hb', hs⟩
    · rw [hs, r.opens, cnt_close hoj hb ha (by rw [hob]; exact hb')]; simp
    · rw [hs, r.opens]
      refine cnt_congr fun j hj => ?_
      by_cases hjb : j = b
      · subst hjb; rw [hob]; exact ⟨fun h => absurd h ha, fun h => absurd h hb'⟩
      · exact hoj j hj hjb

theorem Rel.recWF {K : Nat} {evs : List Call} {h : Hist} (r : Rel K evs h) (w : WF evs) :
    RecWF (fun i => h.data (i % K)) evs.length := by
  constructor
  · intro j hj he
    have := r.recs j hj
    revert this he
    generalize h.data (j % K) = x
    intro he hx
    cases hx with
    | openGet h _ | hitGet h _ _ _ | missGet h _ _ | openSet _ h _ | doneSet _ _ h _ | openDel h _ | doneDel _ h _
      | endGet _ _ h => simp [Event.isWriteEnd] at he
    | endMiss b h' =>
      have hb := w.before j b ⟨_, h', rfl⟩
      refine ⟨hb, ?_⟩
      simp only
      have := r.recs b (by omega)
      revert this
      generalize h.data (b % K) = y
      intro hy hg
      have hbe := w.get j b _ h'
      cases hy with
      | openGet _ ho => exact ho j ⟨_, h', rfl⟩
      | hitGet _ e v he =>
        have := w.once e j b ⟨_, he, rfl⟩ ⟨_, h', rfl⟩
        subst this; rw [he] at h'; simp at h'
      | endGet b v h => rw [h] at hbe; simp at hbe
      | _ => rcases hg with hg | hg <;> simp at hg
    | endSet b v h' hv =>
      have hb := w.before j b ⟨_, h', rfl⟩
      refine ⟨hb, ?_⟩
      simp only
      have := r.recs b (by omega)
      revert this
      generalize h.data (b % K) = y
      intro hy hg
      cases hy <;> rename_i h1 _ <;> first | (rcases hg with hg | hg <;> simp at hg; done) | skip
      all_goals simp_all
    | endDel b h' =>
      have hb := w.before j b ⟨_, h', rfl⟩
      refine ⟨hb, ?_⟩
      simp only
      have := r.recs b (by omega)
      revert this
      generalize h.data (b % K) = y
      intro hy hg
      have hbe := w.del j b h'
      cases hy <;> rename_i h1 _ <;> first | (rcases hg with hg | hg <;> simp at hg; done) | skip
      all_goals simp_all
  · intro j hj he
    have := r.recs j hj
    revert this he
    generalize h.data (j % K) = x
    intro he hx
    cases hx <;> simp at he
    next b v h hb =>
      have := w.before j b ⟨_, h, rfl⟩
      simp only; omega

end Verif.Consist
