import Verif.Consist.Rel

namespace Verif.Consist
open Spec

theorem cleanup_id {K : Nat} {evs : List Call} {h : Hist} (r : Rel K evs h) (hK : evs.length < K) :
    h.cleanupIfFull K = some h := by
  have hnf : ¬ (h.last - h.first = K) := by rw [r.first, r.last]; omega
  simp only [Hist.cleanupIfFull, hnf, if_false]

theorem getAt_ok {K : Nat} {evs : List Call} {h : Hist} (r : Rel K evs h) {i : Nat} (hi : i < evs.length) :
    h.getAt K i = some (h.data (i % K)) := by
  simp only [Hist.getAt, r.first, r.last, Nat.zero_le, hi, and_self, if_true]

theorem write_ok {K : Nat} {evs : List Call} {h : Hist} (r : Rel K evs h) (hK : evs.length < K) (x : Rec) :
    h.write K x = some (⟨fun i => if i = evs.length % K then x else h.data i, 0, evs.length + 1, h.openSets⟩, evs.length) := by
  have hnf' : ¬ (K ≤ h.last - h.first) := by rw [r.first, r.last]; omega
  simp only [Hist.write, hnf', if_false]
  rw [r.last, r.first]

theorem setAt_ok {K n o : Nat} {d : Nat → Rec} (x : Rec) {i : Nat} (hi : i < n) :
    Hist.setAt K ⟨d, 0, n, o⟩ i x = some ⟨fun j => if j = i % K then x else d j, 0, n, o⟩ := by
  simp [Hist.setAt, hi]

/-- the record of a begin that has not ended -/
theorem Rel.openSet {K : Nat} {evs : List Call} {h : Hist} (r : Rel K evs h) {b v : Nat}
    (hb : evs[b]? = some (.beginSet v)) (ho : ∀ e, ¬ Ended evs b e) : h.data (b % K) = ⟨.beginSet, b, v⟩ := by
  have hlt : b < evs.length := (List.getElem?_eq_some_iff.mp hb).1
  have := r.recs b hlt
  revert this
  generalize h.data (b % K) = x
  intro hx
  cases hx with
  | doneSet v e h he => exact absurd ⟨_, he, rfl⟩ (ho e)
  | openSet v' h _ => rw [hb] at h; injection h with h; injection h with h; subst h; rfl
  | _ => simp_all

theorem Rel.openGet {K : Nat} {evs : List Call} {h : Hist} (r : Rel K evs h) {b : Nat}
    (hb : evs[b]? = some .beginGet) (ho : ∀ e, ¬ Ended evs b e) : h.data (b % K) = ⟨.beginGet, b, 0⟩ := by
  have hlt : b < evs.length := (List.getElem?_eq_some_iff.mp hb).1
  have := r.recs b hlt
  revert this
  generalize h.data (b % K) = x
  intro hx
  cases hx with
  | hitGet h e v he => exact absurd ⟨_, he, rfl⟩ (ho e)
  | missGet h e he => exact absurd ⟨_, he, rfl⟩ (ho e)
  | openGet => rfl
  | _ => simp_all

theorem Rel.openDel {K : Nat} {evs : List Call} {h : Hist} (r : Rel K evs h) {b : Nat}
    (hb : evs[b]? = some .beginDelete) (ho : ∀ e, ¬ Ended evs b e) : h.data (b % K) = ⟨.beginDelete, b, 0⟩ := by
  have hlt : b < evs.length := (List.getElem?_eq_some_iff.mp hb).1
  have := r.recs b hlt
  revert this
  generalize h.data (b % K) = x
  intro hx
  cases hx with
  | doneDel e h he => exact absurd ⟨_, he, rfl⟩ (ho e)
  | openDel => rfl
  | _ => simp_all

theorem two {K b n j : Nat} {B N : Rec} {d : Nat → Rec} (hb : b < n) (hn : n < K) (hj : j ≤ n) :
    (if j % K = b % K then B else if j % K = n % K then N else d (j % K)) =
      if j = b then B else if j = n then N else d (j % K) := by
  simp only [mod_eq (show j < K by omega) (show b < K by omega), mod_eq (show j < K by omega) hn]

/-- The outcome of a call. -/
structure Out (K : Nat) (evs : List Call) (h : Hist) (c : Call) : Prop where
  ok : ∃ h' r, h.call K c = some (h', r) ∧ Rel K (evs ++ [c]) h' ∧
    match c with
    | .endGet g (some v) => (r = true ↔ ∃ j, j < evs.length ∧ Acc (fun i => h.data (i % K)) g v j)
    | _ => r = true

theorem step {K : Nat} {evs : List Call} {h : Hist} {c : Call} (r : Rel K evs h) (hK : evs.length < K)
    (w : WF (evs ++ [c])) : Out K evs h c := by
  constructor
  have hno : ∀ e, ends c = none → ¬ Ended (evs ++ [c]) evs.length e := by
    rintro e hc ⟨x, h1, h2⟩
    have := w.before e evs.length ⟨x, h1, h2⟩
    have := (List.getElem?_eq_some_iff.mp h1).1
    simp at this; omega
  have hcl := cleanup_id r hK
  cases c with
  | beginGet =>
    obtain ⟨h', h1, h2⟩ := r.begin hK (c := .beginGet) rfl (.openGet last_at fun e => hno e rfl)
    exact ⟨_, _, by simp [Hist.call, Hist.beginGet, h1], h2, rfl⟩
  | beginSet v =>
    obtain ⟨h', h1, h2⟩ := r.begin hK (c := .beginSet v) rfl (.openSet v last_at fun e => hno e rfl)
    exact ⟨_, _, by simp only [Hist.call, Hist.beginSet, h1, Option.map_some]; rfl, h2, rfl⟩
  | beginDelete =>
    obtain ⟨h', h1, h2⟩ := r.begin hK (c := .beginDelete) rfl (.openDel last_at fun e => hno e rfl)
    exact ⟨_, _, by simp [Hist.call, Hist.beginDelete, h1], h2, rfl⟩
  | endSet b =>
    obtain ⟨hb, hob⟩ := w.last_end (b := b) rfl
    obtain ⟨v, hv⟩ := w.set _ _ last_at
    have hv' : evs[b]? = some (.beginSet v) := by
      rcases ap_inv hv with h | h
      · exact h
      · omega
    have hrec := r.openSet hv' hob
    refine ⟨⟨fun x => if x = b % K then ⟨.beginSet, evs.length, v⟩ else
        if x = evs.length % K then ⟨.endSet, b, v⟩ else h.data x, 0, evs.length + 1, h.openSets - 1⟩, true, ?_, ?_, rfl⟩
    · simp only [Hist.call, Hist.endSet, hcl, Option.bind_some, getAt_ok r hb, hrec, write_ok r hK,
        setAt_ok _ (show b < evs.length + 1 by omega), Option.map_some]
    · refine r.end_ (b := b) rfl hb (.doneSet v evs.length hv last_at) (.endSet b v last_at hv) (by simp)
        r.first.symm (by rw [r.last]) (fun j hj => ?_) (Or.inl ⟨?_, ?_, rfl⟩)
      · exact two hb hK hj
      · simp only [opn, hrec, and_self]
      · rintro ⟨_, h⟩; simp only at h; omega
  | endDelete b =>
    obtain ⟨hb, hob⟩ := w.last_end (b := b) rfl
    have hv := w.del _ _ last_at
    have hv' : evs[b]? = some .beginDelete := by
      rcases ap_inv hv with h | h
      · exact h
      · omega
    have hrec := r.openDel hv' hob
    refine ⟨⟨fun x => if x = b % K then ⟨.beginDelete, evs.length, 0⟩ else
        if x = evs.length % K then ⟨.endDelete, b, 0⟩ else h.data x, 0, evs.length + 1, h.openSets⟩, true, ?_, ?_, rfl⟩
    · simp only [Hist.call, Hist.endDelete, hcl, Option.bind_some, getAt_ok r hb, hrec, write_ok r hK,
        setAt_ok _ (show b < evs.length + 1 by omega), Option.map_some]
    · refine r.end_ (b := b) rfl hb (.doneDel evs.length hv last_at) (.endDel b last_at) (by simp)
        r.first.symm (by rw [r.last]) (fun j hj => ?_) (Or.inr ⟨?_, ?_, rfl⟩)
      · exact two hb hK hj
      · simp [opn, hrec]
      · simp
  | endGet b res =>
    obtain ⟨hb, hob⟩ := w.last_end (b := b) rfl
    have hv := w.get _ _ _ last_at
    have hv' : evs[b]? = some .beginGet := by
      rcases ap_inv hv with h | h
      · exact h
      · omega
    have hrec := r.openGet hv' hob
    cases res with
    | none =>
      refine ⟨⟨fun x => if x = b % K then ⟨.beginMiss, evs.length, 0⟩ else
          if x = evs.length % K then ⟨.endMiss, b, 0⟩ else
          if x = b % K then ⟨.beginGet, evs.length, 0⟩ else
          if x = evs.length % K then ⟨.endGet, b, 0⟩ else h.data x, 0, evs.length + 1, h.openSets⟩, true, ?_, ?_, rfl⟩
      · simp only [Hist.call, Hist.endGet, hcl, Option.bind_some, getAt_ok r hb, hrec, write_ok r hK,
          setAt_ok _ (show b < evs.length + 1 by omega), setAt_ok _ (show evs.length < evs.length + 1 by omega),
          Option.map_some, Option.getD_none]
      · refine r.end_ (b := b) rfl hb (.missGet hv evs.length last_at) (.endMiss b last_at) (by simp)
          r.first.symm (by rw [r.last]) (fun j hj => ?_) (Or.inr ⟨?_, ?_, rfl⟩)
        · rw [← two hb hK hj]
          by_cases h1 : j % K = b % K
          · simp [h1]
          · by_cases h2 : j % K = evs.length % K
            · simp only [h1, h2, if_true, if_false]
            · simp only [h1, h2, if_false]
        · simp [opn, hrec]
        · simp
    | some v =>
      let h' : Hist := ⟨fun x => if x = b % K then ⟨.beginGet, evs.length, 0⟩ else
          if x = evs.length % K then ⟨.endGet, b, v⟩ else h.data x, 0, evs.length + 1, h.openSets⟩
      have hd : ∀ j, j ≤ evs.length → h'.data (j % K) = if j = b then ⟨.beginGet, evs.length, 0⟩ else
          if j = evs.length then ⟨.endGet, b, v⟩ else h.data (j % K) := fun j hj => two hb hK hj
      have hr : Rel K (evs ++ [.endGet b (some v)]) h' := by
        refine r.end_ (b := b) rfl hb (.hitGet hv evs.length v last_at) (.endGet b v last_at) (by simp)
          r.first.symm (by show evs.length + 1 = _; rw [r.last]) hd (Or.inr ⟨?_, ?_, rfl⟩)
        · simp [opn, hrec]
        · simp
      have hres : ∃ ok, h'.isConsistent K evs.length = some ok ∧
          (ok = true ↔ ∃ j, j < evs.length ∧ Acc (fun i => h'.data (i % K)) b v j) := by
        refine ⟨scan (fun i => h'.data (i % K)) 0 (cnt (fun i => h'.data (i % K)) (evs ++ [Call.endGet b (some v)]).length)
          v b (findBegin (fun i => h'.data (i % K)) 0 b) evs.length 0 0, ?_, ?_⟩
        case refine_1 =>
          simp only [Hist.isConsistent, getAt_ok hr (show evs.length < (evs ++ [Call.endGet b (some v)]).length by simp),
            Option.map_some, hr.first, hr.opens, hd _ (Nat.le_refl _), if_neg (show ¬ evs.length = b by omega), if_true]
        case refine_2 =>
          have hwf := hr.recWF w
          have hwf : RecWF (fun i => h'.data (i % K)) evs.length := ⟨fun w hw => hwf.we w (by simp; omega), fun w hw => hwf.es w (by simp; omega)⟩
          refine scan_iff hwf (by omega) _ _ _ (Nat.le_refl _) (fun j hj => ?_) ?_
          · constructor
            · intro h; omega
            · rintro ⟨w, h1, h2, _⟩; omega
          · simp only [List.length_append, List.length_cons, List.length_nil, Nat.zero_add, cnt]
            have : ¬ opn (fun i => h'.data (i % K)) evs.length := by
              simp only [opn, hd _ (Nat.le_refl _), if_neg (show ¬ evs.length = b by omega), if_true]
              simp
            simp [this]
      obtain ⟨ok, hok, hiff⟩ := hres
      refine ⟨h', ok, ?_, hr, ?_⟩
      · simp only [Hist.call, Hist.endGet, hcl, Option.bind_some, getAt_ok r hb, hrec, write_ok r hK,
          setAt_ok _ (show b < evs.length + 1 by omega), Option.getD_some]
        show (h'.isConsistent K evs.length).map _ = _
        rw [hok]; rfl
      · simp only
        rw [hiff]
        have hov : ∀ j, Ovr (fun i => h'.data (i % K)) b j ↔ Ovr (fun i => h.data (i % K)) b j := by
          intro j
          unfold Ovr
          constructor <;> rintro ⟨w, h1, h2, h3⟩ <;> refine ⟨w, h1, ?_, ?_⟩ <;>
            have := hd w (by omega) <;> rw [if_neg (by omega), if_neg (by omega)] at this <;> simp_all
        constructor <;> rintro ⟨j, hj, hacc⟩ <;> refine ⟨j, hj, ?_⟩
        all_goals
          unfold Acc at hacc ⊢
          simp only [hov] at hacc ⊢
          have := hd j (by omega)
          by_cases hjb : j = b
          · subst hjb
            rw [if_pos rfl] at this
            simp only [this, hrec] at hacc ⊢
            rcases hacc with ⟨h1, _⟩ | h1
            · rcases h1 with h1 | h1 <;> cases h1
            · exact Or.inr h1
          · rw [if_neg hjb, if_neg (by omega)] at this
            simpa only [this] using hacc

end Verif.Consist
