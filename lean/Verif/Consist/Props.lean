import Verif.Consist.Points
import Mathlib.Data.List.Induction
/-! # C57: the consistency check of CacheBench reports exactly the lookups that no schedule explains -/

namespace Verif.Consist
open Spec

theorem calls_snoc {K : Nat} (l : List Call) : ∀ (h : Hist) (c : Call), Hist.calls K h (l ++ [c]) =
    (Hist.calls K h l).bind fun p => (p.1.call K c).map fun q => (q.1, p.2 ++ [q.2]) := by
  induction l with
  | nil => intro h c; simp only [List.nil_append, Hist.calls, Option.bind_some]; cases h.call K c <;> rfl
  | cons x l ih =>
    intro h c
    simp only [List.cons_append, Hist.calls]
    cases h.call K x with
    | none => rfl
    | some p =>
      simp only [Option.bind_some, ih]
      cases Hist.calls K p.1 l with
      | none => rfl
      | some q =>
        simp only [Option.bind_some, Option.map_some]
        cases q.1.call K c <;> rfl

theorem run {K : Nat} (evs : List Call) : WF evs → evs.length ≤ K →
    ∃ h as, Hist.calls K {} evs = some (h, as) ∧ Rel K evs h ∧ as.length = evs.length ∧
      (∀ (e g v : Nat), evs[e]? = some (Call.endGet g (some v)) → (as[e]? = some true ↔ MayFind (evs.take e) g v)) ∧
      (∀ (e : Nat) (c : Call), evs[e]? = some c → (¬ ∃ g v, c = .endGet g (some v)) → as[e]? = some true) := by
  induction evs using List.reverseRecOn with
  | nil =>
    intro _ _
    refine ⟨{}, [], rfl, ⟨rfl, rfl, fun j hj => by simp at hj, rfl⟩, rfl, ?_, ?_⟩
    · intro e g v h; simp at h
    · intro e c h; simp at h
  | append_singleton evs c ih =>
    intro w hK
    have hK' : evs.length < K := by simp at hK; omega
    obtain ⟨h, as, h1, r, h2, h3, h4⟩ := ih w.pre (by omega)
    obtain ⟨⟨h', b, h5, r', h6⟩⟩ := step r hK' w
    refine ⟨h', as ++ [b], ?_, r', by simp [h2], ?_, ?_⟩
    · rw [calls_snoc, h1]; simp only [Option.bind_some, h5, Option.map_some]
    · intro e g v he
      rcases ap_inv he with he' | ⟨he', hc⟩
      · have hlt : e < evs.length := (List.getElem?_eq_some_iff.mp he').1
        rw [List.getElem?_append_left (by omega), List.take_append_of_le_length (by omega)]
        exact h3 e g v he'
      · subst he' hc
        simp only at h6
        rw [List.take_left', ← h2, List.getElem?_concat_length]
        · simp only [Option.some.injEq]
          obtain ⟨hg, _⟩ := w.last_end (b := g) rfl
          have hgg := w.get _ _ _ last_at
          have hgg' : evs[g]? = some .beginGet := by
            rcases ap_inv hgg with h | h
            · exact h
            · omega
          rw [h6, acc_iff r w.pre hg]
          exact ⟨mayFind_of_interval w.pre hgg', interval_of_mayFind⟩
        · rfl
    · intro e x he hx
      rcases ap_inv he with he' | ⟨he', hc⟩
      · have hlt : e < evs.length := (List.getElem?_eq_some_iff.mp he').1
        rw [List.getElem?_append_left (by omega)]
        exact h4 e x he' hx
      · subst he' hc
        rw [← h2, List.getElem?_concat_length]
        have : b = true := by
          revert h6
          cases x with
          | endGet g res =>
            cases res with
            | none => exact id
            | some v => exact absurd ⟨g, v, rfl⟩ hx
          | _ => exact id
        rw [this]

/-- **C57.** A history of at most 480 events of one key is checked without an exception, and the answer for a lookup
that found `v` is `true` exactly when `v` is what the key may have held: in some schedule in which every operation takes
effect at one moment between its begin and its end (and the completed ones do), the key holds `v` at a moment between
the begin and the end of the lookup. The other calls report nothing. -/
theorem reported_iff (evs : List Call) (w : WF evs) (hK : evs.length ≤ 480) :
    ∃ h as, Hist.calls kCapacity {} evs = some (h, as) ∧ as.length = evs.length ∧
      (∀ (e g v : Nat), evs[e]? = some (Call.endGet g (some v)) → (as[e]? = some true ↔ MayFind (evs.take e) g v)) ∧
      (∀ (e : Nat) (c : Call), evs[e]? = some c → (¬ ∃ g v, c = .endGet g (some v)) → as[e]? = some true) := by
  obtain ⟨h, as, h1, _, h2⟩ := run (K := kCapacity) evs w (by unfold kCapacity; exact hK)
  exact ⟨h, as, h1, h2⟩

theorem mayFind_of_atomic {evs : List Call} (w : WF evs) (ha : Atomic evs) {e g v : Nat}
    (he : evs[e]? = some (Call.endGet g (some v))) : MayFind (evs.take e) g v := by
  obtain ⟨S, hS⟩ := ha
  obtain ⟨p, h1, h2, h3⟩ := hS g e v he
  have hel : e < evs.length := (List.getElem?_eq_some_iff.mp he).1
  have hge := w.before _ _ ⟨_, he, rfl⟩
  have hup : ∀ {j : Nat} {c : Call}, (evs.take e)[j]? = some c → evs[j]? = some c := by
    intro j c h
    rw [List.getElem?_take] at h
    split at h
    · exact h
    · cases h
  have hdn : ∀ {j : Nat} {c : Call}, j < e → evs[j]? = some c → (evs.take e)[j]? = some c := by
    intro j c hj h
    rw [List.getElem?_take, if_pos hj]; exact h
  have hE : ∀ {b x}, Ended (evs.take e) b x → Ended evs b x := fun ⟨c, a, b⟩ => ⟨c, hup a, b⟩
  have hC : ∀ {b}, Changes (evs.take e) b → Changes evs b := by
    rintro b ((h | ⟨x, h⟩) | ⟨v, h⟩)
    · exact Or.inl (Or.inl (hup h))
    · exact Or.inl (Or.inr ⟨x, hup h⟩)
    · exact Or.inr ⟨v, hup h⟩
  refine ⟨⟨S.time, S.eff, S.mono, fun b q hq => ⟨(S.inside b q hq).1, fun x hx => (S.inside b q hq).2 x (hE hx)⟩,
    fun b x hx hc => S.completed b x (hE hx) (hC hc), S.distinct⟩, p, h1, ?_, ?_⟩
  · rw [List.length_take_of_le (by omega)]; exact h2
  · rcases h3 with ⟨s, q, hs, hq, hqp, hl⟩ | ⟨hu, hl⟩
    · left
      have h4 := (S.inside s q hq).1
      have : s < e := by
        rcases Nat.lt_or_ge s e with h | h
        · exact h
        · rcases Nat.lt_or_ge e s with h' | h'
          · have := S.mono _ _ h'; omega
          · have : s = e := by omega
            subst this; omega
      exact ⟨s, q, hdn this hs, hq, hqp, fun a r hc => hl a r (hC hc)⟩
    · right
      refine ⟨⟨hdn (by omega) hu.1, fun ⟨x, hx⟩ => hu.2 ⟨x, hup hx⟩⟩, fun a r hc => hl a r (hC hc)⟩

/-- **C57.** No false alarm: if one schedule explains all the lookups (the cache is atomic), nothing is reported. -/
theorem atomic_not_reported (evs : List Call) (w : WF evs) (hK : evs.length ≤ 480) (ha : Atomic evs) :
    ∃ h as, Hist.calls kCapacity {} evs = some (h, as) ∧ as.length = evs.length ∧ ∀ b, b ∈ as → b = true := by
  obtain ⟨h, as, h1, h2, h3, h4⟩ := reported_iff evs w hK
  refine ⟨h, as, h1, h2, fun b hb => ?_⟩
  obtain ⟨e, he, rfl⟩ := List.mem_iff_getElem.mp hb
  have hel : e < evs.length := by omega
  have hx : evs[e]? = some evs[e] := List.getElem?_eq_getElem hel
  have hres : as[e]? = some true := by
    by_cases hc : ∃ g v, evs[e] = .endGet g (some v)
    · obtain ⟨g, v, hc⟩ := hc
      rw [hc] at hx
      exact (h3 e g v hx).mpr (mayFind_of_atomic w ha hx)
    · exact h4 e _ hx hc
  rw [List.getElem?_eq_getElem he] at hres
  exact Option.some.inj hres

/-- **C57.** No stale value passes: a lookup that finds `v` is reported when every set of `v` had ended before some
other change began that ended before the lookup began, and, should the history start with a lookup that hit, some change
ended before the lookup began. -/
theorem stale_reported (evs : List Call) (w : WF evs) (hK : evs.length ≤ 480) (e g v : Nat)
    (he : evs[e]? = some (Call.endGet g (some v)))
    (hs : ∀ s : Nat, evs[s]? = some (Call.beginSet v) → s < e →
      ∃ s1 w0 w1, Ended evs s s1 ∧ s1 < w0 ∧ Ended evs w0 w1 ∧ w1 < g ∧
        (evs[w1]? = some (.endSet w0) ∨ evs[w1]? = some (.endDelete w0) ∨ evs[w1]? = some (.endGet w0 none)))
    (hf : evs[0]? = some .beginGet → ∃ w0 w1 : Nat, w1 < g ∧
        (evs[w1]? = some (.endSet w0) ∨ evs[w1]? = some (.endDelete w0) ∨ evs[w1]? = some (.endGet w0 none))) :
    ∃ h as, Hist.calls kCapacity {} evs = some (h, as) ∧ as[e]? = some false := by
  obtain ⟨h, as, h1, h2, h3, _⟩ := reported_iff evs w hK
  refine ⟨h, as, h1, ?_⟩
  have hel : e < evs.length := (List.getElem?_eq_some_iff.mp he).1
  have hge := w.before _ _ ⟨_, he, rfl⟩
  have hdn : ∀ {j : Nat} {c : Call}, j < e → evs[j]? = some c → (evs.take e)[j]? = some c := by
    intro j c hj h
    rw [List.getElem?_take, if_pos hj]; exact h
  have hup : ∀ {j : Nat} {c : Call}, (evs.take e)[j]? = some c → evs[j]? = some c ∧ j < e := by
    intro j c h
    rw [List.getElem?_take] at h
    split at h
    · next h' => exact ⟨h, h'⟩
    · cases h
  have hW : ∀ {w0 w1 : Nat}, w1 < g → (evs[w1]? = some (.endSet w0) ∨ evs[w1]? = some (.endDelete w0) ∨
      evs[w1]? = some (.endGet w0 none)) → Ended (evs.take e) w0 w1 ∧ Changes (evs.take e) w0 := by
    rintro w0 w1 hlt (h | h | h)
    · obtain ⟨v, hv⟩ := w.set _ _ h
      have := w.before _ _ ⟨_, h, rfl⟩
      exact ⟨⟨_, hdn (by omega) h, rfl⟩, Or.inr ⟨v, hdn (by omega) hv⟩⟩
    · have hv := w.del _ _ h
      have := w.before _ _ ⟨_, h, rfl⟩
      exact ⟨⟨_, hdn (by omega) h, rfl⟩, Or.inl (Or.inl (hdn (by omega) hv))⟩
    · exact ⟨⟨_, hdn (by omega) h, rfl⟩, Or.inl (Or.inr ⟨w1, hdn (by omega) h⟩)⟩
  have hno : ¬ MayFind (evs.take e) g v := by
    intro hm
    rcases interval_of_mayFind hm with ⟨s, hst, hn⟩ | ⟨hu, hn⟩
    · obtain ⟨hst, hse⟩ := hup hst
      obtain ⟨s1, w0, w1, a1, a2, a3, a4, a5⟩ := hs s hst hse
      obtain ⟨b1, b2⟩ := hW a4 a5
      have := w.before _ _ a3
      obtain ⟨c, c1, c2⟩ := a1
      exact hn s1 ⟨c, hdn (by omega) c1, c2⟩ ⟨w0, w1, b1, b2, a4, a2⟩
    · obtain ⟨w0, w1, a1, a2⟩ := hf (hup hu.1).1
      obtain ⟨b1, b2⟩ := hW a1 a2
      exact hn ⟨w0, w1, b1, b2, a1⟩
  have hlen : e < as.length := by omega
  rw [List.getElem?_eq_getElem hlen]
  cases hb : as[e] with
  | false => rfl
  | true => exact absurd ((h3 e g v he).mp (by rw [List.getElem?_eq_getElem hlen, hb])) hno

/-! ## Examples -/

/-- decides `WF` -/
def wfb (evs : List Call) : Bool :=
  (List.range evs.length).all fun e =>
    (match evs[e]? with
     | some (Call.endGet b _) => evs[b]? == some Call.beginGet && decide (b < e)
     | some (Call.endSet b) => (match evs[b]? with | some (Call.beginSet _) => true | _ => false) && decide (b < e)
     | some (Call.endDelete b) => evs[b]? == some Call.beginDelete && decide (b < e)
     | _ => true) &&
    (List.range evs.length).all fun e' =>
      e == e' || !(((evs[e]?).bind ends).isSome && (evs[e]?).bind ends == (evs[e']?).bind ends)

theorem wf_of {evs : List Call} (h : wfb evs = true) : WF evs := by
  simp only [wfb, List.all_eq_true, List.mem_range, Bool.and_eq_true] at h
  have hl : ∀ {e : Nat} {c : Call}, evs[e]? = some c → e < evs.length := fun h => (List.getElem?_eq_some_iff.mp h).1
  refine ⟨fun e b r he => ?_, fun e b he => ?_, fun e b he => ?_, fun e b he => ?_, fun e e' b he he' => ?_⟩
  · have := (h e (hl he)).1; rw [he] at this; simp at this; exact this.1
  · have := (h e (hl he)).1; rw [he] at this; simp at this
    split at this
    · next v hv => exact ⟨v, hv⟩
    · simp at this
  · have := (h e (hl he)).1; rw [he] at this; simp at this; exact this.1
  · obtain ⟨c, h1, h2⟩ := he
    have := (h e (hl h1)).1
    cases c <;> simp [ends] at h2 <;> subst h2 <;> rw [h1] at this <;> simp at this <;> exact this.2
  · obtain ⟨c, h1, h2⟩ := he
    obtain ⟨c', h3, h4⟩ := he'
    have := (h e (hl h1)).2 e' (hl h3)
    rw [h1, h3] at this
    simpa [h2, h4] using this

/-- The example of ValueHistory.h:45-62, the lookup finding `v`. -/
def header (v : Nat) : List Call :=
  [.beginSet 1, .beginSet 2, .endSet 0, .beginSet 3, .endSet 3, .beginSet 4, .endSet 1, .beginGet, .endSet 5,
   .beginSet 5, .endSet 9, .endGet 7 (some v)]

theorem wf_header : WF (header 1) ∧ WF (header 3) := ⟨wf_of (by decide), wf_of (by decide)⟩

example : ([1, 2, 3, 4, 5, 6].map fun v => ((Hist.calls kCapacity {} (header v)).map fun p => p.2[11]?)) =
    [some (some false), some (some true), some (some true), some (some true), some (some true), some (some false)] := by
  decide +kernel

/-- `stale_reported` applies to the header's value 1, overridden by value 3. -/
example : ∃ h as, Hist.calls kCapacity {} (header 1) = some (h, as) ∧ as[11]? = some false := by
  refine stale_reported (header 1) wf_header.1 (by decide) 11 7 1 rfl ?_ ?_
  · intro s hs hlt
    have : s = 0 := by
      have : s < 12 := by omega
      have key : ∀ s, s < 12 → (header 1)[s]? = some (Call.beginSet 1) → s = 0 := by decide
      exact key s this hs
    subst this
    exact ⟨2, 3, 4, ⟨_, rfl, rfl⟩, by omega, ⟨_, rfl, rfl⟩, by omega, Or.inl rfl⟩
  · intro h; cases h

/-- `atomic_not_reported` applies to a set, a lookup that finds it, a delete and a lookup that misses. -/
def seq4 : List Call :=
  [.beginSet 7, .endSet 0, .beginGet, .endGet 2 (some 7), .beginDelete, .endDelete 4, .beginGet, .endGet 6 none]

theorem ended_seq4 : ∀ b e, Ended seq4 b e ↔ (b = 0 ∧ e = 1) ∨ (b = 2 ∧ e = 3) ∨ (b = 4 ∧ e = 5) ∨ (b = 6 ∧ e = 7) := by
  intro b e
  constructor
  · rintro ⟨c, h1, h2⟩
    have hl : e < 8 := (List.getElem?_eq_some_iff.mp h1).1
    have key : ∀ e, e < 8 → (seq4[e]?).bind ends =
      (if e = 1 then some 0 else if e = 3 then some 2 else if e = 5 then some 4 else if e = 7 then some 6 else none) := by
      decide
    have := key e hl
    rw [h1] at this
    simp only [Option.bind_some, h2] at this
    split at this
    · injection this with this; left; exact ⟨this, by assumption⟩
    · split at this
      · injection this with this; right; left; exact ⟨this, by assumption⟩
      · split at this
        · injection this with this; right; right; left; exact ⟨this, by assumption⟩
        · split at this
          · injection this with this; right; right; right; exact ⟨this, by assumption⟩
          · cases this
  · rintro (⟨rfl, rfl⟩ | ⟨rfl, rfl⟩ | ⟨rfl, rfl⟩ | ⟨rfl, rfl⟩) <;> exact ⟨_, rfl, rfl⟩

theorem atomic_seq4 : Atomic seq4 := by
  refine ⟨⟨fun i => 2 * i, fun b => if b = 0 ∨ b = 4 ∨ b = 6 then some (2 * b + 1) else none, fun i j h => by omega, ?_, ?_, ?_⟩, ?_⟩
  · intro b p hp
    split at hp
    · injection hp with hp
      refine ⟨by omega, fun e he => ?_⟩
      rw [ended_seq4] at he; omega
    · cases hp
  · intro b e he hc
    rw [ended_seq4] at he
    have hne : b ≠ 2 := by
      rintro rfl
      rcases hc with (h | ⟨x, h⟩) | ⟨v, h⟩
      · cases h
      · have : Ended seq4 2 x := ⟨_, h, rfl⟩
        rw [ended_seq4] at this
        have : x = 3 := by omega
        subst this; cases h
      · cases h
    exact ⟨2 * b + 1, if_pos (by omega)⟩
  · intro a b p ha hb
    split at ha <;> split at hb
    · injection ha with ha; injection hb with hb; omega
    · cases hb
    · cases ha
    · cases ha
  · intro g e v he
    have h3 : e = 3 := by
      have hl : e < 8 := (List.getElem?_eq_some_iff.mp he).1
      have key : ∀ e, e < 8 → e ≠ 3 → ∀ x, seq4[e]? = some x → (match x with | .endGet _ (some _) => false | _ => true) = true := by
        intro e h1 h2 x
        have : e = 0 ∨ e = 1 ∨ e = 2 ∨ e = 4 ∨ e = 5 ∨ e = 6 ∨ e = 7 := by omega
        rcases this with rfl | rfl | rfl | rfl | rfl | rfl | rfl <;> (intro h; injection h with h; subst h; rfl)
      by_cases h : e = 3
      · exact h
      · have := key e hl h _ he; cases this
    subst h3
    injection he with he; injection he with h1 h2; injection h2 with h2; subst h1 h2
    refine ⟨5, by decide, by decide, Or.inl ⟨0, 1, rfl, rfl, by omega, ?_⟩⟩
    intro a r _ hr hlt
    simp only at hr
    split at hr
    · injection hr with hr; omega
    · cases hr

example : ∃ h as, Hist.calls kCapacity {} seq4 = some (h, as) ∧ as.length = 8 ∧ ∀ b, b ∈ as → b = true :=
  atomic_not_reported seq4 (wf_of (by decide)) (by decide) atomic_seq4

end Verif.Consist
