import Verif.Persist.Round

namespace Verif.Persist
open Spec

/-- A parser that used `u` of the stream works the same on every stream that starts with `u`, and throws on every
shorter beginning of `u`. -/
def Local {α} (p : P α) : Prop :=
  ∀ t h a r h', p t h = .ok a r h' → ∃ u, t = u ++ r ∧ (∀ r2, p (u ++ r2) h = .ok a r2 h') ∧
    ∀ q, q <+: u → q ≠ u → ∃ h2, p q h = .thrown h2

theorem Local.pure {α} (a : α) : Local (P.pure a) := by
  intro t h b r h' e
  simp only [P.pure, Out.ok.injEq] at e
  obtain ⟨rfl, rfl, rfl⟩ := e
  refine ⟨[], rfl, fun _ => rfl, fun q hq hne => ?_⟩
  exact absurd (List.prefix_nil.1 hq) hne

theorem Local.modify (g : Host → Host) : Local (P.modify g) := by
  intro t h b r h' e
  simp only [P.modify, Out.ok.injEq] at e
  obtain ⟨_, rfl, rfl⟩ := e
  refine ⟨[], rfl, fun _ => rfl, fun q hq hne => ?_⟩
  exact absurd (List.prefix_nil.1 hq) hne

theorem Local.throw {α} : Local (P.throw (α := α)) := by
  intro t h b r h' e; cases e

theorem Local.bad {α} : Local (P.bad (α := α)) := by
  intro t h b r h' e; cases e

theorem Local.check (c : Bool) : Local (P.check c) := by
  cases c
  · exact Local.throw
  · exact Local.pure ()

theorem Local.deser {α} (x : Option α) : Local (deser x) := by
  cases x
  · exact Local.throw
  · exact Local.pure _

theorem Local.ite {α} {c : Prop} [Decidable c] {p q : P α} (hp : Local p) (hq : Local q) :
    Local (if c then p else q) := by
  split <;> assumption

/-- A prefix of `u ++ v` ends in `u` or in `v`. -/
theorem prefix_split {q u v : List Byte} (h : q <+: u ++ v) (hne : q ≠ u ++ v) :
    (q <+: u ∧ q ≠ u) ∨ ∃ q2, q = u ++ q2 ∧ q2 <+: v ∧ q2 ≠ v := by
  obtain ⟨z, hz⟩ := h
  rcases Nat.lt_or_ge q.length u.length with hl | hl
  · refine .inl ⟨List.prefix_of_prefix_length_le ⟨z, hz⟩ (List.prefix_append u v) (by omega), ?_⟩
    intro e; subst e; omega
  · have hp : u <+: q := List.prefix_of_prefix_length_le (List.prefix_append u v) ⟨z, hz⟩ hl
    obtain ⟨q2, rfl⟩ := hp
    refine .inr ⟨q2, rfl, ⟨z, ?_⟩, ?_⟩
    · rw [List.append_assoc] at hz
      exact List.append_cancel_left hz
    · intro e; exact hne (by rw [e])

theorem Local.bind {α β} {p : P α} {g : α → P β} (hp : Local p) (hg : ∀ a, Local (g a)) : Local (p.bind g) := by
  intro t h b r h' e
  obtain ⟨a, r1, h1, e1, e2⟩ := P.bind_eq_ok e
  obtain ⟨u, rfl, hu, hq⟩ := hp _ _ _ _ _ e1
  obtain ⟨v, rfl, hv, hw⟩ := hg a _ _ _ _ _ e2
  refine ⟨u ++ v, by simp, ?_, ?_⟩
  · intro r2
    rw [List.append_assoc, P.bind_ok (hu _), hv]
  · intro q hpre hne
    rcases prefix_split hpre hne with ⟨h3, h4⟩ | ⟨q2, rfl, h3, h4⟩
    · obtain ⟨h2, e3⟩ := hq q h3 h4
      exact ⟨h2, P.bind_thrown e3⟩
    · obtain ⟨h2, e3⟩ := hw q2 h3 h4
      exact ⟨h2, by rw [P.bind_ok (hu _), e3]⟩

theorem Local.readExact (st : Bool) (n : Nat) : Local (readExact st n) := by
  intro t h a r h' e
  obtain ⟨rfl, hl, rfl⟩ := readExact_ok e
  refine ⟨a, rfl, fun r2 => readExact_app' hl, ?_⟩
  intro q hq hne
  refine ⟨h', readExact_short ?_⟩
  rcases Nat.lt_or_ge q.length a.length with h | h
  · omega
  · exact absurd (hq.eq_of_length (Nat.le_antisymm hq.length_le h)) hne

theorem Local.readMark (st : Bool) : Local (readMark st) := by
  intro t h a r h' e
  unfold Verif.Persist.readMark at e
  obtain ⟨c, r1, h1, e1, e2⟩ := P.bind_eq_ok e
  have hc : (c = kMark ∨ c = kEnd) := by
    by_cases h1 : c = kMark
    · exact .inl h1
    · by_cases h2 : c = kEnd
      · exact .inr h2
      · rw [if_neg h1, if_neg h2] at e2; cases e2
  cases t with
  | nil =>
    simp only [readChar] at e1
    split at e1
    · cases e1
    · simp only [Out.ok.injEq] at e1
      obtain ⟨rfl, _, _⟩ := e1
      rcases hc with h | h
      · exact absurd h (by decide)
      · exact absurd h (by decide)
  | cons x t =>
    simp only [readChar, Out.ok.injEq] at e1
    obtain ⟨rfl, rfl, rfl⟩ := e1
    have hr : r = t ∧ h' = h := by
      revert e2
      split
      · intro e2; simp only [P.pure, Out.ok.injEq] at e2; exact ⟨e2.2.1.symm, e2.2.2.symm⟩
      · split
        · intro e2; simp only [P.pure, Out.ok.injEq] at e2; exact ⟨e2.2.1.symm, e2.2.2.symm⟩
        · intro e2; cases e2
    obtain ⟨rfl, rfl⟩ := hr
    refine ⟨[x], rfl, ?_, ?_⟩
    · intro r2
      unfold Verif.Persist.readMark
      rw [P.bind_ok (show readChar st ([x] ++ r2) h' = .ok x r2 h' from rfl)]
      revert e2
      split
      · intro e2; simp only [P.pure, Out.ok.injEq] at e2; simp [P.pure, e2.1]
      · split
        · intro e2; simp only [P.pure, Out.ok.injEq] at e2; simp [P.pure, e2.1]
        · intro e2; cases e2
    · intro q hq hne
      have : q = [] := by
        have hl := hq.length_le
        cases q with
        | nil => rfl
        | cons y q =>
          exfalso
          apply hne
          exact hq.eq_of_length (by simp at hl ⊢; omega)
      subst this
      refine ⟨h', ?_⟩
      cases st <;> rfl

theorem Local.readBlock (f : Fmt) (st : Bool) : Local (readBlock f st) := by
  unfold Verif.Persist.readBlock
  refine Local.bind (Local.readExact _ _) fun buf => ?_
  exact Local.ite Local.bad (Local.bind (Local.check _) fun _ => Local.pure _)

theorem Local.restoreBlocks (f : Fmt) (st : Bool) (s : Seg) (size : Nat) :
    ∀ n done, Local (restoreBlocks f st s size n done)
  | 0, _ => Local.pure ()
  | n + 1, done => by
    unfold Verif.Persist.restoreBlocks
    exact Local.bind (Local.readBlock _ _) fun d => Local.ite Local.bad
      (Local.bind (Local.modify _) fun _ => Local.restoreBlocks f st s size n (done ++ d))

theorem Local.restoreNavyBlocks (f : Fmt) (st : Bool) (i : Nat) : ∀ n done, Local (restoreNavyBlocks f st i n done)
  | 0, _ => Local.pure ()
  | n + 1, done => by
    unfold Verif.Persist.restoreNavyBlocks
    exact Local.bind (Local.readBlock _ _) fun d =>
      Local.bind (Local.modify _) fun _ => Local.restoreNavyBlocks f st i n (done ++ d)

theorem Local.restoreNavyFiles (f : Fmt) (st : Bool) (b : Nat) : ∀ n i, Local (restoreNavyFiles f st b i n)
  | 0, _ => Local.pure ()
  | n + 1, i => by
    unfold Verif.Persist.restoreNavyFiles
    exact Local.bind (Local.modify _) fun _ => Local.bind (Local.restoreNavyBlocks _ _ _ _ _) fun _ =>
      Local.restoreNavyFiles f st b n (i + 1)

theorem Local.restoreShm (f : Fmt) (st : Bool) (s : Seg) (n : Nat) : Local (restoreShm f st s n) :=
  Local.bind (Local.modify _) fun _ => Local.restoreBlocks _ _ _ _ _ _

theorem Local.restoreSection (f : Fmt) (m : Mgr) (st : Bool) (k : Kind) (n : Nat) : Local (restoreSection f m st k n) := by
  cases k
  · exact Local.bind (Local.readExact _ _) fun _ => Local.bind (Local.deser _) fun _ => Local.check _
  · exact Local.bind (Local.readExact _ _) fun _ => Local.bind (Local.deser _) fun _ => Local.check _
  · exact Local.bind (Local.readExact _ _) fun _ => Local.ite (Local.pure ()) (Local.modify _)
  · exact Local.restoreShm _ _ _ _
  · exact Local.restoreShm _ _ _ _
  · exact Local.restoreShm _ _ _ _
  · exact Local.restoreShm _ _ _ _
  · exact Local.restoreNavyFiles _ _ _ _ _

theorem Local.restoreOne (f : Fmt) (m : Mgr) (st : Bool) (L : Nat) : Local (restoreOne f m st L) :=
  Local.bind (Local.readExact _ _) fun _ => Local.bind (Local.deser _) fun _ =>
    Local.bind (Local.restoreSection _ _ _ _ _) fun _ => Local.readMark _

theorem Local.restoreLoop (f : Fmt) (m : Mgr) (st : Bool) (L : Nat) : ∀ n, Local (restoreLoop f m st L n)
  | 0 => Local.bad
  | n + 1 => Local.bind (Local.restoreOne _ _ _ _) fun _ => Local.ite (Local.restoreLoop f m st L n) (Local.pure ())

/-- An iteration uses a byte at least. -/
theorem restoreOne_uses {f : Fmt} {m : Mgr} {st : Bool} {L : Nat} {t h b r h'}
    (e : restoreOne f m st L t h = .ok b r h') : r.length < t.length := by
  unfold restoreOne at e
  obtain ⟨x, r1, h1, e1, ea⟩ := P.bind_eq_ok e
  obtain ⟨y, r2, h2, e2, eb⟩ := P.bind_eq_ok ea
  obtain ⟨z, r3, h3, e3, ec⟩ := P.bind_eq_ok eb
  clear e ea eb
  obtain ⟨u1, rfl, -, -⟩ := Local.readExact st L _ _ _ _ _ e1
  obtain ⟨u2, rfl, -, -⟩ := Local.deser _ _ _ _ _ _ e2
  obtain ⟨u3, rfl, -, -⟩ := Local.restoreSection f m st _ _ _ _ _ _ _ e3
  obtain ⟨u4, rfl, -, hq⟩ := Local.readMark st _ _ _ _ _ ec
  have hu : u4 ≠ [] := by
    intro h0; subst h0
    unfold readMark at ec
    obtain ⟨c, r4, h4, e4, e5⟩ := P.bind_eq_ok ec
    cases r with
    | nil =>
      simp only [readChar, List.append_nil] at e4
      split at e4
      · cases e4
      · simp only [Out.ok.injEq] at e4
        obtain ⟨rfl, _, _⟩ := e4
        rw [if_neg (by decide), if_neg (by decide)] at e5
        cases e5
    | cons w r =>
      simp only [List.nil_append, readChar, Out.ok.injEq] at e4
      obtain ⟨rfl, rfl, rfl⟩ := e4
      have : r.length = (w :: r).length := by
        revert e5
        split
        · intro e5; simp only [P.pure, Out.ok.injEq] at e5
          exact congrArg List.length e5.2.1
        · split
          · intro e5; simp only [P.pure, Out.ok.injEq] at e5
            exact congrArg List.length e5.2.1
          · intro e5; cases e5
      simp at this
  have : 0 < u4.length := List.length_pos_iff.2 hu
  simp only [List.length_append]
  omega

/-- With more fuel than bytes, more fuel makes no difference: the loop ends by itself. -/
theorem restoreLoop_fuel {f : Fmt} {m : Mgr} {st : Bool} {L : Nat} : ∀ (n : Nat) (t : List Byte) (h : Host),
    t.length < n → restoreLoop f m st L (n + 1) t h = restoreLoop f m st L n t h
  | 0, t, h, hl => absurd hl (by omega)
  | n + 1, t, h, hl => by
    rw [restoreLoop, restoreLoop]
    unfold P.bind
    cases e : restoreOne f m st L t h with
    | thrown h' => rfl
    | fault => rfl
    | ok b r h' =>
      have := restoreOne_uses e
      cases b with
      | false => rfl
      | true => exact restoreLoop_fuel n r h' (by omega)

theorem restoreLoop_fuel' {f : Fmt} {m : Mgr} {st : Bool} {L : Nat} {n : Nat} {t : List Byte} {h : Host}
    (hl : t.length < n) : ∀ k, restoreLoop f m st L (n + k) t h = restoreLoop f m st L n t h
  | 0 => rfl
  | k + 1 => by rw [← Nat.add_assoc, restoreLoop_fuel (n + k) t h (by omega), restoreLoop_fuel' hl k]

end Verif.Persist
