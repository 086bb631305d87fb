import Verif.Persist.Props

namespace Verif.Persist
open Spec

/-- `p` is in the stream, with its checksum and its length in front of it. -/
def Spec.Piece (f : Fmt) (t p : List Byte) : Prop :=
  ∃ before c l after, t = before ++ (c ++ (l ++ (p ++ after))) ∧ c.length = 4 ∧ Number c (f.crc p) ∧ l.length = 4 ∧
    Number l p.length

/-- `d` is made of such pieces (and of zeros at its end). -/
def Spec.FromPieces (f : Fmt) (t d : List Byte) : Prop :=
  ∃ (ps : List (List Byte)) (z : Nat), d = ps.flatten ++ List.replicate z 0 ∧ ∀ p ∈ ps, Spec.Piece f t p

/-- What holds of the host during a restore from `t0` that began on `h0`. -/
def Good (f : Fmt) (t0 : List Byte) (h0 h : Host) : Prop :=
  (∀ s d, h.segs s = some d → Spec.FromPieces f t0 d) ∧
    ∀ k d, h.navy k = some d → h0.navy k = some d ∨ Spec.FromPieces f t0 d

/-- Parts of a restore keep it. -/
def Keeps (f : Fmt) (t0 : List Byte) (h0 : Host) {α} (p : P α) : Prop :=
  ∀ t h a r h', p t h = .ok a r h' → t <:+ t0 → Good f t0 h0 h → r <:+ t0 ∧ Good f t0 h0 h'

variable {f : Fmt} {t0 : List Byte} {h0 : Host}

theorem Keeps.pure {α} (a : α) : Keeps f t0 h0 (P.pure a) := by
  intro t h b r h' e ht hg
  simp only [P.pure, Out.ok.injEq] at e
  obtain ⟨_, rfl, rfl⟩ := e
  exact ⟨ht, hg⟩

theorem Keeps.throw {α} : Keeps f t0 h0 (P.throw (α := α)) := by intro t h b r h' e; cases e
theorem Keeps.bad {α} : Keeps f t0 h0 (P.bad (α := α)) := by intro t h b r h' e; cases e

theorem Keeps.check (c : Bool) : Keeps f t0 h0 (P.check c) := by
  cases c
  · exact Keeps.throw
  · exact Keeps.pure ()

theorem Keeps.deser {α} (x : Option α) : Keeps f t0 h0 (deser x) := by
  cases x
  · exact Keeps.throw
  · exact Keeps.pure _

theorem Keeps.ite {α} {c : Prop} [Decidable c] {p q : P α} (hp : Keeps f t0 h0 p) (hq : Keeps f t0 h0 q) :
    Keeps f t0 h0 (if c then p else q) := by
  split <;> assumption

theorem Keeps.bind {α β} {p : P α} {g : α → P β} (hp : Keeps f t0 h0 p) (hg : ∀ a, Keeps f t0 h0 (g a)) :
    Keeps f t0 h0 (p.bind g) := by
  intro t h b r h' e ht hgd
  obtain ⟨a, r1, h1, e1, e2⟩ := P.bind_eq_ok e
  obtain ⟨x, y⟩ := hp _ _ _ _ _ e1 ht hgd
  exact hg a _ _ _ _ _ e2 x y

theorem Keeps.modify {g : Host → Host} (hg : ∀ h, Good f t0 h0 h → Good f t0 h0 (g h)) :
    Keeps f t0 h0 (P.modify g) := by
  intro t h b r h' e ht hgd
  simp only [P.modify, Out.ok.injEq] at e
  obtain ⟨_, rfl, rfl⟩ := e
  exact ⟨ht, hg h hgd⟩

theorem Keeps.readExact (st : Bool) (n : Nat) : Keeps f t0 h0 (readExact st n) := by
  intro t h a r h' e ht hgd
  obtain ⟨rfl, _, rfl⟩ := readExact_ok e
  exact ⟨(List.suffix_append a r).trans ht, hgd⟩

theorem Keeps.readMark (st : Bool) : Keeps f t0 h0 (readMark st) := by
  unfold Verif.Persist.readMark
  refine Keeps.bind ?_ fun c => Keeps.ite (Keeps.pure _) (Keeps.ite (Keeps.pure _) Keeps.throw)
  intro t h a r h' e ht hgd
  cases t with
  | nil =>
    simp only [readChar] at e
    split at e
    · cases e
    · simp only [Out.ok.injEq] at e
      obtain ⟨_, rfl, rfl⟩ := e
      exact ⟨ht, hgd⟩
  | cons c t =>
    simp only [readChar, Out.ok.injEq] at e
    obtain ⟨_, rfl, rfl⟩ := e
    exact ⟨(List.suffix_cons c t).trans ht, hgd⟩

theorem good_setSeg {h : Host} {s : Seg} {d : List Byte} (hg : Good f t0 h0 h) (hd : Spec.FromPieces f t0 d) :
    Good f t0 h0 (setSeg h s (some d)) := by
  refine ⟨?_, hg.2⟩
  intro s' d' e
  simp only [setSeg] at e
  split at e
  · simp only [Option.some.injEq] at e; subst e; exact hd
  · exact hg.1 s' d' e

theorem good_setNavy {h : Host} {k : Nat} {d : List Byte} (hg : Good f t0 h0 h) (hd : Spec.FromPieces f t0 d) :
    Good f t0 h0 (setNavy h k d) := by
  refine ⟨hg.1, ?_⟩
  intro k' d' e
  simp only [setNavy] at e
  split at e
  · simp only [Option.some.injEq] at e; subst e; exact .inr hd
  · exact hg.2 k' d' e

theorem readBlock_piece {st : Bool} {t h d r h'} (e : readBlock f st t h = .ok d r h') (ht : t <:+ t0) :
    h' = h ∧ r <:+ t0 ∧ Spec.Piece f t0 d := by
  obtain ⟨rfl, c, l, pad, rfl, h1, h2, h3, h4, _, _⟩ := readBlock_ok e
  obtain ⟨z, hz⟩ := ht
  refine ⟨rfl, ⟨z ++ (c ++ (l ++ (d ++ pad))), by rw [← hz]; simp⟩, z, c, l, pad ++ r, hz.symm, h1, h2, h3, h4⟩

theorem Keeps.restoreBlocks (st : Bool) (s : Seg) (size : Nat) : ∀ (n : Nat) (ps : List (List Byte)),
    (∀ p ∈ ps, Spec.Piece f t0 p) → Keeps f t0 h0 (restoreBlocks f st s size n ps.flatten)
  | 0, _, _ => Keeps.pure ()
  | n + 1, ps, hps => by
    intro t h a r h' e ht hgd
    unfold Verif.Persist.restoreBlocks at e
    obtain ⟨d, r1, h1, e1, e2⟩ := P.bind_eq_ok e
    obtain ⟨rfl, hr1, hpc⟩ := readBlock_piece e1 ht
    split at e2
    · cases e2
    · have hall : ∀ p ∈ ps ++ [d], Spec.Piece f t0 p := by
        intro p hp
        rcases List.mem_append.1 hp with hp | hp
        · exact hps p hp
        · rw [List.mem_singleton.1 hp]; exact hpc
      have ef : ps.flatten ++ d = (ps ++ [d]).flatten := by simp
      rw [ef] at e2
      refine Keeps.bind (Keeps.modify ?_) (fun _ => Keeps.restoreBlocks st s size n (ps ++ [d]) hall) _ _ _ _ _ e2 hr1 hgd
      intro h hg
      exact good_setSeg hg ⟨ps ++ [d], _, rfl, hall⟩

theorem Keeps.restoreNavyBlocks (st : Bool) (i : Nat) : ∀ (n : Nat) (ps : List (List Byte)),
    (∀ p ∈ ps, Spec.Piece f t0 p) → Keeps f t0 h0 (restoreNavyBlocks f st i n ps.flatten)
  | 0, _, _ => Keeps.pure ()
  | n + 1, ps, hps => by
    intro t h a r h' e ht hgd
    unfold Verif.Persist.restoreNavyBlocks at e
    obtain ⟨d, r1, h1, e1, e2⟩ := P.bind_eq_ok e
    obtain ⟨rfl, hr1, hpc⟩ := readBlock_piece e1 ht
    have hall : ∀ p ∈ ps ++ [d], Spec.Piece f t0 p := by
      intro p hp
      rcases List.mem_append.1 hp with hp | hp
      · exact hps p hp
      · rw [List.mem_singleton.1 hp]; exact hpc
    have ef : ps.flatten ++ d = (ps ++ [d]).flatten := by simp
    rw [ef] at e2
    refine Keeps.bind (Keeps.modify ?_) (fun _ => Keeps.restoreNavyBlocks st i n (ps ++ [d]) hall) _ _ _ _ _ e2 hr1 hgd
    intro h hg
    exact good_setNavy hg ⟨ps ++ [d], 0, by simp, hall⟩

theorem Keeps.restoreShm (st : Bool) (s : Seg) (n : Nat) : Keeps f t0 h0 (restoreShm f st s n) := by
  refine Keeps.bind (Keeps.modify ?_) fun _ => Keeps.restoreBlocks st s n _ [] (by simp)
  intro h hg
  exact good_setSeg hg ⟨[], n, by simp, by simp⟩

theorem Keeps.restoreNavyFiles (st : Bool) (b : Nat) : ∀ n i, Keeps f t0 h0 (restoreNavyFiles f st b i n)
  | 0, _ => Keeps.pure ()
  | n + 1, i => by
    refine Keeps.bind (Keeps.modify ?_) fun _ => Keeps.bind (Keeps.restoreNavyBlocks st i b [] (by simp)) fun _ =>
      Keeps.restoreNavyFiles st b n (i + 1)
    intro h hg
    exact good_setNavy hg ⟨[], 0, by simp, by simp⟩

theorem Keeps.restoreSection (m : Mgr) (st : Bool) (k : Kind) (n : Nat) : Keeps f t0 h0 (restoreSection f m st k n) := by
  cases k
  · exact Keeps.bind (Keeps.readExact _ _) fun _ => Keeps.bind (Keeps.deser _) fun _ => Keeps.check _
  · exact Keeps.bind (Keeps.readExact _ _) fun _ => Keeps.bind (Keeps.deser _) fun _ => Keeps.check _
  · exact Keeps.bind (Keeps.readExact _ _) fun _ => Keeps.ite (Keeps.pure ()) (Keeps.modify fun h hg => hg)
  · exact Keeps.restoreShm _ _ _
  · exact Keeps.restoreShm _ _ _
  · exact Keeps.restoreShm _ _ _
  · exact Keeps.restoreShm _ _ _
  · exact Keeps.restoreNavyFiles _ _ _ _

theorem Keeps.restoreLoop (m : Mgr) (st : Bool) (L : Nat) : ∀ n, Keeps f t0 h0 (restoreLoop f m st L n)
  | 0 => Keeps.bad
  | n + 1 => Keeps.bind (Keeps.bind (Keeps.readExact _ _) fun _ => Keeps.bind (Keeps.deser _) fun _ =>
      Keeps.bind (Keeps.restoreSection _ _ _ _) fun _ => Keeps.readMark _) fun _ =>
      Keeps.ite (Keeps.restoreLoop m st L n) (Keeps.pure ())

/-- **Whatever the stream, nothing is restored without its checksum**: if a restore succeeds, every segment there is
and every Navy file that was changed is made of pieces that are in the stream right after their own checksum and length. -/
theorem restored_data_checked {m : Mgr} {t r : List Byte} {h h' : Host}
    (e : restoreCache f m true t h = .ok () r h') :
    (∀ s d, h'.segs s = some d → Spec.FromPieces f t d) ∧
      ∀ k d, h'.navy k = some d → h.navy k = some d ∨ Spec.FromPieces f t d := by
  unfold restoreCache at e
  cases hp : restorePrefix true t h with
  | thrown x => rw [hp] at e; cases e
  | fault => rw [hp] at e; cases e
  | ok L r1 h1 =>
    obtain ⟨rfl, len8, rfl, -, -⟩ := prefix_ok hp
    rw [hp] at e
    simp only at e
    cases hl : restoreLoop f m true L (r1.length + 1) r1 (dropSegs h1) with
    | thrown x => rw [hl] at e; cases e
    | fault => rw [hl] at e; cases e
    | ok a r' h2 =>
      rw [hl] at e
      simp only [Out.ok.injEq] at e
      obtain ⟨_, rfl, rfl⟩ := e
      refine (Keeps.restoreLoop (f := f) (t0 := 28 :: (len8 ++ r1)) (h0 := h1) m true L _ _ _ _ _ _ hl ?_ ?_).2
      · exact ⟨28 :: len8, by simp⟩
      · exact ⟨fun s d h => (by cases h), fun k d h => .inl h⟩

end Verif.Persist
