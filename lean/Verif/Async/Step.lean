import Verif.Async.Inv
namespace Verif.Async
open Verif.Destructor (countP_erase countP_set')

/-! A mover's next state: what is counted. -/
structure Cnts (l l' : List Mover) (m n : Mover) (x : Nat) : Prop where
  owns : l'.countP (Mover.owns x) + (if m.owns x then 1 else 0) = l.countP (Mover.owns x) + (if n.owns x then 1 else 0)
  marks : l'.countP (Mover.marks x) + (if m.marks x then 1 else 0) = l.countP (Mover.marks x) + (if n.marks x then 1 else 0)
  first : l'.countP (Mover.first x) + (if m.first x then 1 else 0) = l.countP (Mover.first x) + (if n.first x then 1 else 0)
  holds : l'.countP (Mover.holds x) + (if m.holds x then 1 else 0) = l.countP (Mover.holds x) + (if n.holds x then 1 else 0)
  waker : l'.countP (Mover.waker x) + (if m.waker x then 1 else 0) = l.countP (Mover.waker x) + (if n.waker x then 1 else 0)

theorem cnts_set {l : List Mover} {i : Nat} {m : Mover} (n : Mover) (h : l[i]? = some m) (x : Nat) : Cnts l (l.set i n) m n x :=
  ⟨countP_set' _ h, countP_set' _ h, countP_set' _ h, countP_set' _ h, countP_set' _ h⟩

theorem cnt_ge {l : List Mover} {i : Nat} {m : Mover} (h : l[i]? = some m) (p : Mover → Bool) (hp : p m = true) : 1 ≤ l.countP p :=
  List.countP_pos_iff.mpr ⟨m, List.mem_of_getElem? h, hp⟩

theorem noch_set {l : List Mover} {i : Nat} {n : Mover} (h : ∀ m ∈ l, m.chained = false) (hn : n.chained = false) :
    ∀ m ∈ l.set i n, m.chained = false := by
  intro m hm
  rcases List.mem_or_eq_of_mem_set hm with h1 | rfl
  · exact h m h1
  · exact hn

variable {c : Cfg} {s s' : State}

/-- An item that is not yet in the cache is put in the index: the reference is that of the caller. -/
theorem Inv.link (hi : Inv s) {b v : Nat} (hb : s.mem b = none) :
    Inv { s with mem := upd s.mem b (some { ver := v, refs := 1 }), spell := upd s.spell b true, index := some b,
                 handles := s.handles ++ [b], nextV := s.nextV + 1 } := by
  refine ⟨fun x => ?_, hi.noch, hi.len, hi.ent⟩
  have hx := hi.addr x
  have m1 := first_le_marks s.movers x
  have m2 := marks_le_waker s.movers x
  have m3 := waker_le_owns s.movers x
  by_cases h : x = b
  · subst h
    obtain ⟨f1, f2, f3, f4⟩ := hx.free hb
    refine ⟨by simp, ?_⟩
    intro it hit
    simp at hit; subst hit
    simp [List.count_append, f1, f2, f3]
    refine ⟨?_, ?_⟩ <;> omega
  · refine ⟨?_, ?_⟩
    · intro hm
      simp only [upd_ne _ _ h] at hm
      obtain ⟨f1, f2, f3, f4⟩ := hx.free hm
      refine ⟨f1, ?_, f3, ?_⟩
      · have : ¬ b = x := fun e => h e.symm
        simp [List.count_append, f2, this]
      · simp; exact fun e => h e.symm
    · intro it hit
      simp only [upd_ne _ _ h] at hit
      obtain ⟨u1, u2, u3, u4, u5, u6⟩ := hx.used it hit
      refine ⟨by simpa [upd_ne _ _ h] using u1, ?_, u3, u4, u5, ?_⟩
      · have : ¬ b = x := fun e => h e.symm
        simp [List.count_append, u2, this]
      · intro e; simp at e; exact absurd e.symm h

/-- A handle more. -/
theorem Inv.ref (hi : Inv s) {a : Nat} {o : Item} (hm : s.mem a = some o) (hx : s.index = some a) (hv : o.moving = false) :
    Inv { s with mem := upd s.mem a (some { o with refs := o.refs + 1 }), handles := s.handles ++ [a] } := by
  have m1 := first_le_marks s.movers a
  have m2 := marks_le_waker s.movers a
  have m3 := waker_le_owns s.movers a
  refine ⟨fun x => ?_, hi.noch, hi.len, hi.ent⟩
  · have hx' := hi.addr x
    by_cases h : x = a
    · subst h
      refine ⟨by simp, ?_⟩
      intro it hit
      simp at hit; subst hit
      obtain ⟨u1, u2, u3, u4, u5, u6⟩ := hx'.used o hm
      have := u6 hx
      have h4 : s.movers.countP (Mover.marks x) ≠ 1 := fun e => by simp [u4.mpr e] at hv
      refine ⟨u1, ?_, u3, u4, ?_, u6⟩
      · simp [List.count_append]; omega
      · intro e; simp only at e; omega
    · have hc : ∀ l : List Nat, (l ++ [a]).count x = l.count x := by
        intro l; have : ¬ a = x := fun e => h e.symm
        simp [List.count_append, this]
      refine ⟨?_, ?_⟩
      · intro hm'
        simp only [upd_ne _ _ h] at hm'
        obtain ⟨f1, f2, f3, f4⟩ := hx'.free hm'
        exact ⟨f1, by simpa [hc] using f2, f3, f4⟩
      · intro it hit
        simp only [upd_ne _ _ h] at hit
        obtain ⟨u1, u2, u3, u4, u5, u6⟩ := hx'.used it hit
        exact ⟨u1, by simpa [hc] using u2, u3, u4, u5, u6⟩

theorem Inv.insert (hi : Inv s) {b : Nat} (h : s.exec c (.insert b) = some s') : Inv s' := by
  simp only [State.exec] at h
  split at h
  · cases h
  · next hb =>
    have hb : s.mem b = none := by simpa using hb
    cases hx : s.index with
    | none => simp only [hx, Option.some.injEq] at h; subst h; exact hi.link hb
    | some a =>
      cases hm : s.mem a with
      | none => simp [hx, hm] at h
      | some o =>
        have hab : b ≠ a := fun e => by simp [← e, hb] at hm
        simp only [hx, hm] at h
        split at h
        · next hv =>
          simp only [Option.some.injEq] at h; subst h
          have := (hi.join hm hv).link (b := b) (v := (s.join a).nextV) (by simpa using hb)
          simpa using this
        · next hv =>
          split at h
          · simp only [Option.some.injEq] at h; subst h
            have := (hi.ref hm hx (by simpa using hv)).link (b := b) (v := s.nextV) (by simpa [upd_ne _ _ hab] using hb)
            simpa using this
          · cases h

theorem Inv.unlinked (hi : Inv s) : Inv { s with index := none } := by
  refine ⟨fun x => ⟨?_, ?_⟩, hi.noch, hi.len, hi.ent⟩
  · intro hm; obtain ⟨f1, f2, f3, f4⟩ := (hi.addr x).free hm; exact ⟨f1, f2, f3, by simp⟩
  · intro it hm; obtain ⟨u1, u2, u3, u4, u5, u6⟩ := (hi.addr x).used it hm; exact ⟨u1, u2, u3, u4, u5, by simp⟩

theorem Inv.unlink (hi : Inv s) (h : s.exec c .unlink = some s') : Inv s' := by
  simp only [State.exec] at h
  repeat' split at h
  all_goals first | cases h; done | skip
  simp only [Option.some.injEq] at h; subst h; exact hi.unlinked

theorem Inv.find (hi : Inv s) (h : s.exec c .find = some s') : Inv s' := by
  simp only [State.exec] at h
  cases hx : s.index with
  | none => simp [hx] at h; subst h; exact hi
  | some a =>
    cases hm : s.mem a with
    | none => simp [hx, hm] at h
    | some o =>
      simp only [hx, hm] at h
      split at h
      · next hv => simp only [Option.some.injEq] at h; subst h; exact hi.join hm hv
      · next hv =>
        split at h
        · simp only [Option.some.injEq] at h; subst h
          have := hi.ref hm hx (by simpa using hv)
          rwa [hx] at this
        · cases h

/-- A handle is given back. -/
theorem Inv.drop (hi : Inv s) {b : Nat} (hb : b ∈ s.handles) : Inv (({ s with handles := s.handles.erase b } : State).unref b) := by
  have hpos : 0 < s.handles.count b := List.count_pos_iff.mpr hb
  cases hm : s.mem b with
  | none => have := ((hi.addr b).free hm).2.1; omega
  | some o =>
    simp only [State.unref, hm]
    refine ⟨fun x => ?_, hi.noch, hi.len, hi.ent⟩
    · have hx := hi.addr x
      by_cases h : x = b
      · subst h
        refine ⟨by simp, ?_⟩
        intro it hit
        simp at hit; subst hit
        obtain ⟨u1, u2, u3, u4, u5, u6⟩ := hx.used o hm
        refine ⟨u1, ?_, u3, u4, ?_, u6⟩
        · simp only [List.count_erase_self]; omega
        · intro e; have := u5 e; simp only; omega
      · have hc : (s.handles.erase b).count x = s.handles.count x := List.count_erase_of_ne (by simpa using h)
        refine ⟨?_, ?_⟩
        · intro hm'
          simp only [upd_ne _ _ h] at hm'
          obtain ⟨f1, f2, f3, f4⟩ := hx.free hm'
          exact ⟨f1, by simpa [hc] using f2, f3, f4⟩
        · intro it hit
          simp only [upd_ne _ _ h] at hit
          obtain ⟨u1, u2, u3, u4, u5, u6⟩ := hx.used it hit
          exact ⟨u1, by simpa [hc] using u2, u3, u4, u5, u6⟩

theorem Inv.release (hi : Inv s) {b : Nat} (h : s.exec c (.release b) = some s') : Inv s' := by
  simp only [State.exec] at h
  split at h
  · next hb => simp only [Option.some.injEq] at h; subst h; exact hi.drop hb
  · cases h

/-- Memory that nobody uses is freed. -/
theorem Inv.freed (hi : Inv s) {a : Nat} {o : Item} (hm : s.mem a = some o) (hr : o.refs = 0) (hx : s.index ≠ some a)
    (ho : s.movers.countP (Mover.owns a) = 0) : Inv { s with mem := upd s.mem a none } := by
  refine ⟨fun x => ?_, hi.noch, hi.len, hi.ent⟩
  · have hx' := hi.addr x
    by_cases h : x = a
    · subst h
      refine ⟨fun _ => ?_, by simp⟩
      obtain ⟨u1, u2, u3, u4, u5, u6⟩ := hx'.used o hm
      exact ⟨ho, by simp only; omega, by simp only; omega, hx⟩
    · refine ⟨?_, ?_⟩
      · intro hm'; simp only [upd_ne _ _ h] at hm'; exact hx'.free hm'
      · intro it hit; simp only [upd_ne _ _ h] at hit; exact hx'.used it hit

theorem Inv.free' (hi : Inv s) {a : Nat} (h : s.exec c (.free a) = some s') : Inv s' := by
  simp only [State.exec] at h
  cases hm : s.mem a with
  | none => simp [hm] at h
  | some o =>
    simp only [hm] at h
    split at h
    · next hc =>
      simp only [Option.some.injEq] at h; subst h
      refine hi.freed hm hc.1 hc.2.2.1 ?_
      rw [List.countP_eq_zero]; intro m hm'; have := List.all_eq_true.mp hc.2.2.2 m hm'; simpa using this
    · cases h

theorem Inv.scribble (hi : Inv s) {a : Nat} (h : s.exec c (.scribble a) = some s') : Inv s' := by
  simp only [State.exec] at h
  split at h
  · next hm =>
    simp only [Option.some.injEq] at h; subst h
    refine ⟨fun x => ⟨(hi.addr x).free, ?_⟩, hi.noch, hi.len, hi.ent⟩
    intro it hit
    have : x ≠ a := fun e => by subst e; simp only at hit; simp [hit] at hm
    simpa [upd_ne _ _ this] using (hi.addr x).used it hit
  · cases h

theorem Inv.mark (hi : Inv s) (h : s.exec c .mark = some s') : Inv s' := by
  simp only [State.exec] at h
  split at h
  · cases h
  · cases hx : s.index with
    | none => simp [hx] at h
    | some a =>
      cases hm : s.mem a with
      | none => simp [hx, hm] at h
      | some o =>
        simp only [hx, hm] at h
        split at h
        · next hc =>
          simp only [Option.some.injEq] at h; subst h
          obtain ⟨hv, hr⟩ := hc
          refine ⟨fun x => ?_, ?_, hi.len, ?_⟩
          · have hx' := hi.addr x
            by_cases h : x = a
            · subst h
              refine ⟨by simp, ?_⟩
              intro it hit
              simp at hit; subst hit
              obtain ⟨u1, u2, u3, u4, u5, u6⟩ := hx'.used o hm
              have m1 := first_le_marks s.movers x
              have m2 := marks_le_waker s.movers x
              have m3 := waker_le_owns s.movers x
              have := u6 hx
              have h4 : s.movers.countP (Mover.marks x) ≠ 1 := fun e => by simp [u4.mpr e] at hv
              have q1 : (s.movers ++ [Mover.moving x]).countP (Mover.owns x) = s.movers.countP (Mover.owns x) + 1 := by
                simp [List.countP_append, Mover.owns]
              have q2 : (s.movers ++ [Mover.moving x]).countP (Mover.marks x) = s.movers.countP (Mover.marks x) + 1 := by
                simp [List.countP_append, Mover.marks]
              have q3 : (s.movers ++ [Mover.moving x]).countP (Mover.first x) = s.movers.countP (Mover.first x) + 1 := by
                simp [List.countP_append, Mover.first]
              have q4 : (s.movers ++ [Mover.moving x]).countP (Mover.holds x) = s.movers.countP (Mover.holds x) := by
                simp [List.countP_append, Mover.holds]
              simp only [q1, q2, q3, q4]
              refine ⟨u1, u2, by omega, ⟨fun _ => by omega, fun _ => trivial⟩, fun _ => hr, fun _ => by omega⟩
            · have h' : ¬ a = x := fun e => h e.symm
              refine ⟨?_, ?_⟩
              · intro hm'
                simp only [upd_ne _ _ h] at hm'
                have := hx'.free hm'
                simpa [Mover.owns, Mover.holds, hx, h', List.countP_append, List.countP_cons] using this
              · intro it hit
                simp only [upd_ne _ _ h] at hit
                have := hx'.used it hit
                simpa [Mover.owns, Mover.holds, Mover.marks, Mover.first, hx, h', List.countP_append, List.countP_cons] using this
          · intro m hm'
            rcases List.mem_append.mp hm' with h1 | h1
            · exact hi.noch m h1
            · simp at h1; subst h1; rfl
          · intro e he; have := hi.ent e he; simp only [List.countP_append]; omega
        · cases h

theorem Inv.mvReplace (hi : Inv s) {i b : Nat} (h : s.exec c (.mvReplace i b) = some s') : Inv s' := by
  simp only [State.exec] at h
  split at h
  case h_2 => cases h
  case h_1 a hmv =>
    split at h
    case isFalse => cases h
    case isTrue hc =>
      obtain ⟨hx, hb⟩ := hc
      have hb : s.mem b = none := by simpa using hb
      cases hm : s.mem a with
      | none => simp [hm] at h
      | some o =>
        have hab : a ≠ b := fun e => by simp [e, hb] at hm
        simp only [hm, Option.some.injEq] at h; subst h
        refine ⟨fun x => ?_, noch_set hi.noch rfl, hi.len, ?_⟩
        · have hx' := hi.addr x
          obtain ⟨c1, c2, c3, c4, -⟩ := cnts_set (.moved a b) hmv x
          simp only [Mover.owns, Mover.marks, Mover.first, Mover.holds] at c1 c2 c3 c4
          have m1 := first_le_marks (s.movers.set i (.moved a b)) x
          have m2 := marks_le_waker (s.movers.set i (.moved a b)) x
          have m3 := waker_le_owns (s.movers.set i (.moved a b)) x
          by_cases h : x = b
          · subst h
            refine ⟨by simp, ?_⟩
            intro it hit
            simp at hit; subst hit
            obtain ⟨f1, f2, f3, f4⟩ := hx'.free hb
            simp [hab] at c1 c2 c3 c4
            simp [f2]
            refine ⟨by omega, by omega, by omega, by omega, by omega⟩
          · have h' : ¬ b = x := fun e => h e.symm
            refine ⟨?_, ?_⟩
            · intro hm'
              simp only [upd_ne _ _ h] at hm'
              obtain ⟨f1, f2, f3, f4⟩ := hx'.free hm'
              simp [h'] at c1 c2 c3 c4
              exact ⟨by simp only; omega, f2, by simp only; omega, by simpa using h'⟩
            · intro it hit
              simp only [upd_ne _ _ h] at hit
              obtain ⟨u1, u2, u3, u4, u5, u6⟩ := hx'.used it hit
              simp [h'] at c1 c2 c3 c4
              refine ⟨by simpa [upd_ne _ _ h] using u1, by simp only; omega, by simp only; omega, ?_, ?_, ?_⟩
              · simp only [c2]; exact u4
              · simp only [c1]; exact u5
              · intro e; simp at e; exact absurd e h'
        · intro e he
          have := hi.ent e he
          have := (cnts_set (.moved a b) hmv e.keyAt).waker
          have h2 : ∀ x, Mover.waker x (.moved a b) = Mover.waker x (.moving a) := fun _ => rfl
          rw [h2] at this; simp only; omega

/-- Not moving any more, and on to the next state of the mover. -/
theorem Inv.unmark (hi : Inv s) {i a : Nat} {o : Item} {m n : Mover} (hmv : s.movers[i]? = some m) (hm : s.mem a = some o)
    (hx : s.index ≠ some a) (hmn : ∀ x, m.owns x = n.owns x) (hh : ∀ x, m.holds x = n.holds x) (hw : ∀ x, m.waker x = n.waker x)
    (h1 : ∀ x, m.marks x = (a == x)) (h2 : ∀ x, n.marks x = false) (h3 : ∀ x, n.first x = false) (ho : m.owns a = true)
    (hf : ∀ x, x ≠ a → m.first x = false) (hch : n.chained = false) :
    Inv { s with mem := upd s.mem a (some { o with moving := false }), movers := s.movers.set i n } := by
  refine ⟨fun x => ?_, noch_set hi.noch hch, hi.len, ?_⟩
  · have hx' := hi.addr x
    obtain ⟨c1, c2, c3, c4, -⟩ := cnts_set n hmv x
    simp only [hmn, hh, h1, h2, h3] at c1 c2 c3 c4
    have g1 := cnt_ge hmv (Mover.marks a) (by simp [h1])
    have m1 := first_le_marks s.movers a
    have m2 := marks_le_waker s.movers a
    have m3 := waker_le_owns s.movers a
    by_cases h : x = a
    · subst h
      refine ⟨by simp, ?_⟩
      intro it hit
      simp at hit; subst hit
      obtain ⟨u1, u2, u3, u4, u5, u6⟩ := hx'.used o hm
      simp at c2
      refine ⟨u1, by simp only; omega, by simp only; omega, ?_, ?_, ?_⟩
      · simp only [Bool.false_eq_true, false_iff]; omega
      · intro e; simp only at e ⊢; exact u5 (by omega)
      · intro e; exact absurd e hx
    · have h' : ¬ a = x := fun e => h e.symm
      simp [h', hf x h] at c2 c3
      refine ⟨?_, ?_⟩
      · intro hm'
        simp only [upd_ne _ _ h] at hm'
        obtain ⟨f1, f2, f3, f4⟩ := hx'.free hm'
        exact ⟨by simp only; omega, f2, by simp only; omega, f4⟩
      · intro it hit
        simp only [upd_ne _ _ h] at hit
        obtain ⟨u1, u2, u3, u4, u5, u6⟩ := hx'.used it hit
        refine ⟨u1, by simp only; omega, by simp only; omega, ?_, ?_, ?_⟩
        · simp only [c2]; exact u4
        · intro e; simp only at e; exact u5 (by omega)
        · intro e; have := u6 e; simp only; omega
  · intro e he
    have := hi.ent e he
    have := (cnts_set n hmv e.keyAt).waker
    rw [hw] at this; simp only; omega

/-- The mover of an item past the replacement: the item is not in the index. -/
theorem Inv.notIdx (hi : Inv s) {i a : Nat} {m : Mover} (hmv : s.movers[i]? = some m) (ho : m.owns a = true) (hf : m.first a = false) :
    s.index ≠ some a := by
  intro e
  have g := cnt_ge hmv (Mover.owns a) ho
  have hx := hi.addr a
  cases hm : s.mem a with
  | none => exact (hx.free hm).2.2.2 e
  | some o =>
    obtain ⟨u1, u2, u3, u4, u5, u6⟩ := hx.used o hm
    have h6 := u6 e
    -- the only owner is this one, and it is not `first`
    have hle := first_le_marks s.movers a
    have hset := countP_set' (Mover.owns a) (b := .woke (a + 1)) hmv
    have hset2 := countP_set' (Mover.first a) (b := .woke (a + 1)) hmv
    have hmono := Nat.le_trans (first_le_marks (s.movers.set i (.woke (a + 1))) a)
      (Nat.le_trans (marks_le_waker _ a) (waker_le_owns _ a))
    have w1 : Mover.owns a (.woke (a + 1)) = false := by simp [Mover.owns]
    have w2 : Mover.first a (.woke (a + 1)) = false := rfl
    simp only [ho, hf, w1, w2] at hset hset2
    simp at hset hset2
    omega

theorem Inv.mvUnmark (hi : Inv s) {i : Nat} (h : s.exec c (.mvUnmark i) = some s') : Inv s' := by
  simp only [State.exec] at h
  split at h
  case h_2 => cases h
  case h_1 a b hmv =>
    cases hm : s.mem a with
    | none => simp [hm] at h
    | some o =>
      simp only [hm, Option.some.injEq] at h; subst h
      exact hi.unmark hmv hm (hi.notIdx hmv (by simp [Mover.owns]) rfl) (fun _ => rfl) (fun _ => rfl) (fun _ => rfl) (fun _ => rfl)
        (fun _ => rfl) (fun _ => rfl) (by simp [Mover.owns]) (fun _ _ => rfl) rfl

theorem Inv.mvEvict (hi : Inv s) {i : Nat} (h : s.exec c (.mvEvict i) = some s') : Inv s' := by
  simp only [State.exec] at h
  split at h
  case h_2 => cases h
  case h_1 a hmv =>
    cases hm : s.mem a with
    | none => simp [hm] at h
    | some o =>
      simp only [hm, Option.some.injEq] at h
      split at h
      · next hx =>
        subst h
        exact hi.unlinked.unmark (s := { s with index := none }) hmv hm (by simp) (fun _ => rfl) (fun _ => rfl)
          (fun _ => rfl) (fun _ => rfl) (fun _ => rfl) (fun _ => rfl) (by simp [Mover.owns])
          (fun x hx => by simp [Mover.first]; exact fun e => hx e.symm) rfl
      · next hx =>
        subst h
        exact hi.unmark hmv hm hx (fun _ => rfl) (fun _ => rfl)
          (fun _ => rfl) (fun _ => rfl) (fun _ => rfl) (fun _ => rfl) (by simp [Mover.owns])
          (fun x hx => by simp [Mover.first]; exact fun e => hx e.symm) rfl

theorem Inv.mvFree (hi : Inv s) {i : Nat} (h : s.exec c (.mvFree i) = some s') : Inv s' := by
  simp only [State.exec] at h
  split at h
  case h_2 => cases h
  case h_1 a hmv =>
    simp only [Option.some.injEq] at h; subst h
    have hnx := hi.notIdx (a := a) hmv (by simp [Mover.owns]) rfl
    have g := cnt_ge hmv (Mover.owns a) (by simp [Mover.owns])
    refine ⟨fun x => ?_, fun m hm => hi.noch m (List.mem_of_mem_eraseIdx hm), hi.len, ?_⟩
    · have hx' := hi.addr x
      have c1 := countP_erase (Mover.owns x) hmv
      have c2 := countP_erase (Mover.marks x) hmv
      have c3 := countP_erase (Mover.first x) hmv
      have c4 := countP_erase (Mover.holds x) hmv
      by_cases h : x = a
      · subst h
        refine ⟨fun _ => ?_, by simp⟩
        cases hm : s.mem x with
        | none => have := (hx'.free hm).1; omega
        | some o =>
          obtain ⟨u1, u2, u3, u4, u5, u6⟩ := hx'.used o hm
          simp [Mover.owns, Mover.holds] at c1 c4
          have := u5 (by omega)
          exact ⟨by simp only; omega, by simp only; omega, by simp only; omega, hnx⟩
      · have h' : ¬ a = x := fun e => h e.symm
        simp [Mover.owns, Mover.marks, Mover.first, Mover.holds, h'] at c1 c2 c3 c4
        refine ⟨?_, ?_⟩
        · intro hm'
          simp only [upd_ne _ _ h] at hm'
          have := hx'.free hm'
          simpa only [c1, c4] using this
        · intro it hit
          simp only [upd_ne _ _ h] at hit
          have := hx'.used it hit
          simpa only [c1, c2, c3, c4] using this
    · intro e he
      have := hi.ent e he
      have c1 := countP_erase (Mover.waker e.keyAt) hmv
      simp [Mover.waker] at c1
      simp only; omega

theorem Inv.nvmFind (hi : Inv s) (h : s.exec c .nvmFind = some s') : Inv s' := by
  simp only [State.exec] at h
  split at h
  · split at h <;>
    · simp only [Option.some.injEq] at h; subst h
      exact ⟨fun x => ⟨(hi.addr x).free, (hi.addr x).used⟩, hi.noch, hi.len, hi.ent⟩
  · cases h

end Verif.Async
