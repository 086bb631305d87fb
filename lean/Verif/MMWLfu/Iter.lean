import Verif.MMWLfu.Step
/-! Proofs for C55: the eviction iterator. -/
namespace Verif.MMLfu.W
open Verif MultiDList

variable {N : Type} [DecidableEq N] {e : Env} {s : State N} {u : U N}

omit [DecidableEq N] in
theorem merge_cons (b : N → N → Bool) (t x : N) (ts xs : List N) :
    merge b (t :: ts) (x :: xs) = if b t x then x :: merge b (t :: ts) xs else t :: merge b ts (x :: xs) := by
  simp only [merge]
  cases h : b t x with
  | true => simp [List.takeWhile_cons, List.dropWhile_cons, h]
  | false => simp [List.takeWhile_cons, List.dropWhile_cons, h]

omit [DecidableEq N] in
theorem merge_nil (b : N → N → Bool) (ts : List N) : merge b ts [] = ts := by
  induction ts with
  | nil => rfl
  | cons t ts ih => simp [merge, ih]

omit [DecidableEq N] in
theorem merge_perm (b : N → N → Bool) (ts : List N) : ∀ ms, (merge b ts ms).Perm (ts ++ ms) := by
  induction ts with
  | nil => intro ms; exact List.Perm.refl _
  | cons t ts ih =>
    intro ms
    simp only [merge]
    refine List.perm_middle.trans ?_
    simp only [List.cons_append]
    refine List.Perm.cons _ ?_
    have h1 := (ih (ms.dropWhile (b t)))
    refine (List.Perm.append_left _ h1).trans ?_
    have h2 : (ms.takeWhile (b t) ++ (ts ++ ms.dropWhile (b t))).Perm (ts ++ (ms.takeWhile (b t) ++ ms.dropWhile (b t))) := by
      rw [← List.append_assoc, ← List.append_assoc]
      exact List.Perm.append_right _ List.perm_append_comm
    rwa [List.takeWhile_append_dropWhile] at h2

omit [DecidableEq N] in
theorem merge_main (b : N → N → Bool) (ts : List N) : ∀ ms : List N, ms.Sublist (merge b ts ms) := by
  induction ts with
  | nil => intro ms; exact List.Sublist.refl _
  | cons t ts ih =>
    intro ms
    simp only [merge]
    have := List.Sublist.append (List.Sublist.refl (ms.takeWhile (b t))) ((ih (ms.dropWhile (b t))).cons t)
    rwa [List.takeWhile_append_dropWhile] at this

omit [DecidableEq N] in
theorem merge_tiny (b : N → N → Bool) (ts : List N) : ∀ ms : List N, ts.Sublist (merge b ts ms) := by
  induction ts with
  | nil => intro ms; exact List.nil_sublist _
  | cons t ts ih =>
    intro ms
    simp only [merge]
    exact ((ih _).cons_cons t).trans (List.sublist_append_right _ _)

/-- where an iterator is: what is left of the three lists. -/
structure At (it : It N) (a b c : List N) : Prop where
  t : it.t = a.getLast?
  p : it.p = b.getLast?
  m : it.m = c.getLast?

/-- the order of what is left. -/
def left (r : N → N → Bool) (a b c : List N) : List N := merge r a.reverse b.reverse ++ c.reverse

omit [DecidableEq N] in
theorem left_perm (r : N → N → Bool) (a b c : List N) : (left r a b c).Perm (a ++ b ++ c) :=
  List.Perm.append ((merge_perm _ _ _).trans (List.Perm.append (List.reverse_perm _) (List.reverse_perm _))) (List.reverse_perm _)

/-- What the iterator is at, and what is left afterwards. -/
theorem at_next {m : MState N} {seg : N → Nat} {seq : Nat → List N} (hs : Seg 3 m seg seq) (hm : s.m = m) {a b c ra rb rc : List N}
    {it : It N} (h : At it a b c) (h2 : seq 2 = a ++ ra) (h1 : seq 1 = b ++ rb) (h0 : seq 0 = c ++ rc) {x : N} {l : List N}
    (hx : left s.admit a b c = x :: l) :
    it.get s = some x ∧ ∃ a' b' c', At (it.next s) a' b' c' ∧ left s.admit a' b' c' = l ∧
      ((a = a' ++ [x] ∧ b = b' ∧ c = c') ∨ (a = a' ∧ b = b' ++ [x] ∧ c = c') ∨ (a = a' ∧ b = b' ∧ c = c' ++ [x])) := by
  subst hm
  obtain ⟨it1, it2, it3⟩ := it
  obtain ⟨ht, hp, hm⟩ := h
  simp only at ht hp hm
  subst ht; subst hp; subst hm
  unfold left at hx
  by_cases hb : b = []
  · subst hb
    by_cases ha : a = []
    · subst ha
      by_cases hc : c = []
      · subst hc; simp [merge] at hx
      · obtain ⟨c', y, rfl⟩ := split_last c hc
        simp only [List.reverse_nil, merge, List.nil_append, List.reverse_append, List.reverse_cons, List.cons_append,
          List.cons.injEq] at hx
        obtain ⟨rfl, rfl⟩ := hx
        have hw : It.which s ⟨([] : List N).getLast?, ([] : List N).getLast?, (c' ++ [y]).getLast?⟩ = 0 := by
          simp [It.which]
        unfold It.get It.next
        rw [hw]
        refine ⟨by simp, [], [], c', ⟨rfl, rfl, ?_⟩, by simp [left, merge], Or.inr (Or.inr ⟨rfl, rfl, rfl⟩)⟩
        simp only [List.getLast?_concat]
        exact step_back hs 0 (a := c') (b := rc) (by rw [h0]; simp)
    · obtain ⟨a', y, rfl⟩ := split_last a ha
      simp only [List.reverse_nil, merge_nil, List.nil_append, List.reverse_append, List.reverse_cons, List.cons_append,
          List.cons.injEq] at hx
      obtain ⟨rfl, rfl⟩ := hx
      have hw : It.which s ⟨(a' ++ [y]).getLast?, ([] : List N).getLast?, c.getLast?⟩ = 2 := by
        unfold It.which
        by_cases hc : c.getLast? = none
        · rw [if_pos ⟨rfl, hc⟩]
        · rw [if_neg (by simp only [hc, and_false]; exact id), if_neg (by simp), if_neg (by simp)]; rfl
      unfold It.get It.next
      rw [hw]
      refine ⟨by simp, a', [], c, ⟨?_, rfl, rfl⟩, by simp [left, merge_nil], Or.inl ⟨rfl, rfl, rfl⟩⟩
      simp only [List.getLast?_concat]
      exact step_back hs 2 (a := a') (b := ra) (by rw [h2]; simp)
  · obtain ⟨b', y, rfl⟩ := split_last b hb
    have hbr : (b' ++ [y]).reverse = y :: b'.reverse := by simp
    by_cases ha : a = []
    · subst ha
      rw [hbr] at hx
      simp only [List.reverse_nil, merge, List.cons_append, List.cons.injEq] at hx
      obtain ⟨rfl, rfl⟩ := hx
      have hw : It.which s ⟨([] : List N).getLast?, (b' ++ [y]).getLast?, c.getLast?⟩ = 1 := by
        unfold It.which
        rw [if_neg (by simp), if_neg (by simp)]
        by_cases hc : c.getLast? = none
        · rw [if_pos ⟨rfl, hc⟩]
        · rw [if_neg (by simp only [hc, and_false]; exact id), List.getLast?_concat]; rfl
      unfold It.get It.next
      rw [hw]
      refine ⟨by simp, [], b', c, ⟨rfl, ?_, rfl⟩, by simp [left, merge], Or.inr (Or.inl ⟨rfl, rfl, rfl⟩)⟩
      simp only [List.getLast?_concat]
      exact step_back hs 1 (a := b') (b := rb) (by rw [h1]; simp)
    · obtain ⟨a', t, rfl⟩ := split_last a ha
      have har : (a' ++ [t]).reverse = t :: a'.reverse := by simp
      rw [hbr, har, merge_cons] at hx
      have hw : It.which s ⟨(a' ++ [t]).getLast?, (b' ++ [y]).getLast?, c.getLast?⟩ = if !s.admit t y then 2 else 1 := by
        unfold It.which
        rw [if_neg (by simp), if_neg (by simp), if_neg (by simp)]
        simp only [List.getLast?_concat]
      unfold It.get It.next
      rw [hw]
      cases hadm : s.admit t y with
      | true =>
        rw [hadm] at hx
        simp only [if_true, List.cons_append, List.cons.injEq] at hx
        obtain ⟨rfl, rfl⟩ := hx
        refine ⟨by simp, a' ++ [t], b', c, ⟨rfl, ?_, rfl⟩, by simp [left], Or.inr (Or.inl ⟨rfl, rfl, rfl⟩)⟩
        simp only [List.getLast?_concat]
        exact step_back hs 1 (a := b') (b := rb) (by rw [h1]; simp)
      | false =>
        rw [hadm] at hx
        simp only [Bool.false_eq_true, if_false, List.cons_append, List.cons.injEq] at hx
        obtain ⟨rfl, rfl⟩ := hx
        refine ⟨by simp, a', b' ++ [y], c, ⟨?_, rfl, rfl⟩, by simp [left], Or.inl ⟨rfl, rfl, rfl⟩⟩
        simp only [List.getLast?_concat]
        exact step_back hs 2 (a := a') (b := ra) (by rw [h2]; simp)

omit [DecidableEq N] in
theorem getLast_isSome (l : List N) : l.getLast?.isSome = !l.isEmpty := by
  cases l with
  | nil => rfl
  | cons x l => simp [List.getLast?_cons]

theorem at_valid {a b c : List N} {it : It N} (r : N → N → Bool) (h : At it a b c) :
    it.valid = !(left r a b c).isEmpty := by
  have hp := (left_perm r a b c).length_eq
  unfold It.valid
  rw [h.t, h.p, h.m, getLast_isSome, getLast_isSome, getLast_isSome]
  cases hl : left r a b c with
  | nil =>
    rw [hl] at hp
    simp only [List.length_nil, List.length_append] at hp
    have h1 : a = [] := List.eq_nil_of_length_eq_zero (by omega)
    have h2 : b = [] := List.eq_nil_of_length_eq_zero (by omega)
    have h3 : c = [] := List.eq_nil_of_length_eq_zero (by omega)
    simp [h1, h2, h3]
  | cons x l =>
    rw [hl] at hp
    cases a <;> cases b <;> cases c <;> simp_all

theorem begin_at (h : Link e s u) : At (begin s) u.tiny u.prob u.main := ⟨h.seg.last 2, h.seg.last 1, h.seg.last 0⟩

theorem visit_spec {seg : N → Nat} {seq : Nat → List N} (hs : Seg 3 s.m seg seq) (k : Nat) :
    ∀ {a b c : List N} {it : It N}, At it a b c → a <+: seq 2 → b <+: seq 1 → c <+: seq 0 →
      (a ++ b ++ c).length ≤ k → visit s k it = left s.admit a b c := by
  induction k with
  | zero =>
    intro a b c it _ _ _ _ hk
    simp only [List.length_append] at hk
    have h1 : a = [] := List.eq_nil_of_length_eq_zero (by omega)
    have h2 : b = [] := List.eq_nil_of_length_eq_zero (by omega)
    have h3 : c = [] := List.eq_nil_of_length_eq_zero (by omega)
    subst h1; subst h2; subst h3; rfl
  | succ k ih =>
    intro a b c it h h2 h1 h0 hk
    simp only [visit]
    rw [at_valid s.admit h]
    cases hm : left s.admit a b c with
    | nil => rfl
    | cons x l =>
      obtain ⟨ra, hra⟩ := h2
      obtain ⟨rb, hrb⟩ := h1
      obtain ⟨rc, hrc⟩ := h0
      obtain ⟨g0, a', b', c', g1, g2, g3⟩ := at_next hs rfl h hra.symm hrb.symm hrc.symm hm
      have : visit s k (it.next s) = left s.admit a' b' c' := by
        refine ih g1 ?_ ?_ ?_ ?_
        · rw [← hra]
          rcases g3 with ⟨rfl, rfl, rfl⟩ | ⟨rfl, rfl, rfl⟩ | ⟨rfl, rfl, rfl⟩
          · exact ⟨[x] ++ ra, by simp⟩
          · exact ⟨ra, rfl⟩
          · exact ⟨ra, rfl⟩
        · rw [← hrb]
          rcases g3 with ⟨rfl, rfl, rfl⟩ | ⟨rfl, rfl, rfl⟩ | ⟨rfl, rfl, rfl⟩
          · exact ⟨rb, rfl⟩
          · exact ⟨[x] ++ rb, by simp⟩
          · exact ⟨rb, rfl⟩
        · rw [← hrc]
          rcases g3 with ⟨rfl, rfl, rfl⟩ | ⟨rfl, rfl, rfl⟩ | ⟨rfl, rfl, rfl⟩
          · exact ⟨rc, rfl⟩
          · exact ⟨rc, rfl⟩
          · exact ⟨[x] ++ rc, by simp⟩
        · rcases g3 with ⟨rfl, rfl, rfl⟩ | ⟨rfl, rfl, rfl⟩ | ⟨rfl, rfl, rfl⟩ <;>
            simp only [List.length_append, List.length_singleton] at hk ⊢ <;> omega
      simp only [List.isEmpty_cons, Bool.not_false, if_true, g0, List.singleton_append]
      rw [this, g2]

/-- one round of an eviction: the node the iterator is at is removed, or the iterator goes on. -/
def sweep (s : State N) (it : It N) : List Bool → Option (State N × List N)
  | [] => some (s, [])
  | true :: ds => (it.get s).bind fun x => (removeIt s it).bind fun r =>
      (sweep r.1 r.2 ds).map fun q => (q.1, x :: q.2)
  | false :: ds => (it.get s).bind fun x => (sweep s (it.next s) ds).map fun q => (q.1, x :: q.2)

/-- the specification: those of the nodes seen that were taken. -/
def U.taken (u : U N) : List (N × Bool) → U N
  | [] => u
  | (x, true) :: l => (u.without x).taken l
  | (_, false) :: l => u.taken l

theorem beats_admit (h : Link e s u) : s.admit = u.beats e := by funext t x; exact h.admit t x

theorem prefix_filter {a l : List N} {x : N} (h : a <+: l) (hx : x ∉ a) : a <+: l.filter (fun y => y ≠ x) := by
  obtain ⟨r, rfl⟩ := h
  exact ⟨r.filter (fun y => y ≠ x), by rw [List.filter_append, filter_not_mem hx]⟩

theorem sweep_spec (ds : List Bool) : ∀ {s : State N} {u : U N} {it : It N} {a b c : List N}, Link e s u → At it a b c →
    a <+: u.tiny → b <+: u.prob → c <+: u.main → ds.length ≤ (left (u.beats e) a b c).length →
    ∃ s', sweep s it ds = some (s', (left (u.beats e) a b c).take ds.length) ∧
      Link e s' (u.taken (((left (u.beats e) a b c).take ds.length).zip ds)) := by
  induction ds with
  | nil => intro s u it a b c h _ _ _ _ _; exact ⟨s, by simp [sweep], by simpa [U.taken] using h⟩
  | cons d ds ih =>
    intro s u it a b c h hat h2 h1 h0 hlen
    have hb := beats_admit h
    cases hm : left (u.beats e) a b c with
    | nil => rw [hm] at hlen; simp at hlen
    | cons x l =>
      rw [hm] at hlen
      obtain ⟨ra, hra⟩ := h2
      obtain ⟨rb, hrb⟩ := h1
      obtain ⟨rc, hrc⟩ := h0
      obtain ⟨g0, a', b', c', g1, g2, g3⟩ := at_next h.seg rfl hat (ra := ra) (rb := rb) (rc := rc) hra.symm hrb.symm hrc.symm
        (by rw [hb]; exact hm)
      rw [hb] at g2
      simp only [List.length_cons, Nat.add_le_add_iff_right] at hlen
      have pa : a' <+: u.tiny := by
        rw [← hra]
        rcases g3 with ⟨rfl, rfl, rfl⟩ | ⟨rfl, rfl, rfl⟩ | ⟨rfl, rfl, rfl⟩
        · exact ⟨[x] ++ ra, by simp⟩
        · exact ⟨ra, rfl⟩
        · exact ⟨ra, rfl⟩
      have pb : b' <+: u.prob := by
        rw [← hrb]
        rcases g3 with ⟨rfl, rfl, rfl⟩ | ⟨rfl, rfl, rfl⟩ | ⟨rfl, rfl, rfl⟩
        · exact ⟨rb, rfl⟩
        · exact ⟨[x] ++ rb, by simp⟩
        · exact ⟨rb, rfl⟩
      have pc : c' <+: u.main := by
        rw [← hrc]
        rcases g3 with ⟨rfl, rfl, rfl⟩ | ⟨rfl, rfl, rfl⟩ | ⟨rfl, rfl, rfl⟩
        · exact ⟨rc, rfl⟩
        · exact ⟨rc, rfl⟩
        · exact ⟨[x] ++ rc, by simp⟩
      cases d with
      | false =>
        simp only [sweep, g0, Option.bind_some, List.length_cons, List.take_succ_cons, List.zip_cons_cons, U.taken]
        obtain ⟨s', k1, k2⟩ := ih h g1 pa pb pc (by rw [g2]; exact hlen)
        rw [g2] at k1 k2
        exact ⟨s', by rw [k1]; rfl, k2⟩
      | true =>
        have hsub : (a ++ b ++ c).Sublist u.items :=
          List.Sublist.append (List.Sublist.append (List.IsPrefix.sublist ⟨ra, hra⟩) (List.IsPrefix.sublist ⟨rb, hrb⟩))
            (List.IsPrefix.sublist ⟨rc, hrc⟩)
        have hnd : (a ++ b ++ c).Nodup := h.nodup.sublist hsub
        have hxi : x ∈ u.items := by
          have : x ∈ left (u.beats e) a b c := by rw [hm]; simp
          rw [(left_perm _ _ _ _).mem_iff] at this
          exact hsub.subset this
        have hcnt := List.nodup_iff_count.1 hnd x
        have hno : x ∉ a' ∧ x ∉ b' ∧ x ∉ c' := by
          rcases g3 with ⟨rfl, rfl, rfl⟩ | ⟨rfl, rfl, rfl⟩ | ⟨rfl, rfl, rfl⟩ <;>
            simp only [List.count_append, List.count_singleton_self] at hcnt <;>
            refine ⟨List.count_eq_zero.1 (by omega), List.count_eq_zero.1 (by omega), List.count_eq_zero.1 (by omega)⟩
        have hl2 := evict_link h hxi
        simp only [sweep, removeIt, g0, Option.bind_some, List.length_cons, List.take_succ_cons, List.zip_cons_cons, U.taken]
        have hbe : (u.without x).beats e = u.beats e := rfl
        obtain ⟨s', k1, k2⟩ := ih (a := a') (b := b') (c := c') hl2 g1 (prefix_filter pa hno.1) (prefix_filter pb hno.2.1)
          (prefix_filter pc hno.2.2) (by rw [hbe, g2]; exact hlen)
        rw [hbe, g2] at k1 k2
        exact ⟨s', by rw [k1]; rfl, k2⟩

end Verif.MMLfu.W
