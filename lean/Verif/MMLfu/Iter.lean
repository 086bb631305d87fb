import Verif.MMLfu.Step
/-! Proofs for C54: the eviction iterator. -/
namespace Verif.MMLfu.Tiny
open Verif MultiDList

variable {N : Type} [DecidableEq N] {e : Env} {s : State N} {u : U N}

omit [DecidableEq N] in
theorem merge_cons (b : N → N → Bool) (t x : N) (ts xs : List N) :
    merge b (t :: ts) (x :: xs) = if b t x then x :: merge b (t :: ts) xs else t :: merge b ts (x :: xs) := by
  simp only [merge]
  cases h : b t x with
  | true => simp [List.takeWhile_cons, List.dropWhile_cons, h]
  | false => simp [List.takeWhile_cons, List.dropWhile_cons, h]

omit [DecidableEq N] in
theorem merge_nil (b : N → N → Bool) (ts : List N) : merge b ts [] = ts := by
  induction ts with
  | nil => rfl
  | cons t ts ih => simp [merge, ih]

omit [DecidableEq N] in
theorem merge_perm (b : N → N → Bool) (ts : List N) : ∀ ms, (merge b ts ms).Perm (ts ++ ms) := by
  induction ts with
  | nil => intro ms; exact List.Perm.refl _
  | cons t ts ih =>
    intro ms
    simp only [merge]
    refine List.perm_middle.trans ?_
    simp only [List.cons_append]
    refine List.Perm.cons _ ?_
    have h1 := (ih (ms.dropWhile (b t)))
    refine (List.Perm.append_left _ h1).trans ?_
    have h2 : (ms.takeWhile (b t) ++ (ts ++ ms.dropWhile (b t))).Perm (ts ++ (ms.takeWhile (b t) ++ ms.dropWhile (b t))) := by
      rw [← List.append_assoc, ← List.append_assoc]
      exact List.Perm.append_right _ List.perm_append_comm
    rwa [List.takeWhile_append_dropWhile] at h2

omit [DecidableEq N] in
theorem merge_main (b : N → N → Bool) (ts : List N) : ∀ ms : List N, ms.Sublist (merge b ts ms) := by
  induction ts with
  | nil => intro ms; exact List.Sublist.refl _
  | cons t ts ih =>
    intro ms
    simp only [merge]
    have := List.Sublist.append (List.Sublist.refl (ms.takeWhile (b t))) ((ih (ms.dropWhile (b t))).cons t)
    rwa [List.takeWhile_append_dropWhile] at this

omit [DecidableEq N] in
theorem merge_tiny (b : N → N → Bool) (ts : List N) : ∀ ms : List N, ts.Sublist (merge b ts ms) := by
  induction ts with
  | nil => intro ms; exact List.nil_sublist _
  | cons t ts ih =>
    intro ms
    simp only [merge]
    exact ((ih _).cons_cons t).trans (List.sublist_append_right _ _)

/-- where an iterator is: what is left of both lists. -/
structure At (s : State N) (it : It N) (a b : List N) : Prop where
  t : it.t = a.getLast?
  m : it.m = b.getLast?

theorem at_get {a b : List N} {it : It N} (h : At s it a b) :
    it.get s = (merge s.admit a.reverse b.reverse).head? := by
  unfold It.get It.evictTiny
  rw [h.t, h.m]
  by_cases hb : b = []
  · subst hb; simp [merge_nil, List.head?_reverse]
  · obtain ⟨b', x, rfl⟩ := split_last b hb
    simp only [List.getLast?_concat, List.reverse_append, List.reverse_cons, List.reverse_nil, List.nil_append,
      List.cons_append]
    by_cases ha : a = []
    · subst ha; simp [merge]
    · obtain ⟨a', t, rfl⟩ := split_last a ha
      simp only [List.getLast?_concat, List.reverse_append, List.reverse_cons, List.reverse_nil, List.nil_append,
        List.cons_append]
      rw [merge_cons]
      cases hadm : s.admit t x <;> simp

/-- one step of the iterator: what is left afterwards. -/
theorem at_next {m : MState N} {seg : N → Nat} {seq : Nat → List N} (hs : Seg 2 m seg seq) (hm : s.m = m) {a b ra rb : List N}
    {it : It N} (h : At s it a b) (h1 : seq 1 = a ++ ra) (h0 : seq 0 = b ++ rb) {x : N} {l : List N}
    (hx : merge s.admit a.reverse b.reverse = x :: l) :
    ∃ a' b', At s (it.next s) a' b' ∧ merge s.admit a'.reverse b'.reverse = l ∧
      ((a = a' ++ [x] ∧ b = b') ∨ (a = a' ∧ b = b' ++ [x])) := by
  subst hm
  unfold It.next It.evictTiny
  rw [h.t, h.m]
  by_cases hb : b = []
  · subst hb
    simp only [List.reverse_nil, merge_nil, List.getLast?_nil] at hx ⊢
    obtain ⟨a', t, rfl⟩ := split_last a (by rintro rfl; simp at hx)
    simp only [List.reverse_append, List.reverse_cons, List.reverse_nil, List.nil_append, List.cons_append,
      List.cons.injEq] at hx
    obtain ⟨rfl, rfl⟩ := hx
    refine ⟨a', [], ⟨?_, by simp⟩, by simp [merge_nil], Or.inl ⟨rfl, rfl⟩⟩
    simp only [if_true, List.getLast?_concat]
    exact step_back hs 1 (a := a') (b := ra) (by rw [h1]; simp)
  · obtain ⟨b', y, rfl⟩ := split_last b hb
    simp only [List.getLast?_concat, List.reverse_append, List.reverse_cons, List.reverse_nil, List.nil_append,
      List.cons_append] at hx ⊢
    by_cases ha : a = []
    · subst ha
      simp only [List.reverse_nil, merge, List.cons.injEq] at hx
      obtain ⟨rfl, rfl⟩ := hx
      refine ⟨[], b', ⟨by simp, ?_⟩, by simp [merge], Or.inr ⟨rfl, rfl⟩⟩
      simp only [List.getLast?_nil, Bool.false_eq_true, if_false]
      exact step_back hs 0 (a := b') (b := rb) (by rw [h0]; simp)
    · obtain ⟨a', t, rfl⟩ := split_last a ha
      simp only [List.getLast?_concat, List.reverse_append, List.reverse_cons, List.reverse_nil, List.nil_append,
        List.cons_append] at hx ⊢
      rw [merge_cons] at hx
      cases hadm : s.admit t y with
      | true =>
        rw [hadm] at hx
        simp only [if_true, List.cons.injEq] at hx
        obtain ⟨rfl, rfl⟩ := hx
        refine ⟨a' ++ [t], b', ⟨by simp, ?_⟩, by simp, Or.inr ⟨rfl, rfl⟩⟩
        simp only [Bool.not_true, Bool.false_eq_true, if_false]
        exact step_back hs 0 (a := b') (b := rb) (by rw [h0]; simp)
      | false =>
        rw [hadm] at hx
        simp only [Bool.false_eq_true, if_false, List.cons.injEq] at hx
        obtain ⟨rfl, rfl⟩ := hx
        refine ⟨a', b' ++ [y], ⟨?_, by simp⟩, by simp, Or.inl ⟨rfl, rfl⟩⟩
        simp only [Bool.not_false, if_true]
        exact step_back hs 1 (a := a') (b := ra) (by rw [h1]; simp)

theorem at_valid {a b : List N} {it : It N} (h : At s it a b) :
    it.valid = !(merge s.admit a.reverse b.reverse).isEmpty := by
  have hp := (merge_perm s.admit a.reverse b.reverse).length_eq
  unfold It.valid
  rw [h.t, h.m]
  cases hm : merge s.admit a.reverse b.reverse with
  | nil =>
    rw [hm] at hp
    simp only [List.length_nil, List.length_append, List.length_reverse] at hp
    have h1 : a = [] := List.eq_nil_of_length_eq_zero (by omega)
    have h2 : b = [] := List.eq_nil_of_length_eq_zero (by omega)
    simp [h1, h2]
  | cons x l =>
    rw [hm] at hp
    simp only [List.length_cons, List.length_append, List.length_reverse] at hp
    by_cases ha : a = []
    · subst ha
      have : b ≠ [] := by rintro rfl; simp at hp
      obtain ⟨c, y, rfl⟩ := split_last b this
      simp
    · obtain ⟨c, y, rfl⟩ := split_last a ha
      simp

theorem begin_at (h : Link e s u) : At s (begin s) u.tiny u.main := ⟨h.seg.last 1, h.seg.last 0⟩

theorem visit_spec {seg : N → Nat} {seq : Nat → List N} (hs : Seg 2 s.m seg seq) (k : Nat) :
    ∀ {a b ra rb : List N} {it : It N}, At s it a b → seq 1 = a ++ ra → seq 0 = b ++ rb → a.length + b.length ≤ k →
      visit s k it = merge s.admit a.reverse b.reverse := by
  induction k with
  | zero =>
    intro a b ra rb it _ _ _ hk
    have h1 : a = [] := List.eq_nil_of_length_eq_zero (by omega)
    have h2 : b = [] := List.eq_nil_of_length_eq_zero (by omega)
    subst h1; subst h2; rfl
  | succ k ih =>
    intro a b ra rb it h h1 h0 hk
    simp only [visit]
    rw [at_valid h, at_get h]
    cases hm : merge s.admit a.reverse b.reverse with
    | nil => rfl
    | cons x l =>
      obtain ⟨a', b', g1, g2, g3⟩ := at_next hs rfl h h1 h0 hm
      have : visit s k (it.next s) = merge s.admit a'.reverse b'.reverse := by
        rcases g3 with ⟨rfl, rfl⟩ | ⟨rfl, rfl⟩
        · refine ih g1 (ra := [x] ++ ra) (rb := rb) (by rw [h1]; simp) h0 ?_
          simp only [List.length_append, List.length_singleton] at hk; omega
        · refine ih g1 (ra := ra) (rb := [x] ++ rb) h1 (by rw [h0]; simp) ?_
          simp only [List.length_append, List.length_singleton] at hk; omega
      simp only [List.isEmpty_cons, Bool.not_false, if_true, List.head?_cons, List.singleton_append]
      rw [this, g2]

/-- one round of an eviction: the node the iterator is at is removed, or the iterator goes on. -/
def sweep (s : State N) (it : It N) : List Bool → Option (State N × List N)
  | [] => some (s, [])
  | true :: ds => (it.get s).bind fun x => (removeIt s it).bind fun r =>
      (sweep r.1 r.2 ds).map fun q => (q.1, x :: q.2)
  | false :: ds => (it.get s).bind fun x => (sweep s (it.next s) ds).map fun q => (q.1, x :: q.2)

/-- the specification: those of the nodes seen that were taken. -/
def U.taken (u : U N) : List (N × Bool) → U N
  | [] => u
  | (x, true) :: l => (u.without x).taken l
  | (_, false) :: l => u.taken l

theorem beats_admit (h : Link e s u) : s.admit = u.beats e := by funext t x; exact h.admit t x

theorem sweep_spec (ds : List Bool) : ∀ {s : State N} {u : U N} {it : It N} {a b ra rb : List N}, Link e s u → At s it a b →
    u.tiny = a ++ ra → u.main = b ++ rb → ds.length ≤ (merge (u.beats e) a.reverse b.reverse).length →
    ∃ s', sweep s it ds = some (s', (merge (u.beats e) a.reverse b.reverse).take ds.length) ∧
      Link e s' (u.taken (((merge (u.beats e) a.reverse b.reverse).take ds.length).zip ds)) := by
  induction ds with
  | nil => intro s u it a b ra rb h _ _ _ _; exact ⟨s, by simp [sweep], by simpa [U.taken] using h⟩
  | cons d ds ih =>
    intro s u it a b ra rb h hat h1 h0 hlen
    have hb := beats_admit h
    have hg := at_get hat
    rw [hb] at hg
    cases hm : merge (u.beats e) a.reverse b.reverse with
    | nil => rw [hm] at hlen; simp at hlen
    | cons x l =>
      rw [hm] at hlen hg
      simp only [List.head?_cons] at hg
      obtain ⟨a', b', g1, g2, g3⟩ := at_next h.seg rfl hat (ra := ra) (rb := rb) h1 h0 (by rw [hb]; exact hm)
      simp only [List.length_cons, Nat.add_le_add_iff_right] at hlen
      cases d with
      | false =>
        simp only [sweep, hg, Option.bind_some, List.length_cons, List.take_succ_cons, List.zip_cons_cons, U.taken]
        rw [hb] at g2
        have := ih (ra := if b = b' then [x] ++ ra else ra) (rb := if b = b' then rb else [x] ++ rb) h g1 (by
            rcases g3 with ⟨rfl, rfl⟩ | ⟨rfl, rfl⟩
            · rw [if_pos rfl, h1]; simp
            · rw [if_neg (by simp), h1]) (by
            rcases g3 with ⟨rfl, rfl⟩ | ⟨rfl, rfl⟩
            · rw [if_pos rfl, h0]
            · rw [if_neg (by simp), h0]; simp) (by rw [g2]; exact hlen)
        obtain ⟨s', k1, k2⟩ := this
        rw [g2] at k1 k2
        exact ⟨s', by rw [k1]; rfl, k2⟩
      | true =>
        have hxi : x ∈ u.items := by
          have : x ∈ merge (u.beats e) a.reverse b.reverse := by rw [hm]; simp
          rw [(merge_perm _ _ _).mem_iff] at this
          simp only [List.mem_append, List.mem_reverse] at this
          simp only [U.items, h1, h0, List.mem_append]
          rcases this with h | h
          · exact Or.inl (Or.inl h)
          · exact Or.inr (Or.inl h)
        have hl2 := evict_link h hxi
        have hnd := h.nodup
        simp only [sweep, removeIt, hg, Option.bind_some, List.length_cons, List.take_succ_cons, List.zip_cons_cons, U.taken]
        rw [hb] at g2
        have hbe : (u.without x).beats e = u.beats e := rfl
        -- what is left has no x
        simp only [U.items, h1, h0] at hnd
        have hat2 : At (removeLocked s x) (it.next s) a' b' := ⟨g1.t, g1.m⟩
        have := ih (ra := (if b = b' then [x] ++ ra else ra).filter (· ≠ x))
          (rb := (if b = b' then rb else [x] ++ rb).filter (· ≠ x)) hl2 hat2 (by
            simp only [U.without, h1]
            rcases g3 with ⟨rfl, rfl⟩ | ⟨rfl, rfl⟩
            · rw [if_pos rfl]
              have hxa : x ∉ a' := by
                intro hx
                simp only [List.append_assoc] at hnd
                have := (List.nodup_append.1 hnd).2.2 x hx x (by simp)
                exact this rfl
              simp only [List.filter_append]
              rw [filter_not_mem hxa]; simp
            · rw [if_neg (by simp)]
              have hxa : x ∉ a := by
                intro hx
                have := (List.nodup_append.1 hnd).2.2 x (by simp [hx]) x (by simp)
                exact this rfl
              simp only [List.filter_append]
              rw [filter_not_mem hxa]) (by
            simp only [U.without, h0]
            rcases g3 with ⟨rfl, rfl⟩ | ⟨rfl, rfl⟩
            · rw [if_pos rfl]
              have hxa : x ∉ b := by
                intro hx
                have := (List.nodup_append.1 hnd).2.2 x (by simp) x (by simp [hx])
                exact this rfl
              simp only [List.filter_append]
              rw [filter_not_mem hxa]
            · rw [if_neg (by simp)]
              have hxa : x ∉ b' := by
                intro hx
                have h2 := (List.nodup_append.1 hnd).2.1
                simp only [List.append_assoc] at h2
                have := (List.nodup_append.1 h2).2.2 x hx x (by simp)
                exact this rfl
              simp only [List.filter_append]
              rw [filter_not_mem hxa]; simp) (by rw [hbe, g2]; exact hlen)
        obtain ⟨s', k1, k2⟩ := this
        rw [hbe, g2] at k1 k2
        exact ⟨s', by rw [k1]; rfl, k2⟩

end Verif.MMLfu.Tiny
