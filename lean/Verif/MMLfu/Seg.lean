import Verif.MultiDList.Lemmas
/-! Several lists with nodes that know the list they are in: lemmas shared by the TinyLFU and W-TinyLFU containers. -/
namespace Verif.MMLfu
open Verif MultiDList

variable {N : Type} [DecidableEq N]

/-- `seg x` is the list of `x`, for all nodes in the lists. -/
structure Seg (k : Nat) (m : MState N) (seg : N → Nat) (seq : Nat → List N) : Prop where
  rep : MRep m seq
  num : m.num = k
  none : ∀ q, k ≤ q → seq q = []
  seg : ∀ q x, x ∈ seq q → seg x = q

variable {k : Nat} {m : MState N} {seg seg' : N → Nat} {seq : Nat → List N}

theorem Seg.lt (h : Seg k m seg seq) {q : Nat} {x : N} (hx : x ∈ seq q) : q < k := by
  rcases Nat.lt_or_ge q k with h' | h'
  · exact h'
  · rw [h.none q h'] at hx; cases hx

theorem Seg.uniq (h : Seg k m seg seq) {p q : Nat} {x : N} (hp : x ∈ seq p) (hq : x ∈ seq q) : p = q :=
  (h.seg p x hp).symm.trans (h.seg q x hq)

theorem Seg.congr (h : Seg k m seg seq) (hs : ∀ q x, x ∈ seq q → seg' x = seg x) : Seg k m seg' seq :=
  ⟨h.rep, h.num, h.none, fun q x hx => (hs q x hx).trans (h.seg q x hx)⟩

theorem Seg.len (h : Seg k m seg seq) (q : Nat) : (m.lists q).size = (seq q).length := (h.rep.rep q).size
theorem Seg.last (h : Seg k m seg seq) (q : Nat) : (m.lists q).tail = (seq q).getLast? := (h.rep.rep q).tail
theorem Seg.nodup (h : Seg k m seg seq) (q : Nat) : (seq q).Nodup := (h.rep.rep q).nodup

theorem Seg.remove (h : Seg k m seg seq) {q : Nat} {x : N} (hx : x ∈ seq q) (hs : ∀ y, y ≠ x → seg' y = seg y) :
    Seg k (onList m q (.remove x)) seg' (upd seq q ((seq q).filter (· ≠ x))) := by
  refine ⟨onList_rep h.rep q (.remove x) hx (by simp [DList.Op.inserted]), h.num, ?_, ?_⟩
  · intro p hp
    rw [upd_ne _ _ (by have := h.lt hx; omega)]; exact h.none p hp
  · intro p y hy
    by_cases e : p = q
    · subst e
      rw [upd_same] at hy
      simp only [List.mem_filter, decide_eq_true_eq] at hy
      exact (hs y hy.2).trans (h.seg p y hy.1)
    · rw [upd_ne _ _ e] at hy
      exact (hs y (fun e' => e (h.uniq (e' ▸ hy) hx))).trans (h.seg p y hy)

theorem Seg.linkHead (h : Seg k m seg seq) {q : Nat} (hq : q < k) {x : N} (hx : ∀ p, x ∉ seq p) (hsx : seg' x = q)
    (hs : ∀ y, y ≠ x → seg' y = seg y) : Seg k (onList m q (.linkAtHead x)) seg' (upd seq q (x :: seq q)) := by
  refine ⟨onList_rep h.rep q (.linkAtHead x) (hx q) ?_, h.num, ?_, ?_⟩
  · intro y hy p _
    simp only [DList.Op.inserted, List.mem_singleton] at hy
    exact hy ▸ hx p
  · intro p hp
    rw [upd_ne _ _ (by omega)]; exact h.none p hp
  · intro p y hy
    by_cases e : p = q
    · subst e
      rw [upd_same] at hy
      rcases List.mem_cons.1 hy with rfl | hy
      · exact hsx
      · exact (hs y (fun e => hx p (e ▸ hy))).trans (h.seg p y hy)
    · rw [upd_ne _ _ e] at hy
      exact (hs y (fun e => hx p (e ▸ hy))).trans (h.seg p y hy)

theorem Seg.linkTail (h : Seg k m seg seq) {q : Nat} (hq : q < k) {x : N} (hx : ∀ p, x ∉ seq p) (hsx : seg' x = q)
    (hs : ∀ y, y ≠ x → seg' y = seg y) : Seg k (onList m q (.linkAtTail x)) seg' (upd seq q (seq q ++ [x])) := by
  refine ⟨onList_rep h.rep q (.linkAtTail x) (hx q) ?_, h.num, ?_, ?_⟩
  · intro y hy p _
    simp only [DList.Op.inserted, List.mem_singleton] at hy
    exact hy ▸ hx p
  · intro p hp
    rw [upd_ne _ _ (by omega)]; exact h.none p hp
  · intro p y hy
    by_cases e : p = q
    · subst e
      rw [upd_same] at hy
      rcases List.mem_append.1 hy with hy | hy
      · exact (hs y (fun e => hx p (e ▸ hy))).trans (h.seg p y hy)
      · rw [List.mem_singleton] at hy; exact hy ▸ hsx
    · rw [upd_ne _ _ e] at hy
      exact (hs y (fun e => hx p (e ▸ hy))).trans (h.seg p y hy)

theorem Seg.front (h : Seg k m seg seq) {q : Nat} {x : N} (hx : x ∈ seq q) :
    Seg k (onList m q (.moveToHead x)) seg (upd seq q (x :: (seq q).filter (· ≠ x))) := by
  refine ⟨onList_rep h.rep q (.moveToHead x) hx (by simp [DList.Op.inserted]), h.num, ?_, ?_⟩
  · intro p hp
    rw [upd_ne _ _ (by have := h.lt hx; omega)]; exact h.none p hp
  · intro p y hy
    by_cases e : p = q
    · subst e
      rw [upd_same] at hy
      rcases List.mem_cons.1 hy with rfl | hy
      · exact h.seg p y hx
      · exact h.seg p y (List.mem_filter.1 hy).1
    · rw [upd_ne _ _ e] at hy
      exact h.seg p y hy

/-- pointwise replacement. -/
def subst (o x : N) (l : List N) : List N := l.map (fun z => if z = o then x else z)

theorem subst_not_mem {l : List N} {o x : N} (ho : o ∉ l) : subst o x l = l := by
  unfold subst
  induction l with
  | nil => rfl
  | cons z zs ih =>
    simp only [List.mem_cons, not_or] at ho
    simp [ih ho.2, Ne.symm ho.1]

theorem mem_subst {l : List N} {o x y : N} : y ∈ subst o x l ↔ (y = x ∧ o ∈ l) ∨ (y ∈ l ∧ y ≠ o) := by
  constructor
  · intro h
    simp only [subst, List.mem_map] at h
    obtain ⟨z, hz, h⟩ := h
    split at h
    · rename_i e; exact Or.inl ⟨h.symm, e ▸ hz⟩
    · rename_i e; exact Or.inr ⟨h ▸ hz, h ▸ e⟩
  · rintro (⟨rfl, h⟩ | ⟨h, h'⟩)
    · exact List.mem_map.2 ⟨o, h, by simp⟩
    · exact List.mem_map.2 ⟨y, h, by simp [h']⟩

theorem Seg.replace (h : Seg k m seg seq) {q : Nat} {o x : N} (ho : o ∈ seq q) (hx : ∀ p, x ∉ seq p)
    (hsx : seg' x = q) (hs : ∀ y, y ≠ x → y ≠ o → seg' y = seg y) :
    Seg k (onList m q (.replace o x)) seg' (upd seq q (subst o x (seq q))) := by
  refine ⟨onList_rep h.rep q (.replace o x) ⟨ho, hx q⟩ ?_, h.num, ?_, ?_⟩
  · intro y hy p _
    simp only [DList.Op.inserted, List.mem_singleton] at hy
    exact hy ▸ hx p
  · intro p hp
    rw [upd_ne _ _ (by have := h.lt ho; omega)]; exact h.none p hp
  · intro p y hy
    by_cases e : p = q
    · subst e
      rw [upd_same] at hy
      rcases mem_subst.1 hy with ⟨rfl, _⟩ | ⟨hy, hne⟩
      · exact hsx
      · exact (hs y (fun e => hx p (e ▸ hy)) hne).trans (h.seg p y hy)
    · rw [upd_ne _ _ e] at hy
      exact (hs y (fun e => hx p (e ▸ hy)) (fun e' => e (h.uniq (e' ▸ hy) ho))).trans (h.seg p y hy)

/-- dropping the last. -/
theorem filter_last {a : List N} {x : N} (h : (a ++ [x]).Nodup) : (a ++ [x]).filter (· ≠ x) = a := by
  have hx := (DList.nodup_mid (b := []) h).1
  rw [List.filter_append, List.filter_eq_self.2]
  · simp
  · intro y hy; simp; exact fun e => hx (e ▸ hy)

theorem filter_not_mem {l : List N} {x : N} (h : x ∉ l) : l.filter (· ≠ x) = l := by
  rw [List.filter_eq_self]; intro y hy; simp; exact fun e => h (e ▸ hy)

theorem split_last (l : List N) (h : l ≠ []) : ∃ a x, l = a ++ [x] := by
  rcases List.eq_nil_or_concat l with e | ⟨b, x, e⟩
  · exact absurd e h
  · exact ⟨b, x, by simpa using e⟩

/-- `k` steps of an iterator from the tail. -/
theorem step_back (h : Seg k m seg seq) (q : Nat) {a b : List N} {x : N} (hs : seq q = a ++ x :: b) :
    DList.iterNext m.hooks .fromTail (some x) = a.getLast? := by
  have hr := h.rep.rep q
  rw [hs] at hr
  exact DList.rep_prev hr

end Verif.MMLfu
