import Verif.MultiDList.Model
/-! Several lists over shared hooks: representation and refinement. -/
namespace Verif.MultiDList
open Verif

variable {N : Type} [DecidableEq N]

/-- the lists represent pairwise disjoint sequences. -/
structure MRep (m : MState N) (seq : Nat → List N) : Prop where
  rep : ∀ q, DList.Rep m.hooks (m.lists q) (seq q)
  disj : ∀ p q, p ≠ q → ∀ x ∈ seq p, x ∉ seq q

theorem mrep_new (num : Nat) (hooks : DList.Hooks N) : MRep (new num hooks) (fun _ => []) :=
  ⟨fun _ => DList.rep_empty hooks, by simp⟩

theorem rep_frame {h : DList.Hooks N} {d1 d2 : DList.DList N} {l1 l2 : List N} (r1 : DList.Rep h d1 l1)
    (r2 : DList.Rep h d2 l2) (hd : ∀ z ∈ l2, z ∉ l1) {op : DList.Op N} (hl : DList.Legal l1 op)
    (hi : ∀ z ∈ l2, z ∉ op.inserted) : DList.Rep (DList.step (h, d1) op).1 d2 l2 := by
  refine ⟨r2.nodup, ?_, ?_, r2.head, r2.tail, r2.size⟩
  · exact (chain_congr (fun z hz => (DList.step_frame (s := (h, d1)) r1 hl (hd z hz) (hi z hz)).1)).mpr r2.next
  · refine (chain_congr (fun z hz => ?_)).mpr r2.prev
    have hz : z ∈ l2 := by simpa using hz
    exact (DList.step_frame (s := (h, d1)) r1 hl (hd z hz) (hi z hz)).2

theorem mem_specStep {l : List N} {op : DList.Op N} {x : N} (h : x ∈ DList.specStep l op) (hl : DList.Legal l op) :
    x ∈ l ∨ x ∈ op.inserted := by
  cases op with
  | linkAtHead y => simp only [DList.specStep, List.mem_cons] at h; rcases h with h | h <;> simp [DList.Op.inserted, h]
  | linkAtTail y => simp only [DList.specStep, List.mem_append, List.mem_singleton] at h; rcases h with h | h <;> simp [DList.Op.inserted, h]
  | insertBefore y z =>
    simp only [DList.specStep, List.mem_flatMap] at h
    obtain ⟨a, ha, h⟩ := h
    split at h
    · simp at h; rcases h with rfl | rfl
      · right; simp [DList.Op.inserted]
      · left; exact ha
    · simp at h; left; rw [h]; exact ha
  | remove y => left; exact (List.mem_filter.1 h).1
  | replace y z =>
    simp only [DList.specStep, List.mem_map] at h
    obtain ⟨a, ha, h⟩ := h
    split at h
    · right; simp [DList.Op.inserted, h]
    · left; rw [← h]; exact ha
  | moveToHead y =>
    simp only [DList.specStep, List.mem_cons] at h
    rcases h with rfl | h
    · left; exact hl
    · left; exact (List.mem_filter.1 h).1

/-- one operation on one list. -/
theorem onList_rep {m : MState N} {seq : Nat → List N} (h : MRep m seq) (q : Nat) (op : DList.Op N)
    (hl : DList.Legal (seq q) op) (hi : ∀ x ∈ op.inserted, ∀ p, p ≠ q → x ∉ seq p) :
    MRep (onList m q op) (upd seq q (DList.specStep (seq q) op)) := by
  constructor
  · intro p
    by_cases e : p = q
    · subst e
      simp only [onList, upd_same]
      exact DList.step_rep (s := (m.hooks, m.lists p)) (h.rep p) hl
    · simp only [onList, upd_ne _ _ e]
      refine rep_frame (h.rep q) (h.rep p) (fun z hz => h.disj p q e z hz) hl ?_
      intro z hz hz'
      exact hi z hz' p e hz
  · intro p r hpr x hx hx'
    by_cases e : p = q
    · subst e
      rw [upd_same] at hx
      rw [upd_ne _ _ (Ne.symm hpr)] at hx'
      rcases mem_specStep hx hl with hx | hx
      · exact h.disj p r hpr x hx hx'
      · exact hi x hx r (Ne.symm hpr) hx'
    · rw [upd_ne _ _ e] at hx
      by_cases e' : r = q
      · subst e'
        rw [upd_same] at hx'
        rcases mem_specStep hx' hl with hx' | hx'
        · exact h.disj p r hpr x hx hx'
        · exact hi x hx' p e hx
      · rw [upd_ne _ _ e'] at hx'
        exact h.disj p r hpr x hx hx'

theorem onList_num (m : MState N) (q : Nat) (op : DList.Op N) : (onList m q op).num = m.num := rfl

/-- pop the tail of one list and push it at the head of another. -/
theorem move_rep {m : MState N} {seq : Nat → List N} (h : MRep m seq) {p q : Nat} (hpq : p ≠ q) {a : List N} {x : N}
    (hs : seq p = a ++ [x]) :
    MRep (onList (onList m p (.remove x)) q (.linkAtHead x)) (upd (upd seq p a) q (x :: seq q)) := by
  have hx : x ∈ seq p := by rw [hs]; simp
  have h1 := onList_rep h p (.remove x) hx (by simp [DList.Op.inserted])
  have hnd := (h.rep p).nodup
  have hf : DList.specStep (seq p) (.remove x) = a := by
    simp only [DList.specStep]
    rw [hs] at hnd ⊢
    obtain ⟨hxa, _⟩ := DList.nodup_mid (b := []) hnd
    rw [List.filter_append, List.filter_eq_self.2]
    · simp
    · intro y hy; simp; exact fun e => hxa (e ▸ hy)
  rw [hf] at h1
  have hxa : x ∉ a := by
    rw [hs] at hnd
    exact (DList.nodup_mid (b := []) hnd).1
  have hxq : x ∉ seq q := h.disj p q hpq x hx
  have h2 := onList_rep h1 q (.linkAtHead x) (by simpa [DList.Legal, upd_ne _ _ (Ne.symm hpq)] using hxq) (by
    intro y hy r hr
    simp only [DList.Op.inserted, List.mem_singleton] at hy
    subst hy
    by_cases e : r = p
    · subst e; rw [upd_same]; exact hxa
    · rw [upd_ne _ _ e]; exact h.disj p r (Ne.symm e) y hx)
  simpa [DList.specStep, upd_ne _ _ (Ne.symm hpq)] using h2

/-- what `k` lists hold together. -/
def total (seq : Nat → List N) : Nat → Nat
  | 0 => 0
  | k + 1 => total seq k + (seq k).length

theorem size_eq {m : MState N} {seq : Nat → List N} (h : MRep m seq) (k : Nat) : sizeUpTo m k = total seq k := by
  induction k with
  | zero => rfl
  | succ k ih => simp [sizeUpTo, total, ih, (h.rep k).size]

/-- order in which the iterator that starts at the end of list `i` sees the nodes. -/
def order (seq : Nat → List N) : Nat → List N
  | 0 => (seq 0).reverse
  | i + 1 => (seq (i + 1)).reverse ++ order seq i

/-- an iterator position seen as the remaining nodes: it is in list `i` in front of which `a` is left. -/
inductive At (seq : Nat → List N) : It N → List N → Prop where
  | done : At seq ⟨none, none⟩ []
  | zero {a b : List N} {x : N} (h : seq 0 = a ++ x :: b) : At seq ⟨some 0, some x⟩ (x :: a.reverse)
  | succ {a b : List N} {x : N} {i : Nat} (h : seq (i + 1) = a ++ x :: b) :
      At seq ⟨some (i + 1), some x⟩ (x :: a.reverse ++ order seq i)

theorem rbeginFrom_at {m : MState N} {seq : Nat → List N} (h : MRep m seq) (i : Nat) :
    At seq (rbeginFrom m i) (order seq i) := by
  induction i with
  | zero =>
    simp only [rbeginFrom, order]
    have hr := h.rep 0
    rcases List.eq_nil_or_concat (seq 0) with e | ⟨b, x, e⟩
    · rw [if_pos (by rw [hr.size, e]; rfl), e]; exact .done
    · rw [List.concat_eq_append] at e
      rw [if_neg (by rw [hr.size, e]; simp), hr.tail, e]
      simp only [List.getLast?_concat, List.reverse_append, List.reverse_cons, List.reverse_nil, List.nil_append,
        List.singleton_append]
      exact At.zero (b := []) e
  | succ i ih =>
    simp only [rbeginFrom, order]
    have hr := h.rep (i + 1)
    rcases List.eq_nil_or_concat (seq (i + 1)) with e | ⟨b, x, e⟩
    · rw [if_pos (by rw [hr.size, e]; rfl), e]; exact ih
    · rw [List.concat_eq_append] at e
      rw [if_neg (by rw [hr.size, e]; simp), hr.tail, e]
      simp only [List.getLast?_concat, List.reverse_append, List.reverse_cons, List.reverse_nil, List.nil_append,
        List.singleton_append]
      exact At.succ (b := []) e

theorem settle_at {m : MState N} {seq : Nat → List N} (h : MRep m seq) (i : Nat) :
    At seq (settle m i (m.lists i).tail) (order seq i) := by
  induction i with
  | zero =>
    have hr := h.rep 0
    rcases List.eq_nil_or_concat (seq 0) with e | ⟨b, x, e⟩
    · rw [hr.tail, e]; simp only [List.getLast?_nil, settle, order, e]; exact .done
    · rw [List.concat_eq_append] at e
      rw [hr.tail, e]; simp only [List.getLast?_concat, settle, order, e]
      simp only [List.reverse_append, List.reverse_cons, List.reverse_nil, List.nil_append, List.singleton_append]
      exact At.zero (b := []) e
  | succ i ih =>
    have hr := h.rep (i + 1)
    rcases List.eq_nil_or_concat (seq (i + 1)) with e | ⟨b, x, e⟩
    · rw [hr.tail, e]; simp only [List.getLast?_nil, settle, order, e]; exact ih
    · rw [List.concat_eq_append] at e
      rw [hr.tail, e]; simp only [List.getLast?_concat, settle, order, e]
      simp only [List.reverse_append, List.reverse_cons, List.reverse_nil, List.nil_append, List.singleton_append]
      exact At.succ (b := []) e

/-- `++` goes to the next of the remaining nodes. -/
theorem goForward_at {m : MState N} {seq : Nat → List N} (h : MRep m seq) {it : It N} {x : N} {l : List N}
    (ha : At seq it (x :: l)) : it.cur = some x ∧ At seq (goForward m it) l := by
  generalize hl : x :: l = l' at ha
  cases ha with
  | done => cases hl
  | zero hs =>
    cases hl
    rename_i a b
    refine ⟨rfl, ?_⟩
    have hp := DList.rep_prev (hs ▸ h.rep 0)
    simp only [goForward, DList.iterNext, hp]
    rcases List.eq_nil_or_concat a with e | ⟨a', y, e⟩
    · subst e; simp only [List.getLast?_nil, settle, List.reverse_nil]; exact .done
    · rw [List.concat_eq_append] at e
      subst e
      simp only [List.getLast?_concat, settle, List.reverse_append, List.reverse_cons, List.reverse_nil,
        List.nil_append, List.singleton_append]
      exact At.zero (b := x :: b) (by simpa using hs)
  | succ hs =>
    cases hl
    rename_i a b i
    refine ⟨rfl, ?_⟩
    have hp := DList.rep_prev (hs ▸ h.rep (i + 1))
    simp only [goForward, DList.iterNext, hp]
    rcases List.eq_nil_or_concat a with e | ⟨a', y, e⟩
    · subst e; simp only [List.getLast?_nil, settle, List.reverse_nil, List.nil_append]; exact settle_at h i
    · rw [List.concat_eq_append] at e
      subst e
      simp only [List.getLast?_concat, settle, List.reverse_append, List.reverse_cons, List.reverse_nil,
        List.nil_append, List.singleton_append]
      exact At.succ (b := x :: b) (by simpa using hs)

theorem visit_at {m : MState N} {seq : Nat → List N} (h : MRep m seq) (k : Nat) {it : It N} {l : List N}
    (ha : At seq it l) (hk : l.length ≤ k) : visit m k it = l := by
  induction k generalizing it l with
  | zero =>
    cases l with
    | nil => rfl
    | cons x l => simp at hk
  | succ k ih =>
    cases l with
    | nil => cases ha; rfl
    | cons x l =>
      obtain ⟨h1, h2⟩ := goForward_at h ha
      have : ∃ i, it.idx = some i := by cases ha <;> exact ⟨_, rfl⟩
      obtain ⟨i, hi⟩ := this
      simp only [visit, hi, h1]
      rw [ih h2 (by simpa using hk)]

theorem saveRestore (m : MState N) (hm : ∀ i, m.num ≤ i → m.lists i = DList.DList.empty) :
    restore (saveState m) m.hooks = m := by
  obtain ⟨hooks, lists, num⟩ := m
  simp only [restore, saveState, List.length_map, List.length_range, MState.mk.injEq, true_and, and_true]
  funext i
  simp only at hm
  by_cases hi : i < num
  · simp [hi, DList.restore, DList.saveState]
  · simp [hi, hm i (by omega)]

end Verif.MultiDList
