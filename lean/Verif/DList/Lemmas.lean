import Verif.DList.Model
/-! Representation predicate and one refinement lemma per operation. -/
namespace Verif.DList
open Verif

variable {N : Type} [DecidableEq N]

/-- Header and hooks represent the sequence `l`. -/
structure Rep (h : Hooks N) (d : DList N) (l : List N) : Prop where
  nodup : l.Nodup
  next : Chain h.next l none
  prev : Chain h.prev l.reverse none
  head : d.head = l.head?
  tail : d.tail = l.getLast?
  size : d.size = l.length

omit [DecidableEq N] in
theorem rep_empty (h : Hooks N) : Rep h DList.empty [] :=
  ⟨by simp, by simp, by simp, rfl, rfl, rfl⟩

omit [DecidableEq N] in
theorem rep_next {h : Hooks N} {d : DList N} {a b : List N} {x : N} (r : Rep h d (a ++ x :: b)) :
    h.next x = b.head? := by simpa using chain_next r.next

omit [DecidableEq N] in
theorem rep_prev {h : Hooks N} {d : DList N} {a b : List N} {x : N} (r : Rep h d (a ++ x :: b)) :
    h.prev x = a.getLast? := by
  have := r.prev
  simp only [List.reverse_append, List.reverse_cons, List.append_assoc, List.singleton_append] at this
  have := chain_next this
  simpa using this

theorem setNext?_next (h : Hooks N) (p v) : (setNext? h p v).next = updO h.next p v := by
  cases p <;> rfl
theorem setNext?_prev (h : Hooks N) (p v) : (setNext? h p v).prev = h.prev := by cases p <;> rfl
theorem setPrev?_prev (h : Hooks N) (p v) : (setPrev? h p v).prev = updO h.prev p v := by
  cases p <;> rfl
theorem setPrev?_next (h : Hooks N) (p v) : (setPrev? h p v).next = h.next := by cases p <;> rfl

theorem linkAtHead_rep {h : Hooks N} {d : DList N} {l : List N} {x : N} (r : Rep h d l) (hx : x ∉ l) :
    Rep (linkAtHead h d x).1 (linkAtHead h d x).2 (x :: l) := by
  refine ⟨List.nodup_cons.mpr ⟨hx, r.nodup⟩, ?_, ?_, rfl, ?_, ?_⟩
  · simp only [linkAtHead, setPrev?_next, setPrev, setNext]
    refine ⟨?_, (chain_upd_of_not_mem hx).mpr r.next⟩
    simp [r.head]
  · simp only [linkAtHead, setPrev?_prev, setPrev, setNext, r.head]
    rw [List.reverse_cons, chain_append]
    have hp : Chain (upd h.prev x none) l.reverse none := (chain_upd_of_not_mem (by simpa using hx)).mpr r.prev
    cases l with
    | nil => simp [chain_cons]
    | cons y ys =>
      have hxy : x ≠ y := fun e => hx (by simp [e])
      simp only [List.head?_cons]
      constructor
      · simp only [List.reverse_cons] at hp ⊢
        refine chain_upd_last ?_ hp
        simp; exact (List.nodup_cons.mp r.nodup).1
      · simp [chain_cons, upd_ne _ _ hxy]
  · simp only [linkAtHead, r.tail]
    cases l with
    | nil => simp
    | cons y ys => simp
  · simp [linkAtHead, r.size]

theorem linkAtTail_rep {h : Hooks N} {d : DList N} {l : List N} {x : N} (r : Rep h d l) (hx : x ∉ l) :
    Rep (linkAtTail h d x).1 (linkAtTail h d x).2 (l ++ [x]) := by
  have hnd : (l ++ [x]).Nodup := by
    rw [List.nodup_append]; exact ⟨r.nodup, by simp, fun a ha b hb => by simp at hb; subst hb; exact fun e => hx (e ▸ ha)⟩
  refine ⟨hnd, ?_, ?_, ?_, ?_, ?_⟩
  · simp only [linkAtTail, setNext?_next, setPrev, setNext, r.tail]
    rw [chain_append]
    have hn : Chain (upd h.next x none) l none := (chain_upd_of_not_mem hx).mpr r.next
    refine ⟨?_, ?_⟩
    · exact chain_redirect r.nodup hn
    · simp only [chain_cons, chain_nil, and_true]
      cases hl : l.getLast? with
      | none => simp
      | some y =>
        have : x ≠ y := fun e => hx (by rw [e]; exact List.mem_of_getLast? hl)
        simp [upd_ne _ _ this]
  · simp only [linkAtTail, setNext?_prev, setPrev, setNext, r.tail]
    rw [List.reverse_append]
    refine ⟨?_, (chain_upd_of_not_mem (by simpa using hx)).mpr r.prev⟩
    simp
  · simp only [linkAtTail, r.head]
    cases l <;> simp
  · simp [linkAtTail]
  · simp [linkAtTail, r.size]

omit [DecidableEq N] in
theorem nodup_mid {a b : List N} {x : N} (h : (a ++ x :: b).Nodup) :
    x ∉ a ∧ x ∉ b ∧ a.Nodup ∧ b.Nodup ∧ (∀ y ∈ a, y ∉ b) := by
  rw [List.nodup_append, List.nodup_cons] at h
  exact ⟨fun hx => h.2.2 x hx x (by simp) rfl, h.2.1.1, h.1, h.2.1.2, fun y hy hb => h.2.2 y hy y (by simp [hb]) rfl⟩

theorem insertBefore_rep {h : Hooks N} {d : DList N} {a b : List N} {y x : N} (r : Rep h d (a ++ y :: b))
    (hx : x ∉ a ++ y :: b) :
    Rep (insertBefore h d y x).1 (insertBefore h d y x).2 (a ++ x :: y :: b) := by
  have hp := rep_prev r
  obtain ⟨hya, hyb, hna, hnb, hab⟩ := nodup_mid r.nodup
  have hxa : x ∉ a := fun e => hx (by simp [e])
  have hxy : x ≠ y := fun e => hx (by simp [e])
  have hxb : x ∉ b := fun e => hx (by simp [e])
  have hn := (chain_append _ _ _ _).mp r.next
  have hpv := r.prev
  simp only [List.reverse_append, List.reverse_cons, List.append_assoc, List.singleton_append] at hpv
  rw [chain_append] at hpv
  have hsz := r.size
  have hhd := r.head
  have htl := r.tail
  refine ⟨?_, ?_, ?_, ?_, ?_, ?_⟩
  · rw [List.nodup_append, List.nodup_cons]
    refine ⟨hna, ⟨by simp [hxy, hxb], List.nodup_cons.mpr ⟨hyb, hnb⟩⟩, ?_⟩
    intro c hc e he hce; subst hce
    simp at he; rcases he with rfl | rfl | he
    · exact hxa hc
    · exact hya hc
    · exact hab _ hc he
  · have key : Chain (insertBefore h d y x).1.next a (some x) ∧
        (∀ z, z ∈ y :: b → (insertBefore h d y x).1.next z = h.next z) ∧
        (insertBefore h d y x).1.next x = some y := by
      simp only [insertBefore, hp]
      rcases List.eq_nil_or_concat a with rfl | ⟨a', p, rfl⟩
      · simp only [List.getLast?_nil, setNext, setPrev]
        refine ⟨by simp, fun z hz => ?_, by simp⟩
        rw [upd_ne]; rintro rfl; simp at hz; rcases hz with rfl | hz
        · exact hxy rfl
        · exact hxb hz
      · simp only [List.concat_eq_append] at *
        have hap : p ∉ a' := fun e => by
          rw [List.nodup_append] at hna; exact hna.2.2 p e p (by simp) rfl
        simp only [List.getLast?_append, List.getLast?_singleton, Option.some_or, setNext, setPrev]
        refine ⟨(chain_upd_of_not_mem hxa).mpr (chain_upd_last hap hn.1), fun z hz => ?_, by simp⟩
        rw [upd_ne, upd_ne]
        · rintro rfl; simp at hz; rcases hz with rfl | hz
          · exact hya (by simp)
          · exact hab _ (by simp) hz
        · rintro rfl; simp at hz; rcases hz with rfl | hz
          · exact hxy rfl
          · exact hxb hz
    rw [chain_append, chain_cons]
    exact ⟨key.1, by simpa using key.2.2, (chain_congr key.2.1).mpr hn.2⟩
  · have hpe : (insertBefore h d y x).1.prev = upd (upd h.prev x a.getLast?) y (some x) := by
      simp only [insertBefore, hp]
      cases a.getLast? <;> rfl
    rw [hpe]
    have hrev : (a ++ x :: y :: b).reverse = b.reverse ++ (y :: x :: a.reverse) := by simp
    rw [hrev, chain_append, chain_cons, chain_cons]
    refine ⟨?_, by simp, by simp [upd_ne _ _ hxy], ?_⟩
    · refine (chain_upd_of_not_mem (by simpa using hyb)).mpr ((chain_upd_of_not_mem (by simpa using hxb)).mpr ?_)
      exact hpv.1
    · refine (chain_upd_of_not_mem (by simpa using hya)).mpr ((chain_upd_of_not_mem (by simpa using hxa)).mpr ?_)
      exact hpv.2.2
  · simp only [insertBefore, hp]
    rcases List.eq_nil_or_concat a with rfl | ⟨a', p, rfl⟩
    · simp
    · simp only [List.concat_eq_append, List.getLast?_append, List.getLast?_singleton, Option.some_or]
      rw [hhd]; cases a' <;> simp
  · have : (insertBefore h d y x).2.tail = d.tail := rfl
    rw [this, htl]; simp
  · have : (insertBefore h d y x).2.size = d.size + 1 := rfl
    rw [this, hsz]; simp; omega

/-- `unlink` in the middle. -/
theorem unlink_rep {h : Hooks N} {d : DList N} {a b : List N} {x : N} (r : Rep h d (a ++ x :: b)) :
    Rep (unlink h d x).1 (unlink h d x).2 (a ++ b) := by
  have hp := rep_prev r
  have hnx := rep_next r
  obtain ⟨hxa, hxb, hna, hnb, hab⟩ := nodup_mid r.nodup
  have hn := (chain_append _ _ _ _).mp r.next
  have hpv := r.prev
  simp only [List.reverse_append, List.reverse_cons, List.append_assoc, List.singleton_append] at hpv
  rw [chain_append] at hpv
  refine ⟨?_, ?_, ?_, ?_, ?_, ?_⟩
  · rw [List.nodup_append]; exact ⟨hna, hnb, fun c hc e he hce => hab c hc (hce ▸ he)⟩
  · simp only [unlink, setPrev?_next, setNext?_next, hp, hnx]
    rw [chain_append]
    refine ⟨by simpa using chain_redirect hna hn.1, ?_⟩
    cases hl : a.getLast? with
    | none => exact hn.2.2
    | some p => exact (chain_upd_of_not_mem (hab p (List.mem_of_getLast? hl))).mpr hn.2.2
  · simp only [unlink, setPrev?_prev, setNext?_prev, hp, hnx]
    rw [List.reverse_append, chain_append]
    refine ⟨?_, ?_⟩
    · have := chain_redirect (m := a.getLast?) ((List.reverse_perm b).nodup_iff.mpr hnb) hpv.1
      simpa using this
    · cases hl : b.head? with
      | none => exact hpv.2.2
      | some q =>
        exact (chain_upd_of_not_mem (by simp; exact fun e => hab q e (List.mem_of_head? hl))).mpr hpv.2.2
  · simp only [unlink, r.head, hnx]
    cases a with
    | nil => simp
    | cons z zs =>
      have : x ≠ z := fun e => hxa (by simp [e])
      simp [this]
  · simp only [unlink, r.tail, hp]
    rcases List.eq_nil_or_concat b with rfl | ⟨b', q, rfl⟩
    · simp
    · simp only [List.concat_eq_append] at *
      have : x ≠ q := fun e => hxb (by simp [e])
      rw [getLast?_mid, ← List.append_assoc, List.getLast?_concat]
      simp [this]
  · simp [unlink, r.size]

theorem remove_rep {h : Hooks N} {d : DList N} {a b : List N} {x : N} (r : Rep h d (a ++ x :: b)) :
    Rep (remove h d x).1 (remove h d x).2 (a ++ b) ∧ (remove h d x).1.next x = none ∧ (remove h d x).1.prev x = none := by
  have u := unlink_rep r
  obtain ⟨hxa, hxb, _⟩ := nodup_mid r.nodup
  refine ⟨⟨u.nodup, ?_, ?_, u.head, u.tail, u.size⟩, by simp [remove, setPrev, setNext], by simp [remove, setPrev]⟩
  · exact (chain_upd_of_not_mem (by simp [hxa, hxb])).mpr u.next
  · exact (chain_upd_of_not_mem (by simp [hxa, hxb])).mpr u.prev

theorem moveToHead_rep {h : Hooks N} {d : DList N} {a b : List N} {x : N} (r : Rep h d (a ++ x :: b)) :
    Rep (moveToHead h d x).1 (moveToHead h d x).2 (x :: (a ++ b)) := by
  obtain ⟨hxa, hxb, _⟩ := nodup_mid r.nodup
  unfold moveToHead
  split
  · rename_i hh
    rw [r.head] at hh
    cases a with
    | nil => simpa using r
    | cons z zs => simp at hh; exact absurd (by simp [hh]) hxa
  · exact linkAtHead_rep (unlink_rep r) (by simp [hxa, hxb])

theorem replace_rep {h : Hooks N} {d : DList N} {a b : List N} {x y : N} (r : Rep h d (a ++ x :: b))
    (hy : y ∉ a ++ x :: b) :
    Rep (replace h d x y).1 (replace h d x y).2 (a ++ y :: b) ∧
    (replace h d x y).1.next x = none ∧ (replace h d x y).1.prev x = none := by
  have hp := rep_prev r
  have hnx := rep_next r
  obtain ⟨hxa, hxb, hna, hnb, hab⟩ := nodup_mid r.nodup
  have hya : y ∉ a := fun e => hy (by simp [e])
  have hyx : y ≠ x := fun e => hy (by simp [e])
  have hyb : y ∉ b := fun e => hy (by simp [e])
  have hn := (chain_append _ _ _ _).mp r.next
  have hpv := r.prev
  simp only [List.reverse_append, List.reverse_cons, List.append_assoc, List.singleton_append] at hpv
  rw [chain_append] at hpv
  refine ⟨⟨?_, ?_, ?_, ?_, ?_, ?_⟩, by simp [replace, setNext], by simp [replace, setPrev, setNext]⟩
  · rw [List.nodup_append, List.nodup_cons]
    refine ⟨hna, ⟨hyb, hnb⟩, ?_⟩
    intro c hc e he hce; subst hce
    simp at he; rcases he with rfl | he
    · exact hya hc
    · exact hab _ hc he
  · have e : (replace h d x y).1.next = upd (upd (updO h.next a.getLast? (some y)) y b.head?) x none := by
      simp only [replace, setNext, setPrev, setPrev?_next, setNext?_next, hp, hnx]
    rw [e, chain_append, chain_cons]
    refine ⟨?_, by simp [upd_ne _ _ hyx], ?_⟩
    · exact (chain_upd_of_not_mem hxa).mpr ((chain_upd_of_not_mem hya).mpr (by simpa using chain_redirect hna hn.1))
    · refine (chain_upd_of_not_mem hxb).mpr ((chain_upd_of_not_mem hyb).mpr ?_)
      cases hl : a.getLast? with
      | none => exact hn.2.2
      | some p => exact (chain_upd_of_not_mem (hab p (List.mem_of_getLast? hl))).mpr hn.2.2
  · have e : (replace h d x y).1.prev = upd (upd (updO h.prev b.head? (some y)) y a.getLast?) x none := by
      simp only [replace, setNext, setPrev, setPrev?_prev, setNext?_prev, hp, hnx]
    rw [e]
    have hrev : (a ++ y :: b).reverse = b.reverse ++ (y :: a.reverse) := by simp
    rw [hrev, chain_append, chain_cons]
    refine ⟨?_, by simp [upd_ne _ _ hyx], ?_⟩
    · refine (chain_upd_of_not_mem (by simpa using hxb)).mpr ((chain_upd_of_not_mem (by simpa using hyb)).mpr ?_)
      have := chain_redirect (m := some y) ((List.reverse_perm b).nodup_iff.mpr hnb) hpv.1
      simpa using this
    · refine (chain_upd_of_not_mem (by simpa using hxa)).mpr ((chain_upd_of_not_mem (by simpa using hya)).mpr ?_)
      cases hl : b.head? with
      | none => exact hpv.2.2
      | some q =>
        exact (chain_upd_of_not_mem (by simp; exact fun e => hab q e (List.mem_of_head? hl))).mpr hpv.2.2
  · simp only [replace, r.head]
    cases a with
    | nil => simp
    | cons z zs =>
      have : x ≠ z := fun e => hxa (by simp [e])
      simp [this]
  · simp only [replace, r.tail]
    rcases List.eq_nil_or_concat b with rfl | ⟨b', q, rfl⟩
    · simp
    · simp only [List.concat_eq_append] at *
      have : x ≠ q := fun e => hxb (by simp [e])
      rw [getLast?_mid, getLast?_mid]
      simp [this]
  · have : (replace h d x y).2.size = d.size := rfl
    rw [this, r.size]; simp

end Verif.DList
