import Verif.SList.Model
/-! Representation predicate and one refinement lemma per operation. -/
namespace Verif.SList
open Verif

variable {N : Type} [DecidableEq N]

structure Rep (nx : N → Option N) (s : SList N) (l : List N) : Prop where
  nodup : l.Nodup
  next : Chain nx l none
  head : s.head = l.head?
  tail : s.tail = l.getLast?
  size : s.size = l.length

omit [DecidableEq N] in
theorem rep_new (nx : N → Option N) : Rep nx SList.new [] := ⟨by simp, by simp, rfl, rfl, rfl⟩

omit [DecidableEq N] in
theorem check_ok {s : SList N} {l : List N} (h1 : s.head = l.head?) (h2 : s.tail = l.getLast?) (h3 : s.size = l.length) :
    checkStateOrThrow s = .ok () := by
  unfold checkStateOrThrow
  rw [h1, h2, h3]
  cases l <;> simp

omit [DecidableEq N] in
theorem rep_congr {nx nx' : N → Option N} {s : SList N} {l : List N} (r : Rep nx s l) (h : ∀ x ∈ l, nx' x = nx x) :
    Rep nx' s l := ⟨r.nodup, (chain_congr h).mpr r.next, r.head, r.tail, r.size⟩

theorem insert_rep {nx : N → Option N} {s : SList N} {l : List N} {x : N} (r : Rep nx s l) (hx : x ∉ l) :
    Rep (insert nx s x).1 (insert nx s x).2 (x :: l) := by
  refine ⟨List.nodup_cons.mpr ⟨hx, r.nodup⟩, ?_, rfl, ?_, ?_⟩
  · exact ⟨by simp [insert, r.head], (chain_upd_of_not_mem hx).mpr r.next⟩
  · simp only [insert, r.tail]; cases l <;> simp
  · simp [insert, r.size]

theorem pop_rep {nx : N → Option N} {s : SList N} {x : N} {l : List N} (r : Rep nx s (x :: l)) :
    ∃ s', pop nx s = .ok (upd nx x none, s') ∧ Rep (upd nx x none) s' l := by
  obtain ⟨hx, hnd⟩ := List.nodup_cons.mp r.nodup
  have hnx : nx x = l.head? := by have := r.next.1; simpa using this
  have hne : s.isEmpty = false := by simp [SList.isEmpty, r.size]
  have hs : checkStateOrThrow (⟨s.size - 1, nx x, if (nx x).isNone then none else s.tail⟩ : SList N) = .ok () := by
    apply check_ok (l := l)
    · exact hnx
    · simp only [hnx, r.tail]; cases l <;> simp
    · simp [r.size]
  refine ⟨⟨s.size - 1, nx x, if (nx x).isNone then none else s.tail⟩, ?_, hnd, ?_, hnx, ?_, by simp [r.size]⟩
  · simp only [pop, hne, r.head, List.head?_cons, hs, Bool.false_eq_true, if_false]
  · exact (chain_upd_of_not_mem hx).mpr r.next.2
  · simp only [hnx, r.tail]; cases l <;> simp

theorem splice_rep {nx : N → Option N} {s o : SList N} {l m : List N} (r : Rep nx s l) (q : Rep nx o m)
    (hd : ∀ x ∈ m, x ∉ l) :
    ∃ nx' s' o', splice nx s o = .ok (nx', s', o') ∧ Rep nx' s' (m ++ l) ∧ Rep nx' o' [] ∧
      ∀ z, z ∉ m → nx' z = nx z := by
  rcases List.eq_nil_or_concat m with rfl | ⟨m', t, rfl⟩
  · refine ⟨nx, s, o, ?_, by simpa using r, q, fun _ _ => rfl⟩
    simp [splice, SList.isEmpty, q.size]
  · simp only [List.concat_eq_append] at *
    have hne : o.isEmpty = false := by simp [SList.isEmpty, q.size]
    have htl : o.tail = some t := by rw [q.tail, List.getLast?_concat]
    have ht : t ∉ m' := by
      intro e; have := q.nodup; rw [List.nodup_append] at this; exact this.2.2 t e t (by simp) rfl
    refine ⟨upd nx t s.head, ⟨s.size + o.size, o.head, if s.tail.isNone then o.tail else s.tail⟩, ⟨0, none, none⟩, ?_, ?_, ?_, ?_⟩
    · simp [splice, hne, htl]
    · refine ⟨?_, ?_, ?_, ?_, ?_⟩
      · rw [List.nodup_append]; exact ⟨q.nodup, r.nodup, fun a ha b hb e => hd a ha (e ▸ hb)⟩
      · rw [chain_append, r.head]
        refine ⟨by simpa using chain_upd_last ht q.next, (chain_upd_of_not_mem (hd t (by simp))).mpr r.next⟩
      · simp only [q.head]; cases m' <;> simp
      · rw [List.getLast?_append, List.getLast?_concat]
        simp only [r.tail, htl]; cases hl : l.getLast? <;> simp
      · simp [r.size, q.size]; omega
    · exact ⟨by simp, by simp, rfl, rfl, rfl⟩
    · intro z hz; exact upd_ne _ _ (by rintro rfl; simp at hz)

theorem iterAt_spec {nx : N → Option N} {s : SList N} {l : List N} (r : Rep nx s l) (self k : Nat) (hk : k ≤ l.length) :
    iterAt nx self s k = ⟨(l.drop k).head?, (l.take k).getLast?, self⟩ := by
  induction k with
  | zero => simp [iterAt, iterBegin, r.head]
  | succ k ih =>
    rw [iterAt, ih (by omega)]
    have hlt : k < l.length := by omega
    have hd : l.drop k = l[k] :: l.drop (k + 1) := List.drop_eq_getElem_cons hlt
    have htk : l.take (k + 1) = l.take k ++ [l[k]] := by rw [List.take_succ_eq_append_getElem hlt]
    have hn : nx l[k] = (l.drop (k + 1)).head? := by
      have h : Chain nx (l.take k ++ l[k] :: l.drop (k + 1)) none := by
        rw [← hd, List.take_append_drop]; exact r.next
      simpa using chain_next h
    simp only [Iter.inc, hd, htk, List.getLast?_concat, List.head?_cons, hn]

theorem remove_rep {nx : N → Option N} {s : SList N} {a b : List N} {x : N} {self : Nat} (r : Rep nx s (a ++ x :: b)) :
    ∃ nx' s', remove nx self s ⟨some x, a.getLast?, self⟩ = .ok (nx', s', ⟨b.head?, a.getLast?, self⟩) ∧
      Rep nx' s' (a ++ b) ∧ nx' x = none ∧ ∀ z, z ∉ a ++ x :: b → nx' z = nx z := by
  have hnx : nx x = b.head? := by simpa using chain_next r.next
  rcases List.eq_nil_or_concat a with rfl | ⟨a', p, rfl⟩
  · obtain ⟨s', hp, hr⟩ := pop_rep (x := x) (l := b) (by simpa using r)
    refine ⟨upd nx x none, s', ?_, by simpa using hr, by simp, ?_⟩
    · simp [remove, hp, hnx]
    · intro z hz; exact upd_ne _ _ (by rintro rfl; simp at hz)
  · simp only [List.concat_eq_append] at *
    have hnd := r.nodup
    have hxa : x ∉ a' ++ [p] := by
      rw [List.nodup_append] at hnd; exact fun e => hnd.2.2 x e x (by simp) rfl
    have hxb : x ∉ b := by rw [List.nodup_append, List.nodup_cons] at hnd; exact hnd.2.1.1
    have hab : ∀ y ∈ a' ++ [p], y ∉ b := by
      rw [List.nodup_append] at hnd; exact fun y hy hb => hnd.2.2 y hy y (by simp [hb]) rfl
    have hpa : p ∉ a' := by
      rw [List.nodup_append, List.nodup_append] at hnd; exact fun e => hnd.1.2.2 p e p (by simp) rfl
    have hn := (chain_append _ _ _ _).mp r.next
    let s' : SList N := { s with size := s.size - 1, tail := if s.tail = some x then some p else s.tail }
    have htl : s'.tail = (a' ++ [p] ++ b).getLast? := by
      show (if s.tail = some x then some p else s.tail) = _
      rw [r.tail]
      rcases List.eq_nil_or_concat b with rfl | ⟨b', q, rfl⟩
      · simp
      · simp only [List.concat_eq_append] at *
        rw [getLast?_mid, ← List.append_assoc, List.getLast?_concat]
        have : q ≠ x := fun e => hxb (by simp [e])
        simp [this]
    have hhd : s'.head = (a' ++ [p] ++ b).head? := by
      show s.head = _; rw [r.head]; cases a' <;> simp
    have hsz : s'.size = (a' ++ [p] ++ b).length := by
      show s.size - 1 = _; rw [r.size]; simp
    have hck : checkStateOrThrow s' = .ok () := check_ok hhd htl hsz
    refine ⟨upd (upd nx p b.head?) x none, s', ?_, ⟨?_, ?_, hhd, htl, hsz⟩, by simp, ?_⟩
    · simp only [List.getLast?_concat, remove, hnx, ne_eq, not_true, if_false]
      have : checkStateOrThrow ({ s with size := s.size - 1, tail := if s.tail = some x then some p else s.tail } : SList N) = .ok () := hck
      rw [this]
    · rw [List.nodup_append] at hnd ⊢
      exact ⟨hnd.1, (List.nodup_cons.mp hnd.2.1).2, fun c hc e he hce => hab c hc (hce ▸ he)⟩
    · rw [chain_append]
      refine ⟨(chain_upd_of_not_mem hxa).mpr (by simpa using chain_upd_last (m := b.head?) hpa hn.1), ?_⟩
      exact (chain_upd_of_not_mem hxb).mpr ((chain_upd_of_not_mem (hab p (by simp))).mpr hn.2.2)
    · intro z hz
      rw [upd_ne, upd_ne]
      · rintro rfl; simp at hz
      · rintro rfl; simp at hz

omit [DecidableEq N] in
theorem lastOf_chain {nx : N → Option N} {x : N} {l : List N} (h : Chain nx (x :: l) none) (k : Nat) (hk : l.length ≤ k) :
    some (lastOf nx k x) = (x :: l).getLast? := by
  induction l generalizing x k with
  | nil =>
    have : nx x = none := by simpa using h.1
    cases k <;> simp [lastOf, this]
  | cons y ys ih =>
    have hn : nx x = some y := by simpa using h.1
    cases k with
    | zero => simp at hk
    | succ k =>
      simp only [lastOf, hn]
      rw [ih h.2 k (by simpa using hk)]; simp

end Verif.SList
