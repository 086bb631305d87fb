import Verif.CCache.Laws
import Verif.CCache.TableSpec

/-! Requests of the compact cache against its specification: everything but resizing. -/
namespace Verif.CCache
open Spec

variable {K V : Type} [DecidableEq K] {D : Desc K V} (L : Laws D)

/-! ### one bucket -/

/-- A bucket in order: well formed, no key twice. -/
structure Good (b : D.B) : Prop where
  wf : L.wf b
  nd : ((L.ents b).map Prod.fst).Nodup

variable {L}

theorem Good.uniq {b : D.B} (h : Good L b) {k : K} {v w : V} (h1 : (k, v) ∈ L.ents b)
    (h2 : (k, w) ∈ L.ents b) : v = w := by
  have := List.inj_on_of_nodup_map h.nd h1 h2 rfl
  exact (Prod.mk.inj this).2

theorem good_empty : Good L D.empty := ⟨L.wf_empty, by rw [L.ents_empty]; simp⟩

theorem findFrom_spec {b : D.B} (h : L.wf b) (k : K) : ∀ (fuel pos : Nat),
    (L.ents b).length < fuel + pos →
    (∀ i, findFrom D b k fuel pos = some i → ∃ v, (L.ents b)[i]? = some (k, v)) ∧
    (findFrom D b k fuel pos = none → ∀ (i : Nat) (e : K × V), pos ≤ i → (L.ents b)[i]? = some e → e.1 ≠ k) := by
  intro fuel
  induction fuel with
  | zero =>
    intro pos hp
    refine ⟨by simp [findFrom], ?_⟩
    intro _ i e hi he
    have := (List.getElem?_eq_some_iff.1 he).1
    omega
  | succ fuel ih =>
    intro pos hp
    simp only [findFrom]
    by_cases hv : D.valid b pos = true
    · have hlt := (L.valid h pos).1 hv
      have hg := L.get h (List.getElem?_eq_getElem hlt)
      rw [if_pos hv]
      by_cases hk : D.key b pos = k
      · rw [if_pos hk]
        refine ⟨?_, by simp⟩
        intro i hi
        obtain rfl := Option.some.inj hi
        refine ⟨(L.ents b)[pos].2, ?_⟩
        rw [List.getElem?_eq_getElem hlt, ← hk, hg.1]
      · rw [if_neg hk]
        have := ih (pos + 1) (by omega)
        refine ⟨this.1, ?_⟩
        intro hn i e hi he
        by_cases hip : i = pos
        · subst hip
          rw [List.getElem?_eq_getElem hlt, Option.some.injEq] at he
          rw [← he, ← hg.1]; exact hk
        · exact this.2 hn i e (by omega) he
    · rw [if_neg hv]
      refine ⟨by simp, ?_⟩
      intro _ i e hi he
      have h1 := (List.getElem?_eq_some_iff.1 he).1
      have : ¬ pos < (L.ents b).length := fun h2 => hv ((L.valid h pos).2 h2)
      omega

theorem bucketFind_spec {b : D.B} (h : L.wf b) (k : K) :
    (∀ i, bucketFind D b k = some i → ∃ v, (L.ents b)[i]? = some (k, v)) ∧
    (bucketFind D b k = none → ∀ e ∈ L.ents b, e.1 ≠ k) := by
  have hl := L.len h
  have := findFrom_spec h k (D.lim + 1) 0 (by omega)
  refine ⟨this.1, ?_⟩
  intro hn e he
  obtain ⟨i, hi⟩ := List.mem_iff_getElem?.1 he
  exact this.2 hn i e (Nat.zero_le _) hi

/-- The belief after some removals. -/
def without (m : Map K V) (ev : List (K × V)) : Map K V :=
  fun k => if k ∈ ev.map Prod.fst then none else m k

theorem reports_removals {m : Map K V} {ev : List (K × V)} (x : K × V → Ctx)
    (hn : (ev.map Prod.fst).Nodup) (hm : ∀ e ∈ ev, m e.1 = some e.2) :
    Reports m (ev.map fun e => .removed e.1 e.2 (x e)) (without m ev) := by
  induction ev generalizing m with
  | nil => exact .nil m
  | cons e ev ih =>
    rw [List.map_cons, List.nodup_cons] at hn
    rw [List.map_cons]
    refine .removed (hm e (by simp)) ?_
    have := ih (m := learn m e.1 none) hn.2 (by
      intro e' he'
      have hne : e'.1 ≠ e.1 := fun hc => hn.1 (by rw [← hc]; exact List.mem_map.2 ⟨e', he', rfl⟩)
      simp only [learn, hne, if_false]; exact hm e' (by simp [he']))
    have hw : without (learn m e.1 none) ev = without m (e :: ev) := by
      funext k
      simp only [without, learn, List.map_cons, List.mem_cons]
      grind
    rw [hw] at this; exact this

theorem Reports.append {m m1 m2 : Map K V} {es fs : List (Ev K V)} (h1 : Reports m es m1)
    (h2 : Reports m1 fs m2) : Reports m (es ++ fs) m2 := by
  induction h1 with
  | nil => exact h2
  | removed h _ ih => exact .removed h (ih h2)
  | replaced h _ ih => exact .replaced h (ih h2)

/-- Effect of storing an entry in a bucket all of whose entries are live. -/
theorem bucketSet_spec {b : D.B} (hb : Good L b) (validCb : K → Bool) {k : K} {v : V} (hok : L.ok k v)
    {m : Map K V} (hm : ∀ e ∈ L.ents b, m e.1 = some e.2) :
    ∃ ev : List (K × V), ∃ m1 : Map K V,
      let r := bucketSet D validCb b k v
      Reports m r.2.2 m1 ∧ Good L r.2.1 ∧
      (∀ k' v', (k', v') ∈ L.ents r.2.1 ↔
        (k' = k ∧ v' = v) ∨ (k' ≠ k ∧ (k', v') ∈ L.ents b ∧ k' ∉ ev.map Prod.fst)) ∧
      (∀ e ∈ ev, e ∈ L.ents b ∧ e.1 ≠ k) ∧
      (∀ k', k' ≠ k → m1 k' = if k' ∈ ev.map Prod.fst then none else m k') ∧
      ((∀ w, (k, w) ∉ L.ents b) → m1 k = m k ∧ r.1 = .notFound ∧ r.2.2 = ev.map (onEvicted validCb)) ∧
      (∀ w, (k, w) ∈ L.ents b → m1 k = some v ∧ r.1 = .found ∧
        r.2.2 = .replaced k w v :: ev.map (onEvicted validCb)) := by
  have hf := bucketFind_spec hb.wf k
  cases hfind : bucketFind D b k with
  | none =>
    have hnone := hf.2 hfind
    obtain ⟨q, h1, h2, h3, h4⟩ := L.insert hb.wf hok
    have hsplit := List.take_append_drop q (L.ents b)
    have hnd := hb.nd
    rw [← hsplit, List.map_append, List.nodup_append] at hnd
    obtain ⟨nd1, nd2, nd3⟩ := hnd
    refine ⟨((L.ents b).drop q).reverse, without m ((L.ents b).drop q).reverse, ?_⟩
    simp only [bucketSet, hfind]
    rw [if_neg h1]
    dsimp only
    have hmem : ∀ e, e ∈ L.ents b ↔ e ∈ (L.ents b).take q ∨ e ∈ (L.ents b).drop q := by
      intro e; conv => lhs; rw [← hsplit, List.mem_append]
    refine ⟨?_, ⟨h2, ?_⟩, ?_, ?_, ?_, ?_, ?_⟩
    · rw [h4]
      refine reports_removals (fun e => if validCb e.1 then .eviction else .normal) ?_ ?_
      · rw [List.map_reverse]; exact List.nodup_reverse.2 nd2
      · intro e he; exact hm e ((hmem e).2 (Or.inr (List.mem_reverse.1 he)))
    · rw [h3, List.map_cons, List.nodup_cons]
      refine ⟨?_, nd1⟩
      intro hk
      obtain ⟨e, he, hek⟩ := List.mem_map.1 hk
      exact hnone e ((hmem e).2 (Or.inl he)) hek
    · intro k' v'
      rw [h3, List.mem_cons, Prod.mk.injEq]
      constructor
      · rintro (h | h)
        · exact Or.inl h
        · have hb' := (hmem _).2 (Or.inl h)
          refine Or.inr ⟨hnone _ hb', hb', ?_⟩
          intro hc
          rw [List.map_reverse, List.mem_reverse] at hc
          exact nd3 k' (List.mem_map.2 ⟨_, h, rfl⟩) k' hc rfl
      · rintro (h | ⟨_, h, hn⟩)
        · exact Or.inl h
        · rcases (hmem _).1 h with h | h
          · exact Or.inr h
          · exfalso; apply hn
            rw [List.map_reverse, List.mem_reverse]
            exact List.mem_map.2 ⟨_, h, rfl⟩
    · intro e he
      have := (hmem e).2 (Or.inr (List.mem_reverse.1 he))
      exact ⟨this, hnone e this⟩
    · intro k' _; rfl
    · intro _
      refine ⟨?_, rfl, by rw [h4]⟩
      simp only [without]
      rw [if_neg]
      intro hc
      obtain ⟨e, he, hek⟩ := List.mem_map.1 hc
      exact hnone e ((hmem e).2 (Or.inr (List.mem_reverse.1 he))) hek
    · intro w hw
      exact absurd rfl (hnone _ hw)
  | some pos =>
    obtain ⟨w, hw⟩ := hf.1 pos hfind
    obtain ⟨h1, keep, h2, h3⟩ := L.update hb.wf hw hok
    have hlt : pos < (L.ents b).length := (List.getElem?_eq_some_iff.1 hw).1
    have hel : (L.ents b)[pos] = (k, w) := (List.getElem?_eq_some_iff.1 hw).2
    have hperm : (L.ents b).Perm ((k, w) :: (keep ++ (D.update b pos v).2)) := by
      have h4 : (L.ents b).Perm ((L.ents b)[pos] :: (L.ents b).eraseIdx pos) := by
        rw [List.eraseIdx_eq_take_drop_succ]
        conv => lhs; rw [← List.take_append_drop pos (L.ents b), List.drop_eq_getElem_cons hlt]
        exact List.perm_middle
      rw [hel] at h4
      exact h4.trans (h3.cons _)
    have hnd : (((k, w) :: (keep ++ (D.update b pos v).2)).map Prod.fst).Nodup :=
      (hperm.map Prod.fst).nodup_iff.1 hb.nd
    rw [List.map_cons, List.map_append, List.nodup_cons, List.nodup_append] at hnd
    obtain ⟨nk, nd1, nd2, nd3⟩ := hnd
    rw [List.mem_append, not_or] at nk
    have hmem : ∀ e, e ∈ L.ents b ↔ e = (k, w) ∨ e ∈ keep ∨ e ∈ (D.update b pos v).2 := by
      intro e; rw [hperm.mem_iff]; simp
    have hval := (L.get hb.wf hw).2
    refine ⟨(D.update b pos v).2, without (learn m k (some v)) (D.update b pos v).2, ?_⟩
    simp only [bucketSet, hfind, hval]
    refine ⟨?_, ⟨h1, ?_⟩, ?_, ?_, ?_, ?_, ?_⟩
    · refine .replaced (hm _ ((hmem _).2 (Or.inl rfl))) ?_
      refine reports_removals (fun e => if validCb e.1 then .eviction else .normal) nd2 ?_
      intro e he
      have hne : e.1 ≠ k := fun hc => nk.2 (by rw [← hc]; exact List.mem_map.2 ⟨e, he, rfl⟩)
      simp only [learn, hne, if_false]
      exact hm e ((hmem e).2 (Or.inr (Or.inr he)))
    · refine (h2.map Prod.fst).nodup_iff.2 ?_
      rw [List.map_cons, List.nodup_cons]
      exact ⟨nk.1, nd1⟩
    · intro k' v'
      rw [h2.mem_iff, List.mem_cons, Prod.mk.injEq]
      constructor
      · rintro (h | h)
        · exact Or.inl h
        · refine Or.inr ⟨?_, (hmem _).2 (Or.inr (Or.inl h)), ?_⟩
          · intro hc
            exact nk.1 (by rw [← hc]; exact List.mem_map.2 ⟨_, h, rfl⟩)
          · intro hc
            exact nd3 k' (List.mem_map.2 ⟨_, h, rfl⟩) k' hc rfl
      · rintro (h | ⟨h0, h, hn⟩)
        · exact Or.inl h
        · rcases (hmem _).1 h with h | h | h
          · exact absurd (Prod.mk.inj h).1 h0
          · exact Or.inr h
          · exact absurd (List.mem_map.2 ⟨_, h, rfl⟩) hn
    · intro e he
      exact ⟨(hmem e).2 (Or.inr (Or.inr he)), fun hc => nk.2 (by rw [← hc]; exact List.mem_map.2 ⟨e, he, rfl⟩)⟩
    · intro k' hk'
      simp only [without, learn, hk', if_false]
    · intro hn
      exact absurd ((hmem _).2 (Or.inl rfl)) (hn w)
    · intro w' hw'
      have : w' = w := hb.uniq hw' ((hmem _).2 (Or.inl rfl))
      subst this
      refine ⟨?_, by trivial, by trivial⟩
      simp only [without, nk.2, if_false, learn, if_true]

/-- Effect of removing an entry. -/
theorem bucketDel_spec {b : D.B} (hb : Good L b) (k : K) :
    Good L (bucketDel D b k).2.1 ∧
    (∀ k' v', (k', v') ∈ L.ents (bucketDel D b k).2.1 ↔ k' ≠ k ∧ (k', v') ∈ L.ents b) ∧
    ((∀ w, (k, w) ∉ L.ents b) → (bucketDel D b k).1 = .notFound ∧ (bucketDel D b k).2.2.1 = none ∧
      (bucketDel D b k).2.2.2 = []) ∧
    (∀ w, (k, w) ∈ L.ents b → (bucketDel D b k).1 = .found ∧ (bucketDel D b k).2.2.1 = some w ∧
      (bucketDel D b k).2.2.2 = [.removed k w .normal]) := by
  have hf := bucketFind_spec hb.wf k
  cases hfind : bucketFind D b k with
  | none =>
    have hnone := hf.2 hfind
    simp only [bucketDel, hfind]
    refine ⟨hb, ?_, ?_, ?_⟩
    · intro k' v'
      constructor
      · intro h; exact ⟨hnone _ h, h⟩
      · exact fun h => h.2
    · intro _; exact ⟨by trivial, by trivial, by trivial⟩
    · intro w hw; exact absurd rfl (hnone _ hw)
  | some pos =>
    obtain ⟨w, hw⟩ := hf.1 pos hfind
    have hlt : pos < (L.ents b).length := (List.getElem?_eq_some_iff.1 hw).1
    have hel : (L.ents b)[pos] = (k, w) := (List.getElem?_eq_some_iff.1 hw).2
    obtain ⟨h1, h2⟩ := L.del hb.wf hlt
    have hval := (L.get hb.wf hw).2
    have hperm : (L.ents b).Perm ((k, w) :: (L.ents b).eraseIdx pos) := by
      rw [← hel, List.eraseIdx_eq_take_drop_succ]
      conv => lhs; rw [← List.take_append_drop pos (L.ents b), List.drop_eq_getElem_cons hlt]
      exact List.perm_middle
    have hnd : (((k, w) :: (L.ents b).eraseIdx pos).map Prod.fst).Nodup :=
      (hperm.map Prod.fst).nodup_iff.1 hb.nd
    rw [List.map_cons, List.nodup_cons] at hnd
    simp only [bucketDel, hfind, hval]
    refine ⟨⟨h1, by rw [h2]; exact hnd.2⟩, ?_, ?_, ?_⟩
    · intro k' v'
      rw [h2, hperm.mem_iff, List.mem_cons, Prod.mk.injEq]
      constructor
      · intro h
        refine ⟨?_, Or.inr h⟩
        intro hc
        exact hnd.1 (by rw [← hc]; exact List.mem_map.2 ⟨_, h, rfl⟩)
      · rintro ⟨h0, h | h⟩
        · exact absurd h.1 h0
        · exact h
    · intro hn; exact absurd (List.mem_of_getElem? hw) (hn w)
    · intro w' hw'
      have : w' = w := hb.uniq hw' (List.mem_of_getElem? hw)
      subst this
      exact ⟨by trivial, by trivial, by trivial⟩

theorem bucketGet_spec {b : D.B} (hb : Good L b) (k : K) (p : Bool) :
    ((∀ w, (k, w) ∉ L.ents b) → bucketGet D b k p = none) ∧
    (∀ w, (k, w) ∈ L.ents b → ∃ q, bucketGet D b k p = some (w, q)) := by
  have hf := bucketFind_spec hb.wf k
  cases hfind : bucketFind D b k with
  | none =>
    have hnone := hf.2 hfind
    simp only [bucketGet, hfind]
    exact ⟨fun _ => by trivial, fun w hw => absurd rfl (hnone _ hw)⟩
  | some pos =>
    obtain ⟨w, hw⟩ := hf.1 pos hfind
    have hval := (L.get hb.wf hw).2
    simp only [bucketGet, hfind, hval]
    refine ⟨fun hn => absurd (List.mem_of_getElem? hw) (hn w), ?_⟩
    intro w' hw'
    have : w' = w := hb.uniq hw' (List.mem_of_getElem? hw)
    subst this
    exact ⟨_, rfl⟩

theorem bucketPromote_spec {b : D.B} (hb : Good L b) (k : K) :
    Good L (bucketPromote D b k) ∧ ∀ e, e ∈ L.ents (bucketPromote D b k) ↔ e ∈ L.ents b := by
  have hf := bucketFind_spec hb.wf k
  simp only [bucketPromote]
  cases hfind : bucketFind D b k with
  | none => exact ⟨hb, fun _ => Iff.rfl⟩
  | some pos =>
    dsimp only
    split
    · obtain ⟨w, hw⟩ := hf.1 pos hfind
      have hlt : pos < (L.ents b).length := (List.getElem?_eq_some_iff.1 hw).1
      have hel : (L.ents b)[pos] = (k, w) := (List.getElem?_eq_some_iff.1 hw).2
      obtain ⟨h1, h2⟩ := L.promote hb.wf hw
      have hperm : (L.ents b).Perm ((k, w) :: (L.ents b).eraseIdx pos) := by
        rw [← hel, List.eraseIdx_eq_take_drop_succ]
        conv => lhs; rw [← List.take_append_drop pos (L.ents b), List.drop_eq_getElem_cons hlt]
        exact List.perm_middle
      refine ⟨⟨h1, ?_⟩, ?_⟩
      · rw [h2]; exact (hperm.map Prod.fst).nodup_iff.1 hb.nd
      · intro e; rw [h2, hperm.mem_iff]
    · exact ⟨hb, fun _ => Iff.rfl⟩

/-- One bucket of a purge, from position `pos`. -/
theorem purgeFrom_spec (f : K → V → Purge) : ∀ (fuel pos : Nat) (b : D.B), Good L b →
    (L.ents b).length < fuel + pos →
    (∀ (i : Nat) (e : K × V), i < pos → (L.ents b)[i]? = some e → f e.1 e.2 = .skip) →
    ∃ rem : List (K × V),
      let r := purgeFrom D f fuel pos b
      r.2.2 = rem.map (fun e => .removed e.1 e.2 .normal) ∧ Good L r.2.1 ∧
      (L.ents b).Perm (L.ents r.2.1 ++ rem) ∧ (∀ e ∈ rem, f e.1 e.2 = .purge) ∧
      (r.1 = true → ∀ e ∈ L.ents r.2.1, f e.1 e.2 = .skip) ∧
      (r.1 = false → ∃ e ∈ L.ents r.2.1, f e.1 e.2 = .abort) := by
  intro fuel
  induction fuel with
  | zero =>
    intro pos b hb hl hs
    refine ⟨[], rfl, hb, by simp [purgeFrom], by simp, ?_, by simp [purgeFrom]⟩
    intro _ e he
    obtain ⟨i, hi⟩ := List.mem_iff_getElem?.1 he
    exact hs i e (by have := (List.getElem?_eq_some_iff.1 hi).1; simp only [purgeFrom] at this; omega) hi
  | succ fuel ih =>
    intro pos b hb hl hs
    simp only [purgeFrom]
    by_cases hv : D.valid b pos = true
    · rw [if_pos hv]
      have hlt := (L.valid hb.wf pos).1 hv
      have hg := L.get hb.wf (List.getElem?_eq_getElem hlt)
      rw [hg.1, hg.2]
      have hmem : (L.ents b)[pos] ∈ L.ents b := List.getElem_mem hlt
      cases hf : f (L.ents b)[pos].1 (L.ents b)[pos].2 with
      | abort =>
        exact ⟨[], rfl, hb, by simp, by simp, by simp, fun _ => ⟨_, hmem, hf⟩⟩
      | skip =>
        refine ih (pos + 1) b hb (by omega) ?_
        intro i e hi he
        by_cases hip : i = pos
        · subst hip
          rw [List.getElem?_eq_getElem hlt, Option.some.injEq] at he
          rw [← he]; exact hf
        · exact hs i e (by omega) he
      | purge =>
        obtain ⟨h1, h2⟩ := L.del hb.wf hlt
        have hperm : (L.ents b).Perm ((L.ents b)[pos] :: (L.ents b).eraseIdx pos) := by
          rw [List.eraseIdx_eq_take_drop_succ]
          conv => lhs; rw [← List.take_append_drop pos (L.ents b), List.drop_eq_getElem_cons hlt]
          exact List.perm_middle
        have hnd := (hperm.map Prod.fst).nodup_iff.1 hb.nd
        rw [List.map_cons, List.nodup_cons] at hnd
        have hb' : Good L (D.del b pos) := ⟨h1, by rw [h2]; exact hnd.2⟩
        have hlen : (L.ents (D.del b pos)).length = (L.ents b).length - 1 := by
          rw [h2]; exact List.length_eraseIdx_of_lt hlt
        obtain ⟨rem, r1, r2, r3, r4, r5, r6⟩ := ih pos (D.del b pos) hb' (by omega) (by
          intro i e hi he
          rw [h2, List.getElem?_eraseIdx, if_pos hi] at he
          exact hs i e hi he)
        refine ⟨(L.ents b)[pos] :: rem, ?_, r2, ?_, ?_, r5, r6⟩
        · dsimp only; rw [r1]; rfl
        · rw [h2] at r3
          exact (hperm.trans (r3.cons _)).trans List.perm_middle.symm
        · intro e he
          rcases List.mem_cons.1 he with rfl | he
          · exact hf
          · exact r4 e he
    · rw [if_neg hv]
      refine ⟨[], rfl, hb, by simp, by simp, ?_, by simp⟩
      intro _ e he
      obtain ⟨i, hi⟩ := List.mem_iff_getElem?.1 he
      have h1 := (List.getElem?_eq_some_iff.1 hi).1
      have : ¬ pos < (L.ents b).length := fun h2 => hv ((L.valid hb.wf pos).2 h2)
      exact hs i e (by dsimp only at h1; omega) hi

end Verif.CCache
