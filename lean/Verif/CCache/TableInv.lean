import Verif.CCache.TableLemmas

/-! Requests of the compact cache: the whole table. -/
namespace Verif.CCache
open Spec

variable {K V : Type} [DecidableEq K] {D : Desc K V} (L : Laws D) (P : Place K)

/-- Consistent hashing for up to `N` chunks, as far as the table relies on it (C34). -/
structure Place.Ok (P : Place K) (N : Nat) : Prop where
  bpc : 0 < P.bpc
  range : ∀ n k, 0 < n → P.chunk n k < n
  grow : ∀ a b k, 0 < a → a ≤ b → b ≤ N → P.chunk b k = P.chunk a k ∨ a ≤ P.chunk b k

/-- The table holds the contents `m`. -/
structure TInv (t : Tab D) (m : Map K V) : Prop where
  good : ∀ n i, Good L (t.bkt n i)
  place : ∀ n i, n < t.num → ∀ e ∈ L.ents (t.bkt n i), P.chunk t.num e.1 = n ∧ P.idx e.1 % P.bpc = i
  cont : ∀ k v, m k = some v ↔
    t.num ≠ 0 ∧ (k, v) ∈ L.ents (t.bkt (P.chunk t.num k) (P.idx k % P.bpc))

variable {L P} {N : Nat}

theorem setB_same (t : Nat → Nat → D.B) (n i : Nat) (b : D.B) : setB D t n i b n i = b := by
  simp [setB]

theorem setB_ne (t : Nat → Nat → D.B) {n i n' i' : Nat} (b : D.B) (h : ¬ (n' = n ∧ i' = i)) :
    setB D t n i b n' i' = t n' i' := by
  simp only [setB]; rw [if_neg h]

theorem init_inv (n : Nat) : TInv L P (init D n) (fun _ => none) := by
  refine ⟨fun _ _ => good_empty, ?_, ?_⟩
  · intro n i _ e he
    have : L.ents (D.empty) = [] := L.ents_empty
    simp only [init] at he
    rw [this] at he; cases he
  · intro k v
    simp only [init]
    rw [L.ents_empty]; simp

theorem TInv.none_iff {t : Tab D} {m : Map K V} (h : TInv L P t m) (h0 : t.num ≠ 0) (k : K) :
    m k = none ↔ ∀ w, (k, w) ∉ L.ents (t.bkt (P.chunk t.num k) (P.idx k % P.bpc)) := by
  constructor
  · intro hm w hw
    have := (h.cont k w).2 ⟨h0, hw⟩
    rw [hm] at this; cases this
  · intro hn
    cases hm : m k with
    | none => rfl
    | some v => exact absurd ((h.cont k v).1 hm).2 (hn v)

theorem TInv.live {t : Tab D} {m : Map K V} (h : TInv L P t m) (h0 : t.num ≠ 0) {n i : Nat}
    (hn : n < t.num) : ∀ e ∈ L.ents (t.bkt n i), m e.1 = some e.2 := by
  intro e he
  have := h.place n i hn e he
  exact (h.cont e.1 e.2).2 ⟨h0, by rw [this.1, this.2]; exact he⟩

/-- Replace one bucket: the contents change as described for its keys. -/
theorem TInv.update {t : Tab D} {m m' : Map K V} (h : TInv L P t m) (h0 : t.num ≠ 0) {n i : Nat}
    {b : D.B} (hb : Good L b)
    (hpl : ∀ e ∈ L.ents b, P.chunk t.num e.1 = n ∧ P.idx e.1 % P.bpc = i)
    (hin : ∀ k v, P.chunk t.num k = n → P.idx k % P.bpc = i → (m' k = some v ↔ (k, v) ∈ L.ents b))
    (hout : ∀ k, ¬ (P.chunk t.num k = n ∧ P.idx k % P.bpc = i) → m' k = m k) :
    TInv L P { t with bkt := setB D t.bkt n i b } m' := by
  refine ⟨?_, ?_, ?_⟩
  · intro n' i'
    by_cases hc : n' = n ∧ i' = i
    · obtain ⟨rfl, rfl⟩ := hc; dsimp only; rw [setB_same]; exact hb
    · dsimp only; rw [setB_ne _ _ hc]; exact h.good n' i'
  · intro n' i' hn' e he
    dsimp only at hn' he ⊢
    by_cases hc : n' = n ∧ i' = i
    · obtain ⟨rfl, rfl⟩ := hc; rw [setB_same] at he; exact hpl e he
    · rw [setB_ne _ _ hc] at he; exact h.place n' i' hn' e he
  · intro k v
    dsimp only
    by_cases hc : P.chunk t.num k = n ∧ P.idx k % P.bpc = i
    · rw [hin k v hc.1 hc.2, hc.1, hc.2, setB_same]; simp [h0]
    · rw [hout k hc, setB_ne _ _ hc]; exact h.cont k v

theorem step_set (hP : P.Ok N) (validCb : K → Bool) (promos : Bool) {t : Tab D} {m : Map K V}
    (h : TInv L P t m) {k : K} {v : V} (hok : L.ok k v) :
    ∃ m', Behaves t.num m (.set k v) (step D validCb P promos t (.set k v)).2
        (step D validCb P promos t (.set k v)).1.num m' ∧
      TInv L P (step D validCb P promos t (.set k v)).1 m' := by
  by_cases h0 : t.num = 0
  · refine ⟨m, ?_⟩
    simp only [step, h0, if_true, Behaves]
    exact ⟨by simp, h⟩
  · have hn : P.chunk t.num k < t.num := hP.range _ _ (by omega)
    obtain ⟨ev, m1, h1, h2, h3, h4, h5, h6, h7⟩ := bucketSet_spec (h.good (P.chunk t.num k) (P.idx k % P.bpc))
      validCb hok (h.live h0 hn)
    refine ⟨learn m1 k (some v), ?_⟩
    simp only [step, h0, if_false, Behaves]
    refine ⟨⟨trivial, ev.map (onEvicted validCb), m1, h1, rfl, ?_, ?_⟩, ?_⟩
    · intro e he
      obtain ⟨x, _, rfl⟩ := List.mem_map.1 he
      trivial
    · cases hm : m k with
      | none =>
        have := h6 ((h.none_iff h0 k).1 hm)
        exact ⟨this.2.1, this.2.2⟩
      | some old =>
        have := h7 old ((h.cont k old).1 hm).2
        exact ⟨this.2.1, this.2.2⟩
    · have hev : ∀ k', k' ∈ ev.map Prod.fst → P.chunk t.num k' = P.chunk t.num k ∧
          P.idx k' % P.bpc = P.idx k % P.bpc := by
        intro k' hk'
        obtain ⟨e, he, rfl⟩ := List.mem_map.1 hk'
        exact h.place _ _ hn e (h4 e he).1
      refine h.update h0 h2 ?_ ?_ ?_
      · rintro ⟨k', v'⟩ he
        rcases (h3 k' v').1 he with ⟨rfl, _⟩ | ⟨_, he', _⟩
        · exact ⟨rfl, rfl⟩
        · exact h.place _ _ hn _ he'
      · intro k' v' hc1 hc2
        rw [h3]
        by_cases hk : k' = k
        · subst hk; simp [learn, eq_comm]
        · simp only [learn, hk, if_false, false_and, false_or, true_and]
          rw [h5 k' hk]
          have := h.cont k' v'
          rw [hc1, hc2] at this
          by_cases he : k' ∈ ev.map Prod.fst
          · simp [he, hk]
          · simp [he, this, h0, hk]
      · intro k' hc
        have hk : k' ≠ k := fun e => hc (by rw [e]; exact ⟨rfl, rfl⟩)
        simp only [learn, hk, if_false]
        rw [h5 k' hk, if_neg (fun he => hc (hev k' he))]

theorem step_get (hP : P.Ok N) (validCb : K → Bool) (promos : Bool) {t : Tab D} {m : Map K V}
    (h : TInv L P t m) {k : K} {p : Bool} :
    ∃ m', Behaves t.num m (.get k p) (step D validCb P promos t (.get k p)).2
        (step D validCb P promos t (.get k p)).1.num m' ∧
      TInv L P (step D validCb P promos t (.get k p)).1 m' := by
  by_cases h0 : t.num = 0
  · refine ⟨m, ?_⟩
    simp only [step, h0, if_true, Behaves]
    exact ⟨by simp, h⟩
  · have hn : P.chunk t.num k < t.num := hP.range _ _ (by omega)
    have hg := bucketGet_spec (h.good (P.chunk t.num k) (P.idx k % P.bpc)) k p
    refine ⟨m, ?_⟩
    simp only [step, h0, if_false, Behaves]
    cases hm : m k with
    | none =>
      rw [hg.1 ((h.none_iff h0 k).1 hm)]
      exact ⟨by simp, h⟩
    | some w =>
      obtain ⟨q, hq⟩ := hg.2 w ((h.cont k w).1 hm).2
      rw [hq]
      dsimp only
      refine ⟨⟨?_, by trivial, by trivial, by trivial, by trivial⟩, ?_⟩
      · split <;> rfl
      · split
        · obtain ⟨g1, g2⟩ := bucketPromote_spec (h.good (P.chunk t.num k) (P.idx k % P.bpc)) k
          refine h.update h0 g1 ?_ ?_ ?_
          · intro e he; exact h.place _ _ hn e ((g2 e).1 he)
          · intro k' v' hc1 hc2
            rw [g2]
            have := h.cont k' v'
            rw [hc1, hc2] at this
            simp [this, h0]
          · intro _ _; rfl
        · exact h

theorem step_exist (validCb : K → Bool) (promos : Bool) {t : Tab D} {m : Map K V}
    (h : TInv L P t m) {k : K} :
    ∃ m', Behaves t.num m (.exist k) (step D validCb P promos t (.exist k)).2
        (step D validCb P promos t (.exist k)).1.num m' ∧
      TInv L P (step D validCb P promos t (.exist k)).1 m' := by
  by_cases h0 : t.num = 0
  · refine ⟨m, ?_⟩
    simp only [step, h0, if_true, Behaves]
    exact ⟨by simp, h⟩
  · have hg := bucketGet_spec (h.good (P.chunk t.num k) (P.idx k % P.bpc)) k false
    refine ⟨m, ?_⟩
    simp only [step, h0, if_false, Behaves]
    cases hm : m k with
    | none =>
      rw [hg.1 ((h.none_iff h0 k).1 hm)]
      exact ⟨by simp, h⟩
    | some w =>
      obtain ⟨q, hq⟩ := hg.2 w ((h.cont k w).1 hm).2
      rw [hq]
      exact ⟨by simp, h⟩

theorem step_del (hP : P.Ok N) (validCb : K → Bool) (promos : Bool) {t : Tab D} {m : Map K V}
    (h : TInv L P t m) {k : K} :
    ∃ m', Behaves t.num m (.del k) (step D validCb P promos t (.del k)).2
        (step D validCb P promos t (.del k)).1.num m' ∧
      TInv L P (step D validCb P promos t (.del k)).1 m' := by
  by_cases h0 : t.num = 0
  · refine ⟨m, ?_⟩
    simp only [step, h0, if_true, Behaves]
    exact ⟨by simp, h⟩
  · have hn : P.chunk t.num k < t.num := hP.range _ _ (by omega)
    obtain ⟨g1, g2, g3, g4⟩ := bucketDel_spec (h.good (P.chunk t.num k) (P.idx k % P.bpc)) k
    refine ⟨learn m k none, ?_⟩
    simp only [step, h0, if_false, Behaves]
    refine ⟨⟨trivial, by trivial, ?_⟩, ?_⟩
    · cases hm : m k with
      | none =>
        have := g3 ((h.none_iff h0 k).1 hm)
        exact ⟨this.2.1, this.1, this.2.2⟩
      | some w =>
        have := g4 w ((h.cont k w).1 hm).2
        exact ⟨this.2.1, this.1, this.2.2⟩
    · refine h.update h0 g1 ?_ ?_ ?_
      · rintro ⟨k', v'⟩ he; exact h.place _ _ hn _ ((g2 k' v').1 he).2
      · intro k' v' hc1 hc2
        rw [g2]
        have := h.cont k' v'
        rw [hc1, hc2] at this
        by_cases hk : k' = k
        · simp [learn, hk]
        · simp [learn, hk, this, h0]
      · intro k' hc
        have hk : k' ≠ k := fun e => hc (by rw [e]; exact ⟨rfl, rfl⟩)
        simp [learn, hk]

theorem mem_coords {n bpc : Nat} {c : Nat × Nat} : c ∈ coords n bpc ↔ c.1 < n ∧ c.2 < bpc := by
  obtain ⟨a, b⟩ := c
  simp only [coords, List.mem_flatMap, List.mem_range, List.mem_map, Prod.mk.injEq]
  constructor
  · rintro ⟨x, hx, y, hy, rfl, rfl⟩; exact ⟨hx, hy⟩
  · rintro ⟨h1, h2⟩; exact ⟨a, h1, b, h2, rfl, rfl⟩

theorem purgeAll_spec (f : K → V → Purge) : ∀ (cs : List (Nat × Nat)) (t : Tab D) (m : Map K V),
    TInv L P t m → (∀ c ∈ cs, c.1 < t.num) →
    ∃ m', let r := purgeAll D f cs t.bkt
      TInv L P { t with bkt := r.2.1 } m' ∧ Reports m r.2.2 m' ∧
      (∀ e ∈ r.2.2, ∃ k v, e = .removed k v .normal ∧ f k v = .purge) ∧
      (∀ k v, m' k = some v → m k = some v) ∧
      (r.1 = true → ∀ k v, m' k = some v → (P.chunk t.num k, P.idx k % P.bpc) ∈ cs → f k v = .skip) ∧
      (r.1 = false → ∃ k v, m k = some v ∧ f k v = .abort) := by
  intro cs
  induction cs with
  | nil =>
    intro t m h _
    refine ⟨m, h, .nil m, ?_, fun _ _ hh => hh, ?_, ?_⟩
    · intro e he; cases he
    · intro _ k v _ hc; cases hc
    · intro hc; cases hc
  | cons c cs ih =>
    obtain ⟨n, i⟩ := c
    intro t m h hcs
    have hn : n < t.num := hcs (n, i) (by simp)
    have h0 : t.num ≠ 0 := by omega
    have hgood := h.good n i
    obtain ⟨rem, r1, r2, r3, r4, r5, r6⟩ := purgeFrom_spec f (D.lim + 1) 0 (t.bkt n i) hgood
      (by have := L.len hgood.wf; omega) (by intro i e hi; omega)
    have hnd : ((L.ents (purgeFrom D f (D.lim + 1) 0 (t.bkt n i)).2.1 ++ rem).map Prod.fst).Nodup :=
      (r3.map Prod.fst).nodup_iff.1 hgood.nd
    rw [List.map_append, List.nodup_append] at hnd
    obtain ⟨nd1, nd2, nd3⟩ := hnd
    have hlive := h.live h0 hn (i := i)
    have hrep : Reports m (purgeFrom D f (D.lim + 1) 0 (t.bkt n i)).2.2 (without m rem) := by
      rw [r1]
      exact reports_removals (fun _ => .normal) nd2 (fun e he => hlive e (r3.mem_iff.2 (by simp [he])))
    have hinv : TInv L P { t with bkt := setB D t.bkt n i (purgeFrom D f (D.lim + 1) 0 (t.bkt n i)).2.1 }
        (without m rem) := by
      refine h.update h0 r2 ?_ ?_ ?_
      · intro e he; exact h.place n i hn e (r3.mem_iff.2 (by simp [he]))
      · intro k v hc1 hc2
        have := h.cont k v
        rw [hc1, hc2, r3.mem_iff, List.mem_append] at this
        simp only [without]
        by_cases hk : k ∈ rem.map Prod.fst
        · rw [if_pos hk]
          constructor
          · intro hc; cases hc
          · intro he; exact absurd rfl (nd3 k (List.mem_map.2 ⟨_, he, rfl⟩) k hk)
        · rw [if_neg hk, this]
          constructor
          · rintro ⟨_, he | he⟩
            · exact he
            · exact absurd (List.mem_map.2 ⟨_, he, rfl⟩) hk
          · intro he; exact ⟨h0, Or.inl he⟩
      · intro k hc
        simp only [without]
        rw [if_neg]
        intro hk
        obtain ⟨e, he, rfl⟩ := List.mem_map.1 hk
        exact hc (h.place n i hn e (r3.mem_iff.2 (by simp [he])))
    have hsub : ∀ k v, without m rem k = some v → m k = some v := by
      intro k v hk
      simp only [without] at hk
      split at hk
      · cases hk
      · exact hk
    simp only [purgeAll]
    cases hr : (purgeFrom D f (D.lim + 1) 0 (t.bkt n i)).1 with
    | true =>
      simp only [if_true]
      obtain ⟨m', g1, g2, g3, g4, g5, g6⟩ := ih _ (without m rem) hinv
        (fun c hc => hcs c (by simp [hc]))
      refine ⟨m', g1, Reports.append hrep g2, ?_, fun k v hk => hsub k v (g4 k v hk), ?_, ?_⟩
      · intro e he
        rcases List.mem_append.1 he with he | he
        · rw [r1] at he
          obtain ⟨x, hx, rfl⟩ := List.mem_map.1 he
          exact ⟨x.1, x.2, rfl, r4 x hx⟩
        · exact g3 e he
      · intro hr' k v hk hc
        rcases List.mem_cons.1 hc with hc | hc
        · have hw := (hinv.cont k v).1 (g4 k v hk)
          obtain ⟨e1, e2⟩ := Prod.mk.inj hc
          dsimp only at hw
          rw [e1, e2, setB_same] at hw
          exact r5 hr (k, v) hw.2
        · exact g5 hr' k v hk hc
      · intro hr'
        obtain ⟨k, v, hk, hf⟩ := g6 hr'
        exact ⟨k, v, hsub k v hk, hf⟩
    | false =>
      simp only [Bool.false_eq_true, if_false]
      refine ⟨without m rem, hinv, hrep, ?_, hsub, by simp, ?_⟩
      · intro e he
        rw [r1] at he
        obtain ⟨x, hx, rfl⟩ := List.mem_map.1 he
        exact ⟨x.1, x.2, rfl, r4 x hx⟩
      · intro _
        obtain ⟨e, he, hf⟩ := r6 hr
        exact ⟨e.1, e.2, hlive e (r3.mem_iff.2 (by simp [he])), hf⟩

theorem step_purge (hP : P.Ok N) (validCb : K → Bool) (promos : Bool) {t : Tab D} {m : Map K V}
    (h : TInv L P t m) {f : K → V → Purge} :
    ∃ m', Behaves t.num m (.purge f) (step D validCb P promos t (.purge f)).2
        (step D validCb P promos t (.purge f)).1.num m' ∧
      TInv L P (step D validCb P promos t (.purge f)).1 m' := by
  obtain ⟨m', g1, g2, g3, g4, g5, g6⟩ := purgeAll_spec f (coords t.num P.bpc) t m h
    (fun c hc => (mem_coords.1 hc).1)
  refine ⟨m', ?_⟩
  simp only [step, Behaves]
  refine ⟨⟨trivial, g2, g3, ?_, ?_⟩, g1⟩
  · intro hr k v hk
    have hr' : (purgeAll D f (coords t.num P.bpc) t.bkt).1 = true := by
      cases hh : (purgeAll D f (coords t.num P.bpc) t.bkt).1 with
      | true => rfl
      | false => rw [hh] at hr; simp at hr
    have h0 := ((g1.cont k v).1 hk).1
    dsimp only at h0
    exact g5 hr' k v hk (mem_coords.2 ⟨hP.range _ _ (by omega), Nat.mod_lt _ hP.bpc⟩)
  · intro hr
    refine g6 ?_
    cases hh : (purgeAll D f (coords t.num P.bpc) t.bkt).1 with
    | true => rw [hh] at hr; simp at hr
    | false => rfl

end Verif.CCache
