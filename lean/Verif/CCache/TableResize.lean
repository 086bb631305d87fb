import Verif.CCache.TableInv

/-! Resizing the compact cache. -/
namespace Verif.CCache
open Spec

variable {K V : Type} [DecidableEq K] {D : Desc K V} (L : Laws D) (P : Place K)

/-- During the `COPY` pass from `old` to `new` chunks: `O` is what was cached before, `m` what is cached
now, `done` the keys whose old copy has been processed. -/
structure CInv (old new : Nat) (O : Map K V) (t : Nat → Nat → D.B) (done : K → Prop) (m : Map K V) :
    Prop where
  good : ∀ n i, Good L (t n i)
  place : ∀ n i, n < old ∨ n < new → ∀ e ∈ L.ents (t n i),
    P.idx e.1 % P.bpc = i ∧ (P.chunk old e.1 = n ∨ P.chunk new e.1 = n)
  src : ∀ k v, P.chunk new k ≠ P.chunk old k →
    (O k = some v ↔ (k, v) ∈ L.ents (t (P.chunk old k) (P.idx k % P.bpc)))
  stay : ∀ k v, P.chunk new k = P.chunk old k →
    (m k = some v ↔ (k, v) ∈ L.ents (t (P.chunk old k) (P.idx k % P.bpc)))
  dst : ∀ k v, P.chunk new k ≠ P.chunk old k →
    ((k, v) ∈ L.ents (t (P.chunk new k) (P.idx k % P.bpc)) ↔ done k ∧ m k = some v)
  wait : ∀ k, P.chunk new k ≠ P.chunk old k → ¬ done k → m k = O k
  sub : ∀ k v, m k = some v → O k = some v
  kept : old ≤ new → ∀ k, P.chunk new k = P.chunk old k → m k = O k

variable {L P} {N : Nat}

/-- No bucket is both where an entry moves from and where an entry moves to. -/
theorem dest_not_source (hP : P.Ok N) {old new : Nat} (ho : 0 < old) (hn : 0 < new) (hoN : old ≤ N) (hnN : new ≤ N)
    {k k' : K}
    (h : P.chunk new k ≠ P.chunk old k) (h' : P.chunk new k' ≠ P.chunk old k') :
    P.chunk new k ≠ P.chunk old k' := by
  have a1 := hP.range new k hn
  have a2 := hP.range old k' ho
  rcases Nat.le_total old new with hle | hle
  · have := hP.grow old new k ho hle hnN
    omega
  · have := hP.grow new old k' hn hle hoN
    omega

theorem CInv.congr {old new : Nat} {O m : Map K V} {t : Nat → Nat → D.B} {done done' : K → Prop}
    (h : CInv L P old new O t done m) (hd : ∀ k, O k ≠ none → P.chunk new k ≠ P.chunk old k → (done k ↔ done' k)) :
    CInv L P old new O t done' m := by
  have key : ∀ k v, P.chunk new k ≠ P.chunk old k → m k = some v → (done k ↔ done' k) := by
    intro k v hk hm
    exact hd k (by rw [h.sub k v hm]; simp) hk
  refine ⟨h.good, h.place, h.src, h.stay, ?_, ?_, h.sub, h.kept⟩
  · intro k v hk
    rw [h.dst k v hk]
    constructor
    · rintro ⟨h1, h2⟩; exact ⟨(key k v hk h2).1 h1, h2⟩
    · rintro ⟨h1, h2⟩; exact ⟨(key k v hk h2).2 h1, h2⟩
  · intro k hk hnd
    cases hO : O k with
    | none =>
      cases hm : m k with
      | none => rfl
      | some v => have := h.sub k v hm; rw [hO] at this; exact this.symm
    | some w =>
      rw [← hO]
      exact h.wait k hk (fun hc => hnd ((hd k (by rw [hO]; simp) hk).1 hc))

/-- Move one entry. -/
theorem CInv.move (hP : P.Ok N) {old new : Nat} (ho : 0 < old) (hnw : 0 < new) (hoN : old ≤ N) (hnN : new ≤ N)
    {O m : Map K V}
    {t : Nat → Nat → D.B} {done : K → Prop} (h : CInv L P old new O t done m) (validCb : K → Bool)
    {k : K} {v : V} (hmv : P.chunk new k ≠ P.chunk old k) (hnd : ¬ done k) (hO : O k = some v)
    (hok : L.ok k v) :
    ∃ m1, let r := bucketSet D validCb (t (P.chunk new k) (P.idx k % P.bpc)) k v
      CInv L P old new O (setB D t (P.chunk new k) (P.idx k % P.bpc) r.2.1)
        (fun k' => done k' ∨ k' = k) m1 ∧ Reports m r.2.2 m1 ∧ ∀ e ∈ r.2.2, IsRemoval e := by
  obtain ⟨n', hn'⟩ : ∃ n', n' = P.chunk new k := ⟨_, rfl⟩
  obtain ⟨i, hi⟩ : ∃ i, i = P.idx k % P.bpc := ⟨_, rfl⟩
  have hlt : n' < new := by rw [hn']; exact hP.range _ _ hnw
  have hds : ∀ k', P.chunk new k' ≠ P.chunk old k' → P.chunk old k' ≠ n' := by
    intro k' hk'; rw [hn']; exact (dest_not_source hP ho hnw hoN hnN hmv hk').symm
  -- all entries of the destination are live, and belong there
  have hpl : ∀ e ∈ L.ents (t n' i), P.idx e.1 % P.bpc = i ∧ P.chunk new e.1 = n' := by
    intro e he
    obtain ⟨a, b⟩ := h.place n' i (Or.inr hlt) e he
    refine ⟨a, ?_⟩
    rcases b with b | b
    · by_cases hc : P.chunk new e.1 = P.chunk old e.1
      · rw [hc, b]
      · exact absurd b (hds _ hc)
    · exact b
  have hlive : ∀ e ∈ L.ents (t n' i), m e.1 = some e.2 := by
    intro e he
    obtain ⟨a, b⟩ := hpl e he
    by_cases hc : P.chunk new e.1 = P.chunk old e.1
    · exact (h.stay e.1 e.2 hc).2 (by rw [← hc, a, b]; exact he)
    · exact ((h.dst e.1 e.2 hc).1 (by rw [a, b]; exact he)).2
  have hnot : ∀ w, (k, w) ∉ L.ents (t n' i) := by
    intro w hw
    rw [hn', hi] at hw
    exact hnd ((h.dst k w hmv).1 hw).1
  have hmk : m k = some v := by rw [h.wait k hmv hnd, hO]
  obtain ⟨ev, m1, g1, g2, g3, g4, g5, g6, -⟩ := bucketSet_spec (h.good n' i) validCb hok hlive
  obtain ⟨g6a, -, g6c⟩ := g6 hnot
  have hevk : ∀ k', k' ∈ ev.map Prod.fst → k' ≠ k ∧ P.idx k' % P.bpc = i ∧ P.chunk new k' = n' := by
    intro k' hk'
    obtain ⟨e, he, rfl⟩ := List.mem_map.1 hk'
    have := g4 e he
    exact ⟨this.2, hpl e this.1⟩
  have hsub1 : ∀ k' v', m1 k' = some v' → m k' = some v' := by
    intro k' v' hk'
    by_cases hkk : k' = k
    · rw [hkk, g6a] at hk'; rw [hkk]; exact hk'
    · rw [g5 k' hkk] at hk'
      split at hk'
      · cases hk'
      · exact hk'
  rw [← hn', ← hi]
  refine ⟨m1, ⟨?_, ?_, ?_, ?_, ?_, ?_, ?_, ?_⟩, g1, ?_⟩
  · intro a b
    by_cases hc : a = n' ∧ b = i
    · obtain ⟨rfl, rfl⟩ := hc; rw [setB_same]; exact g2
    · rw [setB_ne _ _ hc]; exact h.good a b
  · intro a b hab e he
    by_cases hc : a = n' ∧ b = i
    · obtain ⟨rfl, rfl⟩ := hc
      rw [setB_same] at he
      rcases (g3 e.1 e.2).1 he with ⟨h1, _⟩ | ⟨_, h1, _⟩
      · rw [h1]; exact ⟨hi.symm, Or.inr hn'.symm⟩
      · have := hpl e h1; exact ⟨this.1, Or.inr this.2⟩
    · rw [setB_ne _ _ hc] at he; exact h.place a b hab e he
  · intro k' v' hk'
    rw [setB_ne _ _ (fun hc => hds k' hk' hc.1)]
    exact h.src k' v' hk'
  · intro k' v' hk'
    have hkk : k' ≠ k := fun hc => hmv (by rw [← hc]; exact hk')
    by_cases hc : P.chunk old k' = n' ∧ P.idx k' % P.bpc = i
    · rw [hc.1, hc.2, setB_same, g3, g5 k' hkk]
      have := h.stay k' v' hk'
      rw [hc.1, hc.2] at this
      by_cases he : k' ∈ ev.map Prod.fst
      · rw [if_pos he]; constructor
        · intro hx; cases hx
        · rintro (hx | hx)
          · exact absurd hx.1 hkk
          · exact absurd he hx.2.2
      · rw [if_neg he, this]
        constructor
        · intro hx; exact Or.inr ⟨hkk, hx, he⟩
        · rintro (hx | hx)
          · exact absurd hx.1 hkk
          · exact hx.2.1
    · rw [setB_ne _ _ hc, g5 k' hkk, if_neg]
      · exact h.stay k' v' hk'
      · intro he
        obtain ⟨_, e1, e2⟩ := hevk k' he
        exact hc ⟨by rw [← hk', e2], e1⟩
  · intro k' v' hk'
    by_cases hkk : k' = k
    · subst hkk
      rw [← hn', ← hi, setB_same, g3, g6a, hmk]
      simp [eq_comm]
    · by_cases hc : P.chunk new k' = n' ∧ P.idx k' % P.bpc = i
      · rw [hc.1, hc.2, setB_same, g3, g5 k' hkk]
        have := h.dst k' v' hk'
        rw [hc.1, hc.2] at this
        by_cases he : k' ∈ ev.map Prod.fst
        · simp [he, hkk]
        · simp [he, hkk, this]
      · rw [setB_ne _ _ hc, g5 k' hkk, if_neg, h.dst k' v' hk']
        · simp [hkk]
        · intro he
          obtain ⟨_, e1, e2⟩ := hevk k' he
          exact hc ⟨e2, e1⟩
  · intro k' hk' hnd'
    rw [not_or] at hnd'
    rw [g5 k' hnd'.2, if_neg]
    · exact h.wait k' hk' hnd'.1
    · intro he
      obtain ⟨e, he', rfl⟩ := List.mem_map.1 he
      have h1 := (g4 e he').1
      obtain ⟨a, b⟩ := hpl e h1
      exact hnd'.1 ((h.dst e.1 e.2 hk').1 (by rw [a, b]; exact h1)).1
  · intro k' v' hk'; exact h.sub k' v' (hsub1 k' v' hk')
  · intro hle k' hk'
    have hkk : k' ≠ k := fun hc => hmv (by rw [← hc]; exact hk')
    rw [g5 k' hkk, if_neg]
    · exact h.kept hle k' hk'
    · intro he
      obtain ⟨_, _, e2⟩ := hevk k' he
      have h1 := hP.range old k' ho
      have h2 := hP.grow old new k ho hle hnN
      omega
  · rw [g6c]
    intro e he
    obtain ⟨x, _, rfl⟩ := List.mem_map.1 he
    trivial

/-- Drop one entry instead of moving it. -/
theorem CInv.drop {old new : Nat} {O m : Map K V}
    {t : Nat → Nat → D.B} {done : K → Prop} (h : CInv L P old new O t done m)
    {k : K} {v : V} (hmv : P.chunk new k ≠ P.chunk old k) (hnd : ¬ done k) (hO : O k = some v) :
    CInv L P old new O t (fun k' => done k' ∨ k' = k) (learn m k none) ∧ m k = some v := by
  have hmk : m k = some v := by rw [h.wait k hmv hnd, hO]
  refine ⟨⟨h.good, h.place, h.src, ?_, ?_, ?_, ?_, ?_⟩, hmk⟩
  · intro k' v' hk'
    have hkk : k' ≠ k := fun hc => hmv (by rw [← hc]; exact hk')
    simp only [learn, hkk, if_false]; exact h.stay k' v' hk'
  · intro k' v' hk'
    rw [h.dst k' v' hk']
    by_cases hkk : k' = k
    · subst hkk; simp [learn, hnd]
    · simp [learn, hkk]
  · intro k' hk' hnd'
    rw [not_or] at hnd'
    simp only [learn, hnd'.2, if_false]; exact h.wait k' hk' hnd'.1
  · intro k' v' hk'
    simp only [learn] at hk'
    split at hk'
    · cases hk'
    · exact h.sub k' v' hk'
  · intro hle k' hk'
    have hkk : k' ≠ k := fun hc => hmv (by rw [← hc]; exact hk')
    simp only [learn, hkk, if_false]; exact h.kept hle k' hk'

theorem copyFrom_spec (hP : P.Ok N) {old new : Nat} (ho : 0 < old) (hnw : 0 < new) (hoN : old ≤ N) (hnN : new ≤ N)
    {O : Map K V}
    (validCb : K → Bool) {n i : Nat} (hn : n < old) (mx : Nat) :
    ∀ (fuel pos moved : Nat) (t : Nat → Nat → D.B) (done : K → Prop) (m : Map K V),
    CInv L P old new O t done m →
    (L.ents (t n i)).length < fuel + pos →
    (∀ (j : Nat) (e : K × V), pos ≤ j → (L.ents (t n i))[j]? = some e →
      P.chunk old e.1 = n → ¬ done e.1) →
    (∀ (j : Nat) (e : K × V), j < pos → (L.ents (t n i))[j]? = some e →
      P.chunk old e.1 = n → P.chunk new e.1 ≠ n → done e.1) →
    ∃ m', let r := copyFrom D validCb P new n i mx fuel pos moved t
      CInv L P old new O r.1 (fun k => done k ∨ (P.chunk old k = n ∧ P.idx k % P.bpc = i)) m' ∧
      Reports m r.2 m' ∧ ∀ e ∈ r.2, IsRemoval e := by
  intro fuel
  induction fuel with
  | zero =>
    intro pos moved t done m h hl h1 h2
    refine ⟨m, h.congr ?_, .nil m, by intro e he; cases he⟩
    intro k hO hk
    constructor
    · exact Or.inl
    · rintro (hd | ⟨a, b⟩)
      · exact hd
      · cases hv : O k with
        | none => exact absurd hv hO
        | some v =>
          have := (h.src k v hk).1 hv
          rw [a, b] at this
          obtain ⟨j, hj⟩ := List.mem_iff_getElem?.1 this
          exact h2 j _ (by have := (List.getElem?_eq_some_iff.1 hj).1; omega) hj a (by rw [← a]; exact hk)
  | succ fuel ih =>
    intro pos moved t done m h hl h1 h2
    have hgood := h.good n i
    simp only [copyFrom]
    by_cases hv : D.valid (t n i) pos = true
    · rw [if_pos hv]
      have hlt := (L.valid hgood.wf pos).1 hv
      have hel : (L.ents (t n i))[pos]? = some (L.ents (t n i))[pos] := List.getElem?_eq_getElem hlt
      have hg := L.get hgood.wf hel
      rw [hg.1, hg.2]
      have hmem : (L.ents (t n i))[pos] ∈ L.ents (t n i) := List.getElem_mem hlt
      obtain ⟨⟨k, v⟩, hkv⟩ : ∃ e, e = (L.ents (t n i))[pos] := ⟨_, rfl⟩
      rw [← hkv] at hel hmem ⊢
      dsimp only
      obtain ⟨hidx, hch⟩ := h.place n i (Or.inl hn) _ hmem
      dsimp only at hidx hch
      by_cases hst : P.chunk new k = n
      · rw [if_pos hst]
        refine ih (pos + 1) moved t done m h (by omega) ?_ ?_
        · intro j e hj he; exact h1 j e (by omega) he
        · intro j e hj he a b
          by_cases hjp : j = pos
          · subst hjp; rw [hel] at he; cases he; exact absurd hst b
          · exact h2 j e (by omega) he a b
      · rw [if_neg hst]
        have hold : P.chunk old k = n := by
          rcases hch with hc | hc
          · exact hc
          · exact absurd hc hst
        have hmv : P.chunk new k ≠ P.chunk old k := by rw [hold]; exact hst
        have hnd : ¬ done k := h1 pos _ (Nat.le_refl _) hel hold
        have hO : O k = some v := (h.src k v hmv).2 (by rw [hold, hidx]; exact hmem)
        -- the rest of the bucket
        have rest : ∀ (t' : Nat → Nat → D.B) (m1 : Map K V) (mv' : Nat) (es : List (Ev K V)),
            CInv L P old new O t' (fun k' => done k' ∨ k' = k) m1 → t' n i = t n i → Reports m es m1 →
            (∀ e ∈ es, IsRemoval e) →
            ∃ m', CInv L P old new O (copyFrom D validCb P new n i mx fuel (pos + 1) mv' t').1
                (fun k => done k ∨ (P.chunk old k = n ∧ P.idx k % P.bpc = i)) m' ∧
              Reports m (es ++ (copyFrom D validCb P new n i mx fuel (pos + 1) mv' t').2) m' ∧
              ∀ e ∈ es ++ (copyFrom D validCb P new n i mx fuel (pos + 1) mv' t').2, IsRemoval e := by
          intro t' m1 mv' es c1 c2 c3 c4
          obtain ⟨m', d1, d2, d3⟩ := ih (pos + 1) mv' t' _ m1 c1 (by rw [c2]; omega) (by
              intro j e hj he a
              rw [c2] at he
              rw [not_or]
              refine ⟨h1 j e (by omega) he a, ?_⟩
              intro hc
              have hx : (k, e.2) ∈ L.ents (t n i) := by
                have := List.mem_of_getElem? he
                rw [← hc]; exact this
              have hnodup := hgood.nd
              have e1 : ((L.ents (t n i)).map Prod.fst)[j]? = some k := by
                rw [List.getElem?_map, he, ← hc]; rfl
              have e2 : ((L.ents (t n i)).map Prod.fst)[pos]? = some k := by
                rw [List.getElem?_map, hel]; rfl
              have hlt' : pos < ((L.ents (t n i)).map Prod.fst).length := by simpa using hlt
              have := (List.getElem?_inj hlt' hnodup).1 (e2.trans e1.symm)
              omega) (by
              intro j e hj he a b
              rw [c2] at he
              by_cases hjp : j = pos
              · subst hjp; rw [hel] at he; cases he; exact Or.inr rfl
              · exact Or.inl (h2 j e (by omega) he a b))
          refine ⟨m', d1.congr ?_, Reports.append c3 d2, ?_⟩
          · intro k' _ _
            constructor
            · rintro ((a | a) | a)
              · exact Or.inl a
              · subst a; exact Or.inr ⟨hold, hidx⟩
              · exact Or.inr a
            · rintro (a | a)
              · exact Or.inl (Or.inl a)
              · exact Or.inr a
          · intro e he
            rcases List.mem_append.1 he with he | he
            · exact c4 e he
            · exact d3 e he
        by_cases hcb : validCb k = true ∧ moved < mx
        · rw [if_pos hcb]
          obtain ⟨m1, g1, g2, g3⟩ := h.move hP ho hnw hoN hnN validCb hmv hnd hO (L.ok_mem hgood.wf hmem)
          rw [hidx] at g1 g2 g3
          refine rest _ m1 _ _ g1 ?_ g2 g3
          rw [setB_ne]
          exact fun hc => hst hc.1.symm
        · rw [if_neg hcb]
          obtain ⟨g1, g2⟩ := h.drop hmv hnd hO
          exact rest t _ moved [.removed k v (if validCb k then .eviction else .normal)] g1 rfl
            (.removed g2 (.nil _)) (by intro e he; cases List.mem_singleton.1 he; trivial)
    · rw [if_neg hv]
      refine ⟨m, h.congr ?_, .nil m, by intro e he; cases he⟩
      intro k hO hk
      constructor
      · exact Or.inl
      · rintro (hd | ⟨a, b⟩)
        · exact hd
        · cases hv' : O k with
          | none => exact absurd hv' hO
          | some v =>
            have := (h.src k v hk).1 hv'
            rw [a, b] at this
            obtain ⟨j, hj⟩ := List.mem_iff_getElem?.1 this
            have hlt : ¬ pos < (L.ents (t n i)).length := fun h2 => hv ((L.valid hgood.wf pos).2 h2)
            exact h2 j _ (by have := (List.getElem?_eq_some_iff.1 hj).1; omega) hj a (by rw [← a]; exact hk)

theorem rehashCopy_spec (hP : P.Ok N) {old new : Nat} (ho : 0 < old) (hnw : 0 < new) (hoN : old ≤ N) (hnN : new ≤ N)
    {O : Map K V}
    (validCb : K → Bool) : ∀ (cs : List (Nat × Nat)) (t : Nat → Nat → D.B) (done : K → Prop) (m : Map K V),
    CInv L P old new O t done m → (∀ c ∈ cs, c.1 < old) → cs.Nodup →
    (∀ k, (P.chunk old k, P.idx k % P.bpc) ∈ cs → ¬ done k) →
    ∃ m', let r := rehashCopy D validCb P old new cs t
      CInv L P old new O r.1 (fun k => done k ∨ (P.chunk old k, P.idx k % P.bpc) ∈ cs) m' ∧
      Reports m r.2 m' ∧ ∀ e ∈ r.2, IsRemoval e := by
  intro cs
  induction cs with
  | nil =>
    intro t done m h _ _ _
    exact ⟨m, h.congr (by intro k _ _; simp), .nil m, by intro e he; cases he⟩
  | cons c cs ih =>
    obtain ⟨n, i⟩ := c
    intro t done m h hcs hnd hdone
    have hn : n < old := hcs (n, i) (by simp)
    rw [List.nodup_cons] at hnd
    simp only [rehashCopy]
    obtain ⟨m1, a1, a2, a3⟩ := copyFrom_spec hP ho hnw hoN hnN validCb (i := i) hn
      (maxMove old new (D.capacity (t n i))) (D.lim + 1) 0 0 t done m h
      (by have := L.len (h.good n i).wf; omega)
      (by
        intro j e _ he a
        have b := (h.place n i (Or.inl hn) e (List.mem_of_getElem? he)).1
        exact hdone e.1 (by rw [a, b]; simp))
      (by intro j e hj; omega)
    obtain ⟨m', b1, b2, b3⟩ := ih _ _ m1 a1 (fun c hc => hcs c (by simp [hc])) hnd.2 (by
      intro k hk
      rw [not_or]
      refine ⟨hdone k (by simp [hk]), ?_⟩
      rintro ⟨e1, e2⟩
      rw [e1, e2] at hk
      exact hnd.1 hk)
    refine ⟨m', b1.congr ?_, Reports.append a2 b2, ?_⟩
    · intro k _ _
      simp only [List.mem_cons, Prod.mk.injEq, or_assoc]
    · intro e he
      rcases List.mem_append.1 he with he | he
      · exact a3 e he
      · exact b3 e he

/-- Deleting the old copies in one bucket, from position `pos`. -/
theorem purgeMoved_spec (new n : Nat) : ∀ (fuel pos : Nat) (b : D.B), Good L b →
    (L.ents b).length < fuel + pos →
    (∀ (i : Nat) (e : K × V), i < pos → (L.ents b)[i]? = some e → P.chunk new e.1 = n) →
    Good L (purgeMoved D P new n fuel pos b) ∧
    ∀ e, e ∈ L.ents (purgeMoved D P new n fuel pos b) ↔ e ∈ L.ents b ∧ P.chunk new e.1 = n := by
  intro fuel
  induction fuel with
  | zero =>
    intro pos b hb hl hs
    refine ⟨hb, fun e => ⟨fun he => ⟨he, ?_⟩, fun he => he.1⟩⟩
    obtain ⟨i, hi⟩ := List.mem_iff_getElem?.1 he
    exact hs i e (by have := (List.getElem?_eq_some_iff.1 hi).1; simp only [purgeMoved] at this; omega) hi
  | succ fuel ih =>
    intro pos b hb hl hs
    simp only [purgeMoved]
    by_cases hv : D.valid b pos = true
    · rw [if_pos hv]
      have hlt := (L.valid hb.wf pos).1 hv
      have hg := L.get hb.wf (List.getElem?_eq_getElem hlt)
      rw [hg.1]
      by_cases hc : P.chunk new (L.ents b)[pos].1 = n
      · rw [if_pos hc]
        refine ih (pos + 1) b hb (by omega) ?_
        intro i e hi he
        by_cases hip : i = pos
        · subst hip
          rw [List.getElem?_eq_getElem hlt, Option.some.injEq] at he
          rw [← he]; exact hc
        · exact hs i e (by omega) he
      · rw [if_neg hc]
        obtain ⟨h1, h2⟩ := L.del hb.wf hlt
        have hperm : (L.ents b).Perm ((L.ents b)[pos] :: (L.ents b).eraseIdx pos) := by
          rw [List.eraseIdx_eq_take_drop_succ]
          conv => lhs; rw [← List.take_append_drop pos (L.ents b), List.drop_eq_getElem_cons hlt]
          exact List.perm_middle
        have hnd := (hperm.map Prod.fst).nodup_iff.1 hb.nd
        rw [List.map_cons, List.nodup_cons] at hnd
        have hlen : (L.ents (D.del b pos)).length = (L.ents b).length - 1 := by
          rw [h2]; exact List.length_eraseIdx_of_lt hlt
        obtain ⟨r1, r2⟩ := ih pos (D.del b pos) ⟨h1, by rw [h2]; exact hnd.2⟩ (by omega) (by
          intro i e hi he
          rw [h2, List.getElem?_eraseIdx, if_pos hi] at he
          exact hs i e hi he)
        refine ⟨r1, fun e => ?_⟩
        rw [r2, h2, hperm.mem_iff, List.mem_cons]
        constructor
        · rintro ⟨a, b⟩; exact ⟨Or.inr a, b⟩
        · rintro ⟨a | a, b⟩
          · rw [a] at b; exact absurd b hc
          · exact ⟨a, b⟩
    · rw [if_neg hv]
      refine ⟨hb, fun e => ⟨fun he => ⟨he, ?_⟩, fun he => he.1⟩⟩
      obtain ⟨i, hi⟩ := List.mem_iff_getElem?.1 he
      have h1 := (List.getElem?_eq_some_iff.1 hi).1
      have : ¬ pos < (L.ents b).length := fun h2 => hv ((L.valid hb.wf pos).2 h2)
      exact hs i e (by omega) hi

theorem rehashDelete_spec (new : Nat) : ∀ (cs : List (Nat × Nat)) (t : Nat → Nat → D.B),
    (∀ n i, Good L (t n i)) →
    (∀ n i, Good L (rehashDelete D P new cs t n i)) ∧
    ∀ n i e, e ∈ L.ents (rehashDelete D P new cs t n i) ↔
      e ∈ L.ents (t n i) ∧ ((n, i) ∈ cs → P.chunk new e.1 = n) := by
  intro cs
  induction cs with
  | nil => intro t h; exact ⟨h, fun n i e => by simp [rehashDelete]⟩
  | cons c cs ih =>
    obtain ⟨n, i⟩ := c
    intro t h
    simp only [rehashDelete]
    obtain ⟨g1, g2⟩ := purgeMoved_spec (P := P) new n (D.lim + 1) 0 (t n i) (h n i)
      (by have := L.len (h n i).wf; omega) (by intro j e hj; omega)
    obtain ⟨a1, a2⟩ := ih (setB D t n i (purgeMoved D P new n (D.lim + 1) 0 (t n i))) (by
      intro n' i'
      by_cases hc : n' = n ∧ i' = i
      · obtain ⟨rfl, rfl⟩ := hc; rw [setB_same]; exact g1
      · rw [setB_ne _ _ hc]; exact h n' i')
    refine ⟨a1, fun n' i' e => ?_⟩
    rw [a2]
    by_cases hc : n' = n ∧ i' = i
    · obtain ⟨rfl, rfl⟩ := hc
      rw [setB_same, g2]
      simp only [List.mem_cons, true_or, true_implies]
      constructor
      · exact fun hh => hh.1
      · exact fun hh => ⟨hh, fun _ => hh.2⟩
    · rw [setB_ne _ _ hc]
      simp only [List.mem_cons, Prod.mk.injEq, hc, false_or]

theorem nodup_coords (n bpc : Nat) : (coords n bpc).Nodup := by
  unfold coords
  rw [List.nodup_flatMap]
  constructor
  · intro ch _
    refine List.Nodup.map ?_ List.nodup_range
    intro a b hab; exact (Prod.mk.inj hab).2
  · refine List.Pairwise.imp ?_ (List.nodup_range (n := n))
    intro a b hab
    simp only [Function.onFun]
    intro x h1 h2
    obtain ⟨y, _, e1⟩ := List.mem_map.1 h1
    obtain ⟨z, _, e2⟩ := List.mem_map.1 h2
    exact hab (Prod.mk.inj (e1.trans e2.symm)).1

theorem step_resize (hP : P.Ok N) (validCb : K → Bool) (promos : Bool) {t : Tab D} {m : Map K V}
    (h : TInv L P t m) (htN : t.num ≤ N) {n : Nat} (hnN : n ≤ N) :
    ∃ m', Behaves t.num m (.resize n) (step D validCb P promos t (.resize n)).2
        (step D validCb P promos t (.resize n)).1.num m' ∧
      TInv L P (step D validCb P promos t (.resize n)).1 m' ∧
      (t.num ≤ n → ∀ k, P.chunk n k = P.chunk t.num k → m' k = m k) := by
  simp only [step, resizeTo]
  by_cases heq : t.num = n
  · refine ⟨m, ?_⟩
    rw [if_pos heq]
    refine ⟨⟨heq, ?_⟩, h, fun _ _ _ => rfl⟩
    have hc : ¬ (n = 0 ∧ t.num ≠ 0) := by omega
    rw [if_neg hc]
    exact ⟨.nil m, by intro e he; cases he⟩
  · rw [if_neg heq]
    obtain ⟨bk, hbk⟩ : ∃ bk, bk = if n > t.num then freshChunks D t.num t.bkt else t.bkt := ⟨_, rfl⟩
    rw [← hbk]
    have hold : ∀ a i, a < t.num → bk a i = t.bkt a i := by
      intro a i ha
      rw [hbk]; split
      · simp only [freshChunks, ha, if_true]
      · rfl
    have hnew : ∀ a i, t.num ≤ a → a < n → bk a i = D.empty := by
      intro a i ha hb
      rw [hbk, if_pos (by omega)]
      simp only [freshChunks]
      rw [if_neg (by omega)]
    have hgood : ∀ a i, Good L (bk a i) := by
      intro a i
      rw [hbk]; split
      · simp only [freshChunks]; split
        · exact h.good a i
        · exact good_empty
      · exact h.good a i
    by_cases hpos : n > 0 ∧ t.num > 0
    · rw [if_pos hpos]
      have h0 : t.num ≠ 0 := by omega
      have hr : ∀ k, P.chunk t.num k < t.num := fun k => hP.range _ k hpos.2
      have hrn : ∀ k, P.chunk n k < n := fun k => hP.range _ k hpos.1
      have hc0 : CInv L P t.num n m bk (fun _ => False) m := by
        have hall : ∀ k v, m k = some v ↔ (k, v) ∈ L.ents (bk (P.chunk t.num k) (P.idx k % P.bpc)) := by
          intro k v
          rw [hold _ _ (hr k), h.cont k v]; simp [h0]
        refine ⟨hgood, ?_, fun k v _ => hall k v, fun k v _ => hall k v, ?_, fun _ _ _ => rfl,
          fun _ _ hh => hh, fun _ _ _ => rfl⟩
        · intro a i ha e he
          by_cases hlt : a < t.num
          · rw [hold a i hlt] at he
            have := h.place a i hlt e he
            exact ⟨this.2, Or.inl this.1⟩
          · rw [hnew a i (by omega) (by omega), L.ents_empty] at he; cases he
        · intro k v hk
          constructor
          · intro he
            exfalso
            by_cases hlt : P.chunk n k < t.num
            · rw [hold _ _ hlt] at he
              exact hk (h.place _ _ hlt _ he).1.symm
            · rw [hnew _ _ (by omega) (hrn k), L.ents_empty] at he; cases he
          · rintro ⟨hf, _⟩; cases hf
      obtain ⟨m', g1, g2, g3⟩ := rehashCopy_spec hP hpos.2 hpos.1 htN hnN validCb (coords t.num P.bpc) bk _ m hc0
        (fun c hc => (mem_coords.1 hc).1) (nodup_coords _ _) (fun _ _ hf => hf)
      obtain ⟨d1, d2⟩ := rehashDelete_spec (P := P) n (coords t.num P.bpc)
        (rehashCopy D validCb P t.num n (coords t.num P.bpc) bk).1 g1.good
      refine ⟨m', ⟨rfl, ?_⟩, ⟨d1, ?_, ?_⟩, fun hle k hk => g1.kept hle k hk⟩
      · rw [if_neg (by omega)]; exact ⟨g2, g3⟩
      · intro a i ha e he
        dsimp only at ha he ⊢
        rw [d2] at he
        obtain ⟨p1, p2⟩ := g1.place a i (Or.inr ha) e he.1
        refine ⟨?_, p1⟩
        by_cases hlt : a < t.num
        · refine he.2 (mem_coords.2 ⟨hlt, ?_⟩)
          rw [← p1]; exact Nat.mod_lt _ hP.bpc
        · rcases p2 with p2 | p2
          · have := hr e.1; omega
          · exact p2
      · intro k v
        dsimp only
        rw [d2]
        simp only [implies_true, and_true, ne_eq]
        by_cases hk : P.chunk n k = P.chunk t.num k
        · rw [g1.stay k v hk, hk]
          constructor
          · intro hh; exact ⟨by omega, hh⟩
          · exact fun hh => hh.2
        · rw [g1.dst k v hk]
          have hmem : (P.chunk t.num k, P.idx k % P.bpc) ∈ coords t.num P.bpc :=
            mem_coords.2 ⟨hr k, Nat.mod_lt _ hP.bpc⟩
          simp only [hmem, or_true, true_and]
          constructor
          · intro hh; exact ⟨by omega, hh⟩
          · exact fun hh => hh.2
    · rw [if_neg hpos]
      by_cases hn0 : n = 0
      · refine ⟨fun _ => none, ⟨rfl, ?_⟩, ⟨hgood, ?_, ?_⟩, ?_⟩
        · rw [if_pos ⟨hn0, by omega⟩]; exact ⟨rfl, fun _ => rfl⟩
        · intro a i ha; dsimp only at ha; omega
        · intro k v; dsimp only; simp [hn0]
        · intro hle; omega
      · have ht0 : t.num = 0 := by omega
        have hm : ∀ k, m k = none := by
          intro k
          cases hv : m k with
          | none => rfl
          | some v => exact absurd ht0 ((h.cont k v).1 hv).1
        refine ⟨m, ⟨rfl, ?_⟩, ⟨hgood, ?_, ?_⟩, fun _ _ _ => rfl⟩
        · rw [if_neg (by omega)]; exact ⟨.nil m, by intro e he; cases he⟩
        · intro a i ha e he
          dsimp only at ha he
          rw [hnew a i (by omega) ha, L.ents_empty] at he; cases he
        · intro k v
          dsimp only
          rw [hm k, hnew _ _ (by omega) (hP.range n k (by omega)), L.ents_empty]
          simp

/-- The requests a theorem about a whole history covers: what is stored fits the bucket, and the cache
is never resized to more than `N` chunks. -/
def Storable {D : Desc K V} (L : Laws D) (N : Nat) : Op K V → Prop
  | .set k v => L.ok k v
  | .resize n => n ≤ N
  | _ => True

theorem step_behaves (hP : P.Ok N) (validCb : K → Bool) (promos : Bool) {t : Tab D} {m : Map K V}
    (h : TInv L P t m) (htN : t.num ≤ N) {op : Op K V} (hs : Storable L N op) :
    ∃ m', Behaves t.num m op (step D validCb P promos t op).2
        (step D validCb P promos t op).1.num m' ∧
      TInv L P (step D validCb P promos t op).1 m' ∧ (step D validCb P promos t op).1.num ≤ N := by
  suffices hx : ∃ m', Behaves t.num m op (step D validCb P promos t op).2
        (step D validCb P promos t op).1.num m' ∧
      TInv L P (step D validCb P promos t op).1 m' by
    obtain ⟨m', a, b⟩ := hx
    refine ⟨m', a, b, ?_⟩
    cases op <;> first
      | (have := a.1; omega)
      | (have := a.1; simp only [Storable] at hs; omega)
  cases op with
  | set k v => exact step_set hP validCb promos h hs
  | get k p => exact step_get hP validCb promos h
  | exist k => exact step_exist validCb promos h
  | del k => exact step_del hP validCb promos h
  | purge f => exact step_purge hP validCb promos h
  | resize n =>
    obtain ⟨m', a, b, _⟩ := step_resize hP validCb promos h htN (n := n) hs
    exact ⟨m', a, b⟩

/-- Run a list of requests, recording the results. -/
def run (D : Desc K V) (validCb : K → Bool) (P : Place K) (promos : Bool) :
    Tab D → List (Op K V) → Tab D × List (Op K V × Out K V)
  | t, [] => (t, [])
  | t, op :: ops =>
    let r := step D validCb P promos t op
    let r' := run D validCb P promos r.1 ops
    (r'.1, (op, r.2) :: r'.2)

theorem run_history (hP : P.Ok N) (validCb : K → Bool) (promos : Bool) : ∀ (ops : List (Op K V))
    (t : Tab D) (m : Map K V), TInv L P t m → t.num ≤ N → (∀ op ∈ ops, Storable L N op) →
    ∃ m', History t.num m (run D validCb P promos t ops).2 (run D validCb P promos t ops).1.num m' ∧
      TInv L P (run D validCb P promos t ops).1 m' ∧ (run D validCb P promos t ops).1.num ≤ N := by
  intro ops
  induction ops with
  | nil => intro t m h hN _; exact ⟨m, .nil _ _, h, hN⟩
  | cons op ops ih =>
    intro t m h htN hs
    obtain ⟨m1, a, b, bN⟩ := step_behaves hP validCb promos h htN (hs op (by simp))
    obtain ⟨m2, c, d, e⟩ := ih _ m1 b bN (fun o ho => hs o (by simp [ho]))
    exact ⟨m2, .cons a c, d, e⟩

end Verif.CCache
