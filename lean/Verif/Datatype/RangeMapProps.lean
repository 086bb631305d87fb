import Verif.Datatype.RangeMapLemmas

/-! # C38: a `RangeMap` is a sorted map

Specification, and the theorem that every sequence of calls conforms to it whatever the environment does.
-/

namespace Verif.Datatype
namespace RMapM
variable {K : Type} [DecidableEq K]

/-! ## Specification -/

/-- What the user must respect: an entry fits 32 bits; only bytes that exist are read or written; the bounds of a
range are in order; a container object is attached only to an existing item. -/
def Pre (lt : K → K → Bool) (ks : Nat) (w : SpecW K) : RMOp K → Prop
  | .insert _ v => ks + v.length < 4294967292
  | .insertOrReplace _ v => ks + v.length < 4294967292
  | .lookup k n => ∀ v, w.now k = some v → n ≤ v.length
  | .iterate n => ∀ k v, w.now k = some v → n k ≤ v.length
  | .range k1 k2 n => lt k2 k1 = false ∧ ∀ k v, w.now k = some v → n k ≤ v.length
  | .approx k1 k2 n => lt k2 k1 = false ∧ ∀ k v, w.now k = some v → n k ≤ v.length
  | .poke k j _ => ∃ v, w.now k = some v ∧ j < v.length
  | .attach i => i < w.maps.length
  | _ => True

/-- `l` lists, in increasing order, the keys of `m` that satisfy `P`, each with the first `n` bytes of its value. -/
def Listing (lt : K → K → Bool) (m : Contents K) (P : K → Prop) (n : K → Nat) (l : List (K × List Byte)) : Prop :=
  l.Pairwise (fun x y => lt x.1 y.1 = true) ∧
  ∀ k b, (k, b) ∈ l ↔ P k ∧ ∃ v, m k = some v ∧ b = v.take (n k)

/-- `k` is in the closed interval. -/
def Between (lt : K → K → Bool) (k1 k2 k : K) : Prop := lt k k1 = false ∧ lt k2 k = false

/-- What a call may do. -/
inductive Step (lt : K → K → Bool) (w : SpecW K) : RMOp K → RMOut K → SpecW K → Prop
  | insert_dup {k v v'} : w.now k = some v' → Step lt w (.insert k v) (.bool false) w
  | insert_new {k v w'} : w.now k = none → Upd w (fun x => if x = k then some v else w.now x) w' →
      Step lt w (.insert k v) (.bool true) w'
  /-- when there is no memory, nothing changes -/
  | insert_throws {k v} : w.now k = none → Step lt w (.insert k v) .throws w
  | replace {k v b w'} : (b = true ↔ ∃ v', w.now k = some v') →
      Upd w (fun x => if x = k then some v else w.now x) w' → Step lt w (.insertOrReplace k v) (.bool b) w'
  | replace_throws {k v} : Step lt w (.insertOrReplace k v) .throws w
  | remove {k b} : (b = true ↔ ∃ v', w.now k = some v') →
      Step lt w (.remove k) (.bool b) { w with maps := w.maps.set w.cur (fun x => if x = k then none else w.now x) }
  /-- `removeBefore` removes the smaller keys and returns how many there were -/
  | removeBefore {k} {l : List K} : (l.Nodup ∧ ∀ x, x ∈ l ↔ lt x k = true ∧ ∃ v, w.now x = some v) →
      Step lt w (.removeBefore k) (.num l.length)
        { w with maps := w.maps.set w.cur (fun x => if lt x k then none else w.now x) }
  | lookup {k n} : Step lt w (.lookup k n) (.found ((w.now k).map (List.take n))) w
  /-- the whole contents, in order -/
  | iterate {n l} : Listing lt w.now (fun _ => True) n l → Step lt w (.iterate n) (.entries l) w
  /-- if both bounds are keys, exactly the entries between them -/
  | range {k1 k2 n l} : (∃ v, w.now k1 = some v) → (∃ v, w.now k2 = some v) →
      Listing lt w.now (Between lt k1 k2) n l → Step lt w (.range k1 k2 n) (.entries l) w
  /-- otherwise nothing -/
  | range_none {k1 k2 n} : w.now k1 = none ∨ w.now k2 = none → Step lt w (.range k1 k2 n) (.entries []) w
  /-- exactly the entries between the bounds -/
  | approx {k1 k2 n l} : Listing lt w.now (Between lt k1 k2) n l → Step lt w (.approx k1 k2 n) (.entries l) w
  | size {l} : Keys w.now l → Step lt w .size (.num l.length) w
  /-- compaction is invisible -/
  | compact : Step lt w .compact .unit w
  | poke {k j x v} : w.now k = some v → Step lt w (.poke k j x) .unit
      { w with maps := w.maps.set w.cur (fun y => if y = k then some (v.set j x) else w.now y) }
  | publish : Step lt w .publish .unit { w with cached := some w.cur }
  | unpublish : Step lt w .unpublish .unit { w with cached := none }
  | attach {i} : Step lt w (.attach i) .unit { w with cur := i }

/-- A sequence of calls and results that a user may observe, as long as the user respects the preconditions. -/
def Conforms (lt : K → K → Bool) (ks : Nat) : SpecW K → List (RMOp K × RMOut K) → Prop
  | _, [] => True
  | w, (op, out) :: l => Pre lt ks w op → ∃ w', Step lt w op out w' ∧ Conforms lt ks w' l

/-! ## Proofs -/

variable {cfg : RMCfg K} {it : RMItem K} {C : Contents K}

theorem readOut_spec (hc : CfgOK cfg) (h : RMRep cfg it C) (n : K → Nat)
    (hn : ∀ k v, C k = some v → n k ≤ v.length) {i j : Nat} (hij : i ≤ j) (hj : j ≤ it.idx.num) (P : K → Prop)
    (hP : ∀ x, x < it.idx.num → (P (it.idx.ents x).1 ↔ i ≤ x ∧ x < j)) :
    ∃ l, readOut cfg it n (i, j) = .entries l ∧ Listing cfg.lt C P n l := by
  obtain ⟨r, r1, r2, r3⟩ := readRange_spec h n hn j hj (it.idx.num + 1) i hij (by omega)
  unfold readOut
  dsimp only
  rw [r1]
  refine ⟨r, rfl, ?_, ?_⟩
  · rw [List.pairwise_iff_getElem]
    intro x y hx hy hxy
    have e1 := (r3 x _ (List.getElem?_eq_getElem hx)).1
    have e2 := (r3 y _ (List.getElem?_eq_getElem hy)).1
    rw [e1, e2]
    exact h.inv.sorted _ _ (by omega) (by omega)
  · intro k b
    constructor
    · intro hm
      obtain ⟨x, hx⟩ := List.mem_iff_getElem?.mp hm
      have hxl := (List.getElem?_eq_some_iff.mp hx).1
      obtain ⟨e1, e2⟩ := r3 x _ hx
      dsimp only at e1 e2
      refine ⟨?_, ?_⟩
      · rw [e1]; exact (hP (i + x) (by omega)).mpr ⟨by omega, by omega⟩
      · cases hck : C k with
        | none => rw [hck] at e2; cases e2
        | some v => rw [hck] at e2; cases e2; exact ⟨v, rfl, rfl⟩
    · rintro ⟨hp, v, hv, rfl⟩
      obtain ⟨L, hL⟩ := h.coh
      obtain ⟨a, x, hx, hxe⟩ := hL.c2h k v hv
      have hk : (it.idx.ents x).1 = k := by rw [hxe]
      obtain ⟨g1, g2⟩ := (hP x hx).mp (by rw [hk]; exact hp)
      have hlt : x - i < r.length := by omega
      obtain ⟨e1, e2⟩ := r3 (x - i) _ (List.getElem?_eq_getElem hlt)
      rw [show i + (x - i) = x by omega, hk] at e1
      rw [e1, hv] at e2
      have : r[x - i] = (k, v.take (n k)) := by
        apply Prod.ext
        · exact e1
        · simp only [Option.map_some, Option.some.injEq] at e2
          exact e2.symm
      rw [← this]; exact List.getElem_mem hlt

theorem RMRep.keys (hc : CfgOK cfg) (h : RMRep cfg it C) : ∃ l : List K, Keys C l ∧ l.length = it.idx.num := by
  refine ⟨(List.range it.idx.num).map (fun i => (it.idx.ents i).1), ⟨?_, ?_⟩, by simp⟩
  · apply List.Nodup.map_on _ List.nodup_range
    intro x hx y hy he
    exact h.inv.idx_unique hc.lt (List.mem_range.mp hx) (List.mem_range.mp hy) he
  · intro k
    constructor
    · intro hm
      obtain ⟨x, hx, rfl⟩ := List.mem_map.mp hm
      have hhas : BI.Has it.idx (it.idx.ents x).1 (it.idx.ents x).2 := ⟨x, List.mem_range.mp hx, rfl⟩
      cases hck : C (it.idx.ents x).1 with
      | none => exact absurd hhas ((h.coh.none_iff _).mp hck _)
      | some v => exact ⟨v, rfl⟩
    · rintro ⟨v, hv⟩
      obtain ⟨L, hL⟩ := h.coh
      obtain ⟨a, x, hx, hxe⟩ := hL.c2h k v hv
      exact List.mem_map.mpr ⟨x, List.mem_range.mpr hx, by rw [hxe]⟩

/-- One call conforms. -/
theorem step_ok (hc : CfgOK cfg) {W : World (RMItem K)} {w : SpecW K} (hw : WRep (RMRep cfg) W w) (o : RMOrc K)
    (op : RMOp K) (hpre : Pre cfg.lt cfg.E.ks w op) :
    ∃ w', Step cfg.lt w op (step cfg W o op).2 w' ∧ WRep (RMRep cfg) (step cfg W o op).1 w' := by
  obtain ⟨it, hcur, hr⟩ := hw.here
  have hl := hc.lt
  unfold step
  rw [hcur]
  cases op with
  | insert k v =>
    dsimp only
    rcases lookupPtr_spec hc hr k with ⟨g1, _, g3⟩ | ⟨a, p, v', _, g2, _, _, g5, _⟩
    · rw [if_neg (by simp [g3])]
      obtain ⟨h1, _⟩ := insertInternal_ok hc hw o k v hpre
      rcases h1 with ⟨h2, h4⟩ | ⟨b, h2, _, w', h4, h5⟩
      · rw [h2]; exact ⟨w, .insert_throws g1, h4⟩
      · rw [h2]; exact ⟨w', .insert_new g1 h4, h5⟩
    · rw [if_pos (by omega)]
      exact ⟨w, .insert_dup g2, hw⟩
  | insertOrReplace k v =>
    dsimp only
    obtain ⟨h1, _⟩ := insertInternal_ok hc hw o k v hpre
    rcases h1 with ⟨h2, h4⟩ | ⟨b, h2, h3, w', h4, h5⟩
    · rw [h2]; exact ⟨w, .replace_throws, h4⟩
    · rw [h2]; exact ⟨w', .replace h3 h4, h5⟩
  | remove k =>
    dsimp only
    obtain ⟨r2, r3, r4, r5⟩ := BI.remove_spec hc.lt hr.inv k
    unfold removeItem
    dsimp only
    rcases r5 with ⟨h1, _⟩ | ⟨h1, h2⟩
    · rw [hr.nn k _ h1, if_neg (by simp)]
      obtain ⟨bufs', e1, e2⟩ := hr.coh.erase h1 r4
      rw [e1]
      dsimp only
      obtain ⟨it', a1, a2, _⟩ := autoCompact_rep hc (it := ⟨(it.idx.remove cfg.lt k).1, bufs'⟩)
        ⟨r2, by dsimp only; rw [r3]; exact hr.pos, e2, by dsimp only; rw [r3]; exact hr.size⟩ o.o.junk
      rw [a1]
      refine ⟨_, .remove (b := true) ?_, hw.setCur a2⟩
      cases hck : w.now k with
      | none => exact absurd h1 ((hr.coh.none_iff k).mp hck _)
      | some v' => simp
    · have hck := (hr.coh.none_iff k).mpr h1
      rw [h2]
      have hn : isNull nullAddr = true := rfl
      dsimp only
      rw [hn, if_pos rfl]
      refine ⟨_, .remove (b := false) (by rw [hck]; simp), hw.setCur ?_⟩
      have : (fun x => if x = k then none else w.now x) = w.now := by
        funext x; split
        · rename_i hx; rw [hx, hck]
        · rfl
      rw [this]; exact hr
  | removeBefore k =>
    dsimp only
    obtain ⟨it', l, h1, h2, h3⟩ := removeBeforeItem_rep hc hr k o.o.junk
    rw [h1]
    exact ⟨_, .removeBefore h2, hw.setCur h3⟩
  | lookup k n =>
    dsimp only
    have hst := Step.lookup (lt := cfg.lt) (w := w) (k := k) (n := n)
    rcases lookupPtr_spec hc hr k with ⟨g1, g2, _⟩ | ⟨a, p, v', _, g2, g3, _, _, _, g6⟩
    · rw [g2]
      rw [g1] at hst
      exact ⟨w, hst, hw⟩
    · rw [g3]
      dsimp only
      rw [g2] at hst
      rw [g6 n (hpre v' g2)]
      exact ⟨w, hst, hw⟩
  | iterate n =>
    dsimp only
    obtain ⟨l, h1, h2⟩ := readOut_spec hc hr n hpre (Nat.zero_le _) (Nat.le_refl _) (fun _ => True)
      (by intro x hx; simp [hx])
    rw [h1]
    exact ⟨w, .iterate h2, hw⟩
  | range k1 k2 n =>
    dsimp only
    obtain ⟨hle, hn⟩ := hpre
    unfold rangeLookup
    dsimp only
    have hempty : readOut cfg it n (it.idx.num, it.idx.num) = .entries [] := by
      unfold readOut readRange; simp
    rcases lookupPtr_spec hc hr k1 with ⟨g1, _, g3⟩ | ⟨a1, p1, v1, _, g2, _, _, g5, g6, _⟩
    · rw [if_pos g3, hempty]
      exact ⟨w, .range_none (Or.inl g1), hw⟩
    · rw [if_neg (by omega)]
      rcases lookupPtr_spec hc hr k2 with ⟨f1, _, f3⟩ | ⟨a2, p2, v2, _, f2, _, _, f5, f6, _⟩
      · rw [if_pos f3, hempty]
        exact ⟨w, .range_none (Or.inr f1), hw⟩
      · rw [if_neg (by omega)]
        have hcmp : ∀ x y, x < it.idx.num → y < it.idx.num →
            (cfg.lt (it.idx.ents x).1 (it.idx.ents y).1 = false ↔ y ≤ x) := by
          intro x y hx hy
          constructor
          · intro hh
            rcases Nat.lt_or_ge x y with hxy | hxy
            · rw [hr.inv.sorted x y hxy hy] at hh; cases hh
            · exact hxy
          · intro hh
            rcases Nat.lt_or_ge y x with hxy | hxy
            · have h1 := hr.inv.sorted y x hxy hx
              cases h2 : cfg.lt (it.idx.ents x).1 (it.idx.ents y).1 with
              | false => rfl
              | true => have := hl.trans _ _ _ h1 h2; rw [hl.irrefl] at this; cases this
            · have : x = y := by omega
              subst this; exact hl.irrefl _
        have hi : it.idx.lookup cfg.lt k1 ≤ it.idx.lookup cfg.lt k2 := by
          rw [← hcmp _ _ f5 g5, f6, g6]; exact hle
        obtain ⟨l, h1, h2⟩ := readOut_spec hc hr n hn (i := it.idx.lookup cfg.lt k1) (j := it.idx.lookup cfg.lt k2 + 1)
          (by omega) (by omega) (Between cfg.lt k1 k2)
          (by
            intro x hx
            unfold Between
            have e1 := hcmp x _ hx g5
            have e2 := hcmp _ x f5 hx
            rw [g6] at e1
            rw [f6] at e2
            rw [e1, e2]; omega)
        rw [h1]
        exact ⟨w, .range ⟨v1, g2⟩ ⟨v2, f2⟩ h2, hw⟩
  | approx k1 k2 n =>
    dsimp only
    obtain ⟨hle, hn⟩ := hpre
    obtain ⟨a1, a2, a3⟩ := BI.lower_spec hc.lt hr.inv k1
    obtain ⟨b1, b2, b3⟩ := BI.lower_spec hc.lt hr.inv k2
    -- the positions delimited by a range of positions `[i, j)`
    have hgo : ∀ j, it.idx.lookupLowerbound cfg.lt k1 ≤ j → j ≤ it.idx.num →
        (∀ x, x < it.idx.num → (cfg.lt k2 (it.idx.ents x).1 = false ↔ x < j)) →
        ∃ l, readOut cfg it n (it.idx.lookupLowerbound cfg.lt k1, j) = .entries l ∧
          Listing cfg.lt w.now (Between cfg.lt k1 k2) n l := by
      intro j h1 h2 h3
      apply readOut_spec hc hr n hn h1 h2
      intro x hx
      unfold Between
      rw [h3 x hx]
      constructor
      · rintro ⟨g1, g2⟩
        refine ⟨?_, g2⟩
        rcases Nat.lt_or_ge x (it.idx.lookupLowerbound cfg.lt k1) with hh | hh
        · rw [a2 x hh] at g1; cases g1
        · exact hh
      · rintro ⟨g1, g2⟩
        exact ⟨a3 x g1 hx, g2⟩
    -- the two lower bounds are in order
    have hmono : it.idx.lookupLowerbound cfg.lt k1 ≤ it.idx.lookupLowerbound cfg.lt k2 := by
      rcases Nat.lt_or_ge (it.idx.lookupLowerbound cfg.lt k2) (it.idx.lookupLowerbound cfg.lt k1) with hh | hh
      · have h1 := a2 _ hh
        have h2 := b3 _ (Nat.le_refl _) (by omega)
        rcases Classical.em (k1 = k2) with he | he
        · subst he; omega
        · rcases hl.total _ _ he with h3 | h3
          · rw [hl.trans _ _ _ h1 h3] at h2; cases h2
          · rw [hle] at h3; cases h3
      · exact hh
    unfold rangeLookupApproximate
    have hempty : it.idx.lookupLowerbound cfg.lt k1 = it.idx.num →
        ∃ l, readOut cfg it n (it.idx.num, it.idx.num) = .entries l ∧
          Listing cfg.lt w.now (Between cfg.lt k1 k2) n l := by
      intro he
      have := readOut_spec hc hr n hn (i := it.idx.num) (j := it.idx.num) (Nat.le_refl _) (Nat.le_refl _)
        (Between cfg.lt k1 k2) (by
          intro x hx
          constructor
          · rintro ⟨g1, _⟩
            rw [a2 x (by omega)] at g1; cases g1
          · rintro ⟨g1, g2⟩; omega)
      exact this
    by_cases hz : it.idx.num = 0
    · rw [if_pos hz]
      obtain ⟨l, h1, h2⟩ := hempty (by omega)
      rw [h1]; exact ⟨w, .approx h2, hw⟩
    · rw [if_neg hz]
      dsimp only
      by_cases he : it.idx.lookupLowerbound cfg.lt k1 = it.idx.num
      · rw [if_pos he]
        obtain ⟨l, h1, h2⟩ := hempty he
        rw [h1]; exact ⟨w, .approx h2, hw⟩
      · rw [if_neg he]
        by_cases hk : it.idx.lookupLowerbound cfg.lt k2 ≠ it.idx.num ∧
            (it.idx.ents (it.idx.lookupLowerbound cfg.lt k2)).1 = k2
        · rw [if_pos hk]
          obtain ⟨l, h1, h2⟩ := hgo (it.idx.lookupLowerbound cfg.lt k2 + 1) (by omega) (by omega) (by
            intro x hx
            have hlt : it.idx.lookupLowerbound cfg.lt k2 < it.idx.num := by omega
            constructor
            · intro hh
              rcases Nat.lt_or_ge (it.idx.lookupLowerbound cfg.lt k2) x with hx2 | hx2
              · have := hr.inv.sorted _ x hx2 hx
                rw [hk.2] at this; rw [this] at hh; cases hh
              · omega
            · intro hh
              cases h3 : cfg.lt k2 (it.idx.ents x).1 with
              | false => rfl
              | true =>
                rcases Nat.lt_or_ge x (it.idx.lookupLowerbound cfg.lt k2) with hx2 | hx2
                · have := hl.trans _ _ _ (b2 x hx2) h3
                  rw [hl.irrefl] at this; cases this
                · have : x = it.idx.lookupLowerbound cfg.lt k2 := by omega
                  rw [this, hk.2, hl.irrefl] at h3; cases h3)
          rw [h1]; exact ⟨w, .approx h2, hw⟩
        · rw [if_neg hk]
          obtain ⟨l, h1, h2⟩ := hgo (it.idx.lookupLowerbound cfg.lt k2) hmono b1 (by
            intro x hx
            constructor
            · intro hh
              rcases Nat.lt_or_ge x (it.idx.lookupLowerbound cfg.lt k2) with hx2 | hx2
              · exact hx2
              · have h3 := b3 x hx2 hx
                have heq : (it.idx.ents x).1 = k2 := by
                  rcases Classical.em ((it.idx.ents x).1 = k2) with h4 | h4
                  · exact h4
                  · rcases hl.total _ _ h4 with h5 | h5
                    · rw [h3] at h5; cases h5
                    · rw [hh] at h5; cases h5
                exfalso; apply hk
                refine ⟨by omega, ?_⟩
                rcases Nat.lt_or_ge (it.idx.lookupLowerbound cfg.lt k2) x with hx3 | hx3
                · have h6 := hr.inv.sorted _ x hx3 hx
                  rw [heq, b3 _ (Nat.le_refl _) (by omega)] at h6; cases h6
                · have : x = it.idx.lookupLowerbound cfg.lt k2 := by omega
                  rw [← this]; exact heq
            · intro hh
              cases h3 : cfg.lt k2 (it.idx.ents x).1 with
              | false => rfl
              | true =>
                have := hl.trans _ _ _ (b2 x hh) h3
                rw [hl.irrefl] at this; cases this)
          rw [h1]; exact ⟨w, .approx h2, hw⟩
  | size =>
    dsimp only
    obtain ⟨l, h1, h2⟩ := hr.keys hc
    rw [← h2]
    exact ⟨w, .size h1, hw⟩
  | compact =>
    dsimp only
    obtain ⟨it', h1, h2, _⟩ := compactItem_rep hc hr o.o.junk
    rw [h1]; exact ⟨w, .compact, hw.keep h2⟩
  | poke k j x =>
    dsimp only
    obtain ⟨v, hv, hj⟩ := hpre
    rcases lookupPtr_spec hc hr k with ⟨g1, _, _⟩ | ⟨a, p, v', g1, g2, g3, g4, _, _, g6⟩
    · rw [hv] at g1; cases g1
    · rw [hv] at g2; cases g2
      rw [g3]
      dsimp only
      obtain ⟨p', h1, h2⟩ := hr.coh.poke g1 hv hj x
      rw [g4] at h1; cases h1
      exact ⟨_, .poke hv, hw.setCur ⟨hr.inv, hr.pos, h2, hr.size⟩⟩
  | publish =>
    refine ⟨_, .publish, ⟨hw.len, hw.rep, hw.cur, hw.curlt, ?_⟩⟩
    show some W.cur = some w.cur
    rw [hw.cur]
  | unpublish => exact ⟨_, .unpublish, ⟨hw.len, hw.rep, hw.cur, hw.curlt, rfl⟩⟩
  | attach i =>
    refine ⟨_, .attach, ⟨hw.len, hw.rep, rfl, ?_, hw.cached⟩⟩
    show i < W.items.length
    rw [hw.len]; exact hpre

theorem step_not_ub {lt : K → K → Bool} {w w' : SpecW K} {op : RMOp K} {out : RMOut K} (h : Step lt w op out w') :
    out ≠ .ub := by
  cases h <;> simp

theorem run_conforms (hc : CfgOK cfg) : ∀ (l : List (RMOrc K × RMOp K)) {W : World (RMItem K)} {w : SpecW K},
    WRep (RMRep cfg) W w → Conforms cfg.lt cfg.E.ks w (run cfg W l) := by
  intro l
  induction l with
  | nil => intro W w _; trivial
  | cons x l ih =>
    intro W w hw
    obtain ⟨o, op⟩ := x
    unfold run
    dsimp only
    by_cases hpre : Pre cfg.lt cfg.E.ks w op
    · obtain ⟨w', h1, h2⟩ := step_ok hc hw o op hpre
      have hnu := step_not_ub h1
      split
      · rename_i he; exact absurd he hnu
      · exact fun _ => ⟨w', h1, ih h2⟩
    · split <;> exact fun hp => absurd hp hpre

/-- A freshly created container whose index size does not overflow 32 bits. -/
theorem create_rep {cfg : RMCfg K} {numEntries numBytes : Nat} {o : RMOrc K} {W : World (RMItem K)}
    (h : create cfg numEntries numBytes o = some W) (h1 : 0 < numEntries) (h2 : 0 < numBytes)
    (h3 : 8 + numEntries * cfg.es < 4294967296) :
    WRep (RMRep cfg) W ⟨[fun _ => none], 0, none⟩ := by
  unfold create at h
  have hst : computeStorageSize cfg numEntries = 8 + numEntries * cfg.es := by
    unfold computeStorageSize u32; exact Nat.mod_eq_of_lt h3
  rw [hst] at h
  split at h
  · rename_i hcond
    simp only [Bool.and_eq_true, decide_eq_true_eq] at hcond
    unfold BufMgr.create at h
    split at h
    · cases h
    · rename_i bufs hbufs
      split at hbufs
      · cases hbufs
      · rename_i hb
        split at hbufs
        · cases hbufs
          cases h
          obtain ⟨i1, i2⟩ := BI.new_inv (lt := cfg.lt) numEntries o.ij
          have hrep : RMRep cfg ⟨BI.new numEntries o.ij, [Buffer.fresh numBytes o.o.junk]⟩ (fun _ => none) :=
            ⟨i1, h1, Coh.create h2 (by omega) o.o.junk i2, hcond.2⟩
          refine ⟨rfl, ?_, rfl, by simp, rfl⟩
          intro i it m e1 e2
          dsimp only at e1 e2
          rw [List.getElem?_singleton] at e1 e2
          by_cases hi : i = 0
          · rw [if_pos hi] at e1 e2; cases e1; cases e2; exact hrep
          · rw [if_neg hi] at e1; cases e1
        · cases hbufs
  · cases h

/-- **C38.**  Whatever the user does with a new `RangeMap` (as long as the preconditions are respected) and whatever
the environment does, no call runs into undefined behaviour and all the results are those of a sorted map: lookups
find the last value, iteration and ranges list exactly the right keys in increasing order, removals remove exactly
what they should, a call that throws changes nothing, and an insertion that moves the container to a new item leaves
the old item as it was and takes its place in the cache. -/
theorem rangemap_is_a_sorted_map {cfg : RMCfg K} (hc : CfgOK cfg) {numEntries numBytes : Nat} {o : RMOrc K}
    {W : World (RMItem K)} (h : create cfg numEntries numBytes o = some W) (h1 : 0 < numEntries) (h2 : 0 < numBytes)
    (h3 : 8 + numEntries * cfg.es < 4294967296) (calls : List (RMOrc K × RMOp K)) :
    Conforms cfg.lt cfg.E.ks ⟨[fun _ => none], 0, none⟩ (run cfg W calls) :=
  run_conforms hc calls (create_rep h h1 h2 h3)

/-- The worlds reachable from a new container by calls that respect the preconditions (`w` ranges over the
specification states that the world represents; `reach_rep` shows that there always is one). -/
inductive Reach (cfg : RMCfg K) : World (RMItem K) → Prop
  | create {n b o W} : 0 < n → 0 < b → 8 + n * cfg.es < 4294967296 → create cfg n b o = some W → Reach cfg W
  | call {W o op} : Reach cfg W → (∀ w, WRep (RMRep cfg) W w → Pre cfg.lt cfg.E.ks w op) →
      Reach cfg (step cfg W o op).1

theorem reach_rep (hc : CfgOK cfg) {W : World (RMItem K)} (h : Reach cfg W) : ∃ w, WRep (RMRep cfg) W w := by
  induction h with
  | create h1 h2 h3 h4 => exact ⟨_, create_rep h4 h1 h2 h3⟩
  | call _ hpre ih =>
    obtain ⟨w, hw⟩ := ih
    obtain ⟨w', _, h2⟩ := step_ok hc hw _ _ (hpre w hw)
    exact ⟨w', h2⟩

/-- **C38**, progress: in every reachable state, an insertion does not throw if the cache grants the allocations, the
entry is below the buffer limit, the index may double and there are fewer than 1023 chained items. -/
theorem insert_succeeds (hc : CfgOK cfg) {W : World (RMItem K)} (h : Reach cfg W) {it : RMItem K}
    (hcur : W.curItem = some it) {o : RMOrc K}
    (ho : o.o.ht = true ∧ (∀ i, o.o.clone i = true) ∧ o.o.expand = true ∧ o.o.add = true)
    (k : K) (v : List Byte) (hv : 4 + cfg.E.ks + v.length < 1048476) (hlen : it.bufs.length < 1023)
    (hm : 8 + it.idx.cap * 2 * cfg.es ≤ cfg.maxItem) :
    ∃ b, (step cfg W o (.insertOrReplace k v)).2 = .bool b := by
  obtain ⟨w, hw⟩ := reach_rep hc h
  obtain ⟨h1, h2⟩ := insertInternal_ok hc hw o k v (by omega)
  have h3 := h2 it hcur ho.1 ho.2.1 ho.2.2.1 ho.2.2.2 hv hlen hm
  unfold step
  rw [hcur]
  dsimp only
  rcases h1 with ⟨h4, _⟩ | ⟨b, h4, _⟩
  · exact absurd h4 h3
  · exact ⟨b, h4⟩

end RMapM
end Verif.Datatype
