import Verif.CCache.TableLemmas
import Verif.CCache.BucketSpec

/-! One bucket of the compact cache is exactly the LRU list of its specification. -/
namespace Verif.CCache
open Spec

variable {K V : Type} [DecidableEq K]

/-- One request on one bucket (`CCache.h:1091-1185`). -/
def bstep (D : Desc K V) (validCb : K → Bool) (b : D.B) : BOp K V → D.B × List (Ev K V)
  | .set k v => (bucketSet D validCb b k v).2
  | .hit k => (bucketPromote D b k, [])
  | .del k => ((bucketDel D b k).2.1, (bucketDel D b k).2.2.2)

theorem list_at {l : List (K × V)} (hnd : (l.map Prod.fst).Nodup) {pos : Nat} {k : K} {w : V}
    (h : l[pos]? = some (k, w)) :
    valOf l k = some w ∧ l.eraseIdx pos = others l k ∧ l.findIdx (fun e => e.1 = k) = pos ∧
    ∀ v, l.set pos (k, v) = l.map fun e => if e.1 = k then (k, v) else e := by
  induction l generalizing pos with
  | nil => simp at h
  | cons e l ih =>
    rw [List.map_cons, List.nodup_cons] at hnd
    cases pos with
    | zero =>
      simp only [List.getElem?_cons_zero, Option.some.injEq] at h
      subst h
      have hne : ∀ e' ∈ l, e'.1 ≠ k := fun e' he' hc => hnd.1 (List.mem_map.2 ⟨e', he', hc⟩)
      refine ⟨by simp [valOf], ?_, by simp [List.findIdx_cons], ?_⟩
      · simp only [List.eraseIdx_zero, List.tail_cons, others]
        rw [List.filter_cons_of_neg (by simp)]
        exact (List.filter_eq_self.2 (fun a ha => by simpa using hne a ha)).symm
      · intro v
        simp only [List.set_cons_zero, List.map_cons, if_true]
        congr 1
        conv => lhs; rw [← List.map_id l]
        exact List.map_congr_left (fun a ha => by simp [hne a ha])
    | succ pos =>
      simp only [List.getElem?_cons_succ] at h
      obtain ⟨h1, h2, h3, h4⟩ := ih hnd.2 h
      have hne : e.1 ≠ k := fun hc => hnd.1 (by
        rw [hc]; exact List.mem_map.2 ⟨_, List.mem_of_getElem? h, rfl⟩)
      refine ⟨?_, ?_, ?_, ?_⟩
      · simpa [valOf, List.find?_cons, hne] using h1
      · simp only [List.eraseIdx_cons_succ, h2, others]
        rw [List.filter_cons_of_pos (by simpa using hne)]
      · simp [List.findIdx_cons, hne, h3]
      · intro v; simp [h4 v, hne]

theorem valOf_none {l : List (K × V)} {k : K} (h : ∀ e ∈ l, e.1 ≠ k) : valOf l k = none := by
  simp only [valOf, Option.map_eq_none_iff, List.find?_eq_none]
  intro e he; simpa using h e he

variable {D : Desc K V} {L : Laws D}

theorem shown_eq {b : D.B} (h : L.wf b) : shown D b = L.ents b := by
  have hlen := L.len h
  have h1 : (List.range D.lim).takeWhile (D.valid b) = List.range (L.ents b).length := by
    have hsplit : List.range D.lim = List.range (L.ents b).length ++
        (List.range (D.lim - (L.ents b).length)).map ((L.ents b).length + ·) := by
      rw [← List.range_add]; congr 1; omega
    rw [hsplit, List.takeWhile_append_of_pos]
    · rcases Nat.eq_or_lt_of_le hlen with he | hlt
      · simp [he]
      · obtain ⟨m, hm⟩ : ∃ m, D.lim - (L.ents b).length = m + 1 := ⟨D.lim - (L.ents b).length - 1, by omega⟩
        rw [hm, List.range_succ_eq_map]
        have : ¬ D.valid b (L.ents b).length = true := fun hc => by
          have := (L.valid h _).1 hc; omega
        simp [this]
    · intro i hi
      rw [List.mem_range] at hi
      exact (L.valid h i).2 hi
  rw [shown, h1]
  apply List.ext_getElem?
  intro i
  rw [List.getElem?_map]
  by_cases hi : i < (L.ents b).length
  · have hg := L.get h (List.getElem?_eq_getElem hi)
    rw [List.getElem?_range hi, List.getElem?_eq_getElem hi]
    simp [hg.1, hg.2]
  · rw [List.getElem?_eq_none (by simpa using hi), List.getElem?_eq_none (by omega)]; rfl

/-- Hits and removals, for both kinds of buckets. -/
theorem bstep_hit {b : D.B} (hb : Good L b) (validCb : K → Bool) (k : K) (far : Nat)
    (hfar : ∀ i, D.needsPromote b i = decide (i > far)) :
    Good L (bstep D validCb b (.hit k)).1 ∧
    L.ents (bstep D validCb b (.hit k)).1 = refresh far (L.ents b) k := by
  have hf := bucketFind_spec hb.wf k
  refine ⟨(bucketPromote_spec hb k).1, ?_⟩
  simp only [bstep, bucketPromote]
  cases hfind : bucketFind D b k with
  | none => simp only [refresh, valOf_none (hf.2 hfind)]
  | some pos =>
    obtain ⟨w, hw⟩ := hf.1 pos hfind
    obtain ⟨h1, h2, h3, -⟩ := list_at hb.nd hw
    simp only [refresh, h1, h3, hfar, decide_eq_true_eq]
    split
    · rw [(L.promote hb.wf hw).2, h2]
    · rfl

theorem bstep_del {b : D.B} (hb : Good L b) (validCb : K → Bool) (k : K) :
    Good L (bstep D validCb b (.del k)).1 ∧
    L.ents (bstep D validCb b (.del k)).1 = (removal (L.ents b) k).1 ∧
    (bstep D validCb b (.del k)).2 = (removal (L.ents b) k).2 := by
  have hf := bucketFind_spec hb.wf k
  refine ⟨(bucketDel_spec hb k).1, ?_⟩
  simp only [bstep, bucketDel]
  cases hfind : bucketFind D b k with
  | none => simp only [removal, valOf_none (hf.2 hfind)]; exact ⟨by trivial, by trivial⟩
  | some pos =>
    obtain ⟨w, hw⟩ := hf.1 pos hfind
    obtain ⟨h1, h2, h3, -⟩ := list_at hb.nd hw
    simp only [removal, h1]
    rw [(L.del hb.wf (List.getElem?_eq_some_iff.1 hw).1).2, h2, (L.get hb.wf hw).2]
    exact ⟨rfl, rfl⟩

/-- Run requests on a bucket. -/
def brun (D : Desc K V) (validCb : K → Bool) (b : D.B) : List (BOp K V) → D.B × List (Ev K V)
  | [] => (b, [])
  | op :: ops =>
    let r := bstep D validCb b op
    let r' := brun D validCb r.1 ops
    (r'.1, r.2 ++ r'.2)

/-- Run requests on a list. -/
def Spec.lrun (next : List (K × V) → BOp K V → List (K × V) × List (Ev K V)) (l : List (K × V)) :
    List (BOp K V) → List (K × V) × List (Ev K V)
  | [] => (l, [])
  | op :: ops =>
    let r := next l op
    let r' := lrun next r.1 ops
    (r'.1, r.2 ++ r'.2)

theorem brun_of (validCb : K → Bool) (next : List (K × V) → BOp K V → List (K × V) × List (Ev K V))
    (okOp : BOp K V → Prop)
    (hstep : ∀ (b : D.B) op, Good L b → okOp op → Good L (bstep D validCb b op).1 ∧
      L.ents (bstep D validCb b op).1 = (next (L.ents b) op).1 ∧
      (bstep D validCb b op).2 = (next (L.ents b) op).2) :
    ∀ (ops : List (BOp K V)) (b : D.B), Good L b → (∀ op ∈ ops, okOp op) →
      Good L (brun D validCb b ops).1 ∧
      L.ents (brun D validCb b ops).1 = (lrun next (L.ents b) ops).1 ∧
      (brun D validCb b ops).2 = (lrun next (L.ents b) ops).2 := by
  intro ops
  induction ops with
  | nil => intro b hb _; exact ⟨hb, rfl, rfl⟩
  | cons op ops ih =>
    intro b hb hok
    obtain ⟨h1, h2, h3⟩ := hstep b op hb (hok op (by simp))
    obtain ⟨g1, g2, g3⟩ := ih _ h1 (fun o ho => hok o (by simp [ho]))
    simp only [brun, lrun]
    refine ⟨g1, ?_, ?_⟩
    · rw [g2, h2]
    · rw [h3, g3, h2]

/-- A storable request on a bucket of fixed-size values: the key is not the reserved empty key. -/
def FixOk (c : FCfg K V) : BOp K V → Prop
  | .set k _ => c.isEmpty k = false
  | _ => True

theorem fix_step (c : FCfg K V) (hn : 0 < c.num) (hz : c.isEmpty c.zero.1 = true) (validCb : K → Bool)
    (b : (fixDesc c).B) (op : BOp K V) (hb : Good (fixLaws c hn hz) b) (hok : FixOk c op) :
    Good (fixLaws c hn hz) (bstep (fixDesc c) validCb b op).1 ∧
      (fixLaws c hn hz).ents (bstep (fixDesc c) validCb b op).1 =
        (fixNext validCb c.num ((fixLaws c hn hz).ents b) op).1 ∧
      (bstep (fixDesc c) validCb b op).2 = (fixNext validCb c.num ((fixLaws c hn hz).ents b) op).2 := by
  obtain ⟨L, hL⟩ : ∃ L, L = fixLaws c hn hz := ⟨_, rfl⟩
  have hrep : FRep c b (L.ents b) := by subst hL; exact hb.wf
  have hfe : ∀ b', L.ents b' = fEnts c b' := by intro b'; subst hL; rfl
  rw [← hL] at hb ⊢
  cases op with
  | set k v =>
    have hk : L.ok k v := by subst hL; exact hok
    have hf := bucketFind_spec hb.wf k
    refine ⟨?_, ?_⟩
    · obtain ⟨_, _, _, g, _⟩ := bucketSet_spec (m := fun k => valOf (L.ents b) k) hb validCb hk (by
        intro e he
        obtain ⟨i, hi⟩ := List.mem_iff_getElem?.1 he
        exact (list_at hb.nd (pos := i) (w := e.2) hi).1)
      exact g
    · simp only [bstep, bucketSet]
      cases hfind : bucketFind (fixDesc c) b k with
      | none =>
        have hs := fInsert_spec hn hrep (k := k) (v := v) hok
        have h1 : (fixDesc c).insert b k v = (if (fInsert c b k v).1 then 1 else 0, (fInsert c b k v).2) := rfl
        have h2 : ¬ (((fixDesc c).insert b k v).1 = -1) := by
          rw [h1]; dsimp only; split <;> decide
        simp only [fixNext, valOf_none (hf.2 hfind), h2, if_false]
        refine ⟨?_, ?_⟩
        · rw [hfe, h1]
          show fEnts c (fInsert c b k v).2.1 = _
          rw [hs.1.ents]
          obtain ⟨n, hn'⟩ : ∃ n, c.num = n + 1 := ⟨c.num - 1, by omega⟩
          rw [hn']; rfl
        · rw [h1]
          show ((fInsert c b k v).2.2).map _ = _
          rw [hs.2.1]; rfl
      | some pos =>
        obtain ⟨w, hw⟩ := hf.1 pos hfind
        obtain ⟨g1, g2, g3, g4⟩ := list_at hb.nd hw
        simp only [fixNext, g1]
        refine ⟨?_, ?_⟩
        · rw [hfe]
          show fEnts c (fUpdate b pos v) = _
          rw [(fUpdate_spec hrep hw).ents, g4]
        · rw [(L.get hb.wf hw).2]; rfl
  | hit k =>
    have := bstep_hit hb validCb k (c.num / 4) (fun i => rfl)
    exact ⟨this.1, this.2, rfl⟩
  | del k => exact bstep_del hb validCb k

/-- C36, fixed-size values: whatever the requests, a walk over the bucket shows exactly the LRU list, and
the callbacks are exactly those of the list. -/
theorem fix_bucket_lru (c : FCfg K V) (hn : 0 < c.num) (hz : c.isEmpty c.zero.1 = true)
    (validCb : K → Bool) (ops : List (BOp K V)) (hok : ∀ op ∈ ops, FixOk c op) :
    let r := brun (fixDesc c) validCb (fixDesc c).empty ops
    (shown (fixDesc c) r.1, r.2) = lrun (fixNext validCb c.num) [] ops := by
  have := brun_of (L := fixLaws c hn hz) validCb (fixNext validCb c.num) (FixOk c)
    (fix_step c hn hz validCb) ops (fixDesc c).empty good_empty hok
  rw [(fixLaws c hn hz).ents_empty] at this
  dsimp only
  rw [shown_eq this.1.wf, this.2.1, this.2.2]

theorem fPromote_out (b : Nat → K × V) {pos i : Nat} (h : pos < i) : fPromote b pos i = b i := by
  by_cases h0 : pos = 0
  · simp [fPromote, h0]
  · simp only [fPromote]
    rw [if_pos h0]
    simp only [put, memmove]
    rw [if_neg (by omega), if_neg (by omega)]

/-- Nothing outside the slots of a fixed-size bucket is written, whatever it held before. -/
theorem fix_bucket_space (c : FCfg K V) (hn : 0 < c.num) (validCb : K → Bool) (ops : List (BOp K V)) :
    ∀ (b : (fixDesc c).B) (i : Nat), c.num ≤ i → (brun (fixDesc c) validCb b ops).1 i = b i := by
  induction ops with
  | nil => intro b i _; rfl
  | cons op ops ih =>
    intro b i hi
    simp only [brun]
    rw [ih _ i hi]
    have hpos : ∀ fuel pos k p, findFrom (fixDesc c) b k fuel pos = some p → p < c.num := by
      intro fuel
      induction fuel with
      | zero => intro pos k p h; cases h
      | succ fuel ih =>
        intro pos k p h
        simp only [findFrom] at h
        split at h
        · next hv =>
          split at h
          · cases h
            have : fValid c b pos = true := hv
            simp only [fValid, Bool.and_eq_true, decide_eq_true_eq] at this
            exact this.1
          · exact ih _ _ _ h
        · cases h
    cases op with
    | set k v =>
      simp only [bstep, bucketSet]
      cases hf : bucketFind (fixDesc c) b k with
      | none =>
        have h2 : (if ((fixDesc c).insert b k v).1 = -1 then
          (Ret.error, ((fixDesc c).insert b k v).2.1, ((fixDesc c).insert b k v).2.2.map (onEvicted validCb))
          else (Ret.notFound, ((fixDesc c).insert b k v).2.1,
            ((fixDesc c).insert b k v).2.2.map (onEvicted validCb))).2.1 = (fInsert c b k v).2.1 := by
          split <;> rfl
        dsimp only
        rw [h2]
        simp only [fInsert, put, memmove]
        rw [if_neg (by omega), if_neg (by omega)]
      | some pos =>
        have := hpos _ _ _ _ hf
        show fUpdate b pos v i = b i
        simp only [fUpdate, put]
        rw [if_neg (by omega)]
    | hit k =>
      simp only [bstep, bucketPromote]
      cases hf : bucketFind (fixDesc c) b k with
      | none => rfl
      | some pos =>
        have := hpos _ _ _ _ hf
        dsimp only
        split
        · show fPromote b pos i = b i
          exact fPromote_out b (by omega)
        · rfl
    | del k =>
      simp only [bstep, bucketDel]
      cases hf : bucketFind (fixDesc c) b k with
      | none => rfl
      | some pos =>
        have := hpos _ _ _ _ hf
        show fDel c b pos i = b i
        simp only [fDel, put, memmove]
        rw [if_neg (by omega), if_neg (by omega)]

/-! ### variable-size values -/

theorem fits_keeps {c : VCfg} : ∀ (l : List (K × List Nat)) (q slots bytes : Nat), q ≤ l.length →
    q ≤ slots → cost c (l.take q) ≤ bytes →
    (∀ q', q < q' → q' ≤ l.length → ¬ (q' ≤ slots ∧ cost c (l.take q') ≤ bytes)) →
    fits (c.hs + 1) slots bytes l = l.take q := by
  intro l
  induction l with
  | nil => intro q slots bytes _ _ _ _; simp [fits]
  | cons e l ih =>
    intro q slots bytes hq hs hc hmax
    simp only [fits]
    have hce : ∀ n, cost c ((e :: l).take (n + 1)) = (c.hs + 1 + e.2.length) + cost c (l.take n) := by
      intro n; simp [cost]
    cases q with
    | zero =>
      rw [if_pos, List.take_zero]
      have := hmax 1 (by omega) (by simp)
      rw [hce 0] at this
      simp only [List.take_zero] at this
      have h0 : cost c ([] : List (K × List Nat)) = 0 := by simp [cost]
      omega
    | succ q =>
      rw [hce q] at hc
      rw [if_neg (by omega), List.take_succ_cons]
      rw [ih q (slots - 1) (bytes - (c.hs + 1 + e.2.length)) (by simpa using hq) (by omega) (by omega)]
      intro q' h1 h2 h3
      refine hmax (q' + 1) (by omega) (by simpa using h2) ⟨by omega, ?_⟩
      rw [hce q']; omega

theorem keeps_fits {c : VCfg} {req : Nat} {l : List (K × List Nat)} {q : Nat} (h : Keeps c req l q) :
    fits (c.hs + 1) 254 (c.kb - req) l = l.take q ∧ (fits (c.hs + 1) 254 (c.kb - req) l).length = q := by
  obtain ⟨h1, h2, h3, h4⟩ := h
  have := fits_keeps (c := c) l q 254 (c.kb - req) h1 (by omega) (by omega) (by
    intro q' a b d
    exact h4 q' a b ⟨by omega, by omega⟩)
  exact ⟨this, by rw [this, List.length_take]; omega⟩

/-- A storable request on a bucket of variable-size values: the value is not larger than configured
and its length fits the size field. -/
def VarOk (c : VCfg) : BOp K (List Nat) → Prop
  | .set _ v => v.length ≤ c.maxVal ∧ v.length ≤ 255
  | _ => True

theorem var_step (c : VCfg) (zk : K) (hkb : c.kb < 65536) (validCb : K → Bool)
    (b : (varDesc c zk).B) (op : BOp K (List Nat)) (hb : Good (varLaws c zk hkb) b) (hok : VarOk c op) :
    Good (varLaws c zk hkb) (bstep (varDesc c zk) validCb b op).1 ∧
      (varLaws c zk hkb).ents (bstep (varDesc c zk) validCb b op).1 =
        (varNext validCb (c.hs + 1) c.kb ((varLaws c zk hkb).ents b) op).1 ∧
      (bstep (varDesc c zk) validCb b op).2 =
        (varNext validCb (c.hs + 1) c.kb ((varLaws c zk hkb).ents b) op).2 := by
  obtain ⟨L, hL⟩ : ∃ L, L = varLaws c zk hkb := ⟨_, rfl⟩
  have hrep : Rep c b (L.ents b) ∧ ∀ e ∈ L.ents b, vOk c e.2 := by subst hL; exact hb.wf
  have hfe : ∀ b', L.ents b' = vEnts b' := by intro b'; subst hL; rfl
  rw [← hL] at hb ⊢
  cases op with
  | set k v =>
    have hk : L.ok k v := by subst hL; exact hok
    have hf := bucketFind_spec hb.wf k
    refine ⟨?_, ?_⟩
    · obtain ⟨_, _, _, g, _⟩ := bucketSet_spec (m := fun k => valOf (L.ents b) k) hb validCb hk (by
        intro e he
        obtain ⟨i, hi⟩ := List.mem_iff_getElem?.1 he
        exact (list_at hb.nd (pos := i) (w := e.2) hi).1)
      exact g
    · simp only [bstep, bucketSet]
      cases hfind : bucketFind (varDesc c zk) b k with
      | none =>
        obtain ⟨q, hs1, hs2, hs3, hs4⟩ := insert_core hkb hrep.1 k hok.1 hok.2
        have h1 : (varDesc c zk).insert b k v = vInsert c b k v := rfl
        have h2 : ¬ (((varDesc c zk).insert b k v).1 = -1) := by
          rw [h1, hs2]; split <;> decide
        obtain ⟨f1, f2⟩ := keeps_fits hs1
        simp only [varNext, valOf_none (hf.2 hfind), h2, if_false, f2]
        rw [hfe, h1, hs3.ents, hs4, f1]
        exact ⟨rfl, rfl⟩
      | some pos =>
        obtain ⟨w, hw⟩ := hf.1 pos hfind
        obtain ⟨g1, g2, g3, -⟩ := list_at hb.nd hw
        have h1 : (varDesc c zk).update b pos v = vUpdate c b pos v := rfl
        have hwo : vOk c w := hrep.2 _ (List.mem_of_getElem? hw)
        simp only [varNext, g1]
        rw [(L.get hb.wf hw).2, h1, hfe]
        by_cases hlt : v.length ≤ w.length
        · rw [if_pos hlt]
          obtain ⟨u1, u2⟩ := update_small hkb hrep.1 hw hwo.2 hlt
          rw [u1.ents, u2, g2]; exact ⟨rfl, rfl⟩
        · rw [if_neg hlt]
          obtain ⟨q, u1, u2, u3⟩ := update_big hkb hrep.1 hw (by omega) hok.1 hok.2
          rw [g2] at u1 u2 u3
          obtain ⟨f1, f2⟩ := keeps_fits u1
          rw [u2.ents, u3]
          dsimp only
          rw [f2, f1]; exact ⟨rfl, rfl⟩
  | hit k =>
    have := bstep_hit hb validCb k 1 (fun i => rfl)
    exact ⟨this.1, this.2, rfl⟩
  | del k => exact bstep_del hb validCb k

/-- C36, variable-size values: whatever the requests, a walk over the bucket — headers, offsets and bytes
— shows exactly the LRU list, and the callbacks are exactly those of the list. -/
theorem var_bucket_lru (c : VCfg) (zk : K) (hkb : c.kb < 65536) (validCb : K → Bool)
    (ops : List (BOp K (List Nat))) (hok : ∀ op ∈ ops, VarOk c op) :
    let r := brun (varDesc c zk) validCb (varDesc c zk).empty ops
    (shown (varDesc c zk) r.1, r.2) = lrun (varNext validCb (c.hs + 1) (c.maxVal + c.hs + 1)) [] ops := by
  have := brun_of (L := varLaws c zk hkb) validCb (varNext validCb (c.hs + 1) c.kb) (VarOk c)
    (var_step c zk hkb validCb) ops (varDesc c zk).empty good_empty hok
  rw [(varLaws c zk hkb).ents_empty] at this
  dsimp only
  rw [shown_eq this.1.wf, this.2.1, this.2.2]
  rfl

/-- The reserved memory of a bucket is not overrun: after any requests the header array and the value
section, which grow towards each other, do not meet. -/
theorem var_bucket_space (c : VCfg) (zk : K) (hkb : c.kb < 65536) (validCb : K → Bool)
    (ops : List (BOp K (List Nat))) (hok : ∀ op ∈ ops, VarOk c op) :
    let b := (brun (varDesc c zk) validCb (varDesc c zk).empty ops).1
    c.hs * b.n ≤ c.maxVal + c.hs + 1 - b.total ∧ b.total ≤ c.maxVal + c.hs + 1 ∧
    ∀ i, i < b.n → c.maxVal + c.hs + 1 - b.total ≤ (b.hdr i).off ∧
      (b.hdr i).off + 1 + (b.hdr i).size ≤ c.maxVal + c.hs + 1 := by
  have := brun_of (L := varLaws c zk hkb) validCb (varNext validCb (c.hs + 1) c.kb) (VarOk c)
    (var_step c zk hkb validCb) ops (varDesc c zk).empty good_empty hok
  obtain ⟨hg, -⟩ := this
  obtain ⟨b, hb⟩ : ∃ b, b = (brun (varDesc c zk) validCb (varDesc c zk).empty ops).1 := ⟨_, rfl⟩
  rw [← hb] at hg ⊢
  have hr : Rep c b (vEnts b) := hg.wf.1
  have hs := hr.space
  have hl := hr.len
  have hkbe : c.kb = c.maxVal + c.hs + 1 := rfl
  dsimp only
  rw [← hl] at hs
  refine ⟨by omega, by omega, ?_⟩
  intro i hi
  obtain ⟨segs, hc, hn, hsi, hsp⟩ := hr.chain
  obtain ⟨g, hgm, h1, h2, h3⟩ := (hsp i _ _).1 (List.getElem?_eq_getElem (by omega : i < (vEnts b).length))
  have := hc.off_mem hgm
  subst h1
  rw [hkbe] at this
  rw [this.2.2.1]
  exact ⟨this.1, this.2.1⟩

end Verif.CCache
