import Mathlib.Data.List.Nodup
import Mathlib.Data.List.Induction
import Verif.CCache.VarRep

/-! Eviction and insertion in a variable-size bucket. -/
namespace Verif.CCache

variable {K : Type}

/-- Bytes an entry takes in the bucket: header, index byte, value. -/
def cost (c : VCfg) (l : List (K × List Nat)) : Nat :=
  (l.map fun e => c.hs + 1 + e.2.length).sum

theorem segLen_eq {l : List (K × List Nat)} {segs : List (Seg K)} (hn : (segs.map (·.hi)).Nodup)
    (hl : ∀ i k v, l[i]? = some (k, v) ↔ ∃ g ∈ segs, g.hi = i ∧ g.k = k ∧ g.v = v) :
    segLen segs = (l.map fun e => 1 + e.2.length).sum := by
  have hp : (segs.map fun g => ((g.k, g.v), g.hi)).Perm l.zipIdx := by
    rw [List.perm_ext_iff_of_nodup]
    · rintro ⟨⟨k, v⟩, i⟩
      rw [List.mk_mem_zipIdx_iff_getElem?, hl, List.mem_map]
      constructor
      · rintro ⟨g, hg, he⟩
        obtain ⟨h1, rfl⟩ := Prod.mk.inj he
        obtain ⟨rfl, rfl⟩ := Prod.mk.inj h1
        exact ⟨g, hg, rfl, rfl, rfl⟩
      · rintro ⟨g, hg, rfl, rfl, rfl⟩
        exact ⟨g, hg, rfl⟩
    · apply List.Nodup.of_map (f := Prod.snd)
      rw [List.map_map]; exact hn
    · apply List.Nodup.of_map (f := Prod.snd)
      rw [List.zipIdx_map_snd]; exact List.nodup_range'
  have h1 := (hp.map (fun x => 1 + x.1.2.length)).sum_nat
  have h2 : (l.zipIdx.map fun x => 1 + x.1.2.length) = l.map fun e => 1 + e.2.length := by
    conv => rhs; rw [← List.zipIdx_map_fst 0 l, List.map_map]
    rfl
  rw [h2, List.map_map] at h1
  exact h1

theorem cost_split (c : VCfg) (l : List (K × List Nat)) :
    cost c l = (l.map fun e => 1 + e.2.length).sum + c.hs * l.length := by
  induction l with
  | nil => simp [cost]
  | cons e l ih =>
    simp only [cost, List.map_cons, List.sum_cons, List.length_cons, Nat.mul_add] at *
    omega

theorem Rep.cost {c : VCfg} {b : VB K} {l} (h : Rep c b l) :
    b.total + c.hs * l.length = cost c l := by
  obtain ⟨segs, hc, hn, hs, hl⟩ := h.chain
  rw [cost_split, h.total_eq hc, segLen_eq hn hl]

theorem cost_take_succ (c : VCfg) {l : List (K × List Nat)} {r : Nat} (h : r < l.length) :
    cost c (l.take (r + 1)) = cost c (l.take r) + (c.hs + 1 + (l[r]).2.length) := by
  rw [List.take_succ_eq_append_getElem h]
  simp only [cost, List.map_append, List.sum_append, List.map_cons, List.map_nil, List.sum_cons,
    List.sum_nil, Nat.add_zero]

theorem cost_take_le (c : VCfg) (l : List (K × List Nat)) (r : Nat) :
    cost c (l.take r) ≤ cost c l := by
  conv => rhs; rw [← List.take_append_drop r l]
  simp only [cost, List.map_append, List.sum_append]
  omega

/-- Step 1 of eviction: the positions from the end down to the longest prefix that leaves enough
space. -/
theorem evictWalk_spec {c : VCfg} {b : VB K} {l : List (K × List Nat)} {req : Nat}
    (h : Rep c b l) (hreq : req ≤ c.kb) :
    ∀ r, r ≤ l.length → ∃ q, q ≤ r ∧
      evictWalk c b req r (c.kb - cost c (l.take r)) = (List.range' q (r - q)).reverse ∧
      req + cost c (l.take q) ≤ c.kb ∧
      ∀ q', q < q' → q' ≤ r → ¬ (req + cost c (l.take q') ≤ c.kb) := by
  have hcost := h.cost
  have hsp := h.space
  intro r
  induction r with
  | zero =>
    intro _
    exact ⟨0, Nat.le_refl _, rfl, by simp [CCache.cost]; omega, by omega⟩
  | succ r ih =>
    intro hr
    have hle : cost c (l.take (r + 1)) ≤ c.kb := by
      have := cost_take_le c l (r + 1); omega
    have hct := cost_take_succ c (l := l) (r := r) (by omega)
    simp only [evictWalk]
    split
    · next hlt =>
      obtain ⟨q, hq1, hq2, hq3, hq4⟩ := ih (by omega)
      have hsz : (b.hdr r).size = (l[r]'(by omega)).2.length :=
        (h.key (i := r) (k := (l[r]'(by omega)).1) (v := (l[r]'(by omega)).2)
          (by rw [List.getElem?_eq_getElem (by omega)])).2.2
      refine ⟨q, by omega, ?_, hq3, ?_⟩
      · have e : c.kb - cost c (l.take (r + 1)) + (b.hdr r).size + c.hs + ds =
            c.kb - cost c (l.take r) := by rw [hsz]; simp only [ds]; omega
        rw [e, hq2]
        have e2 : r + 1 - q = (r - q) + 1 := by omega
        rw [e2, List.range'_concat]
        simp
        omega
      · intro q' h1 h2
        by_cases h3 : q' = r + 1
        · subst h3; omega
        · exact hq4 q' h1 (by omega)
    · next hlt =>
      exact ⟨r + 1, Nat.le_refl _, by simp, by omega, by omega⟩

/-- A prefix of the data section that ends with an evicted object (or is empty), cut into blocks. -/
inductive Blocks (ev : Seg K → Bool) : List (Seg K) → Prop
  | nil : Blocks ev []
  | snoc {P C a} : Blocks ev P → (∀ x ∈ C, ev x = false) → ev a = true → Blocks ev (P ++ C ++ [a])

theorem blocks_split (ev : Seg K → Bool) (segs : List (Seg K)) :
    ∃ P C, segs = P ++ C ∧ Blocks ev P ∧ ∀ x ∈ C, ev x = false := by
  induction segs using List.reverseRecOn with
  | nil => exact ⟨[], [], rfl, .nil, by simp⟩
  | append_singleton l x ih =>
    obtain ⟨P, C, rfl, hP, hC⟩ := ih
    by_cases hx : ev x = true
    · exact ⟨P ++ C ++ [x], [], by simp, .snoc hP hC hx, by simp⟩
    · refine ⟨P, C ++ [x], by simp, hP, ?_⟩
      intro y hy
      rcases List.mem_append.1 hy with hy | hy
      · exact hC y hy
      · simp only [List.mem_singleton] at hy; subst hy; simpa using hx

theorem segLen_append (l1 l2 : List (Seg K)) : segLen (l1 ++ l2) = segLen l1 + segLen l2 := by
  simp [segLen]

theorem filter_none {ev : Seg K → Bool} {C : List (Seg K)} (h : ∀ x ∈ C, ev x = false) :
    C.filter ev = [] ∧ C.filter (fun x => !ev x) = C := by
  constructor
  · rw [List.filter_eq_nil_iff]; intro x hx; simp [h x hx]
  · rw [List.filter_eq_self]; intro x hx; simp [h x hx]

theorem evictShift_spec {c : VCfg} (hkb : c.kb < 65536) {ev : Seg K → Bool} {P : List (Seg K)}
    (hP : Blocks ev P) :
    ∀ {Q : List (Seg K)} {d m : Nat} {b : VB K}, b.total ≤ c.kb →
      Chain b.hdr b.mem (c.kb - b.total) P m → Chain b.hdr b.mem (m + d) Q c.kb →
      ((P ++ Q).map (·.hi)).Nodup → (∀ g ∈ P ++ Q, g.si = g.hi) →
      let r := evictShift c ((P.filter ev).map (·.hi)).reverse d b
      r.2 = d + segLen (P.filter ev) ∧
      Chain r.1.hdr r.1.mem (c.kb - b.total + r.2) (P.filter (fun x => !ev x) ++ Q) c.kb := by
  induction hP with
  | nil =>
    intro Q d m b htot hc hq hn hs
    simp only [Chain] at hc
    subst hc
    refine ⟨?_, ?_⟩
    · simp [evictShift, segLen]
    · simpa [evictShift] using hq
  | @snoc P C a hP hC ha ih =>
    intro Q d m b htot hc hq hn hs
    obtain ⟨m2, hPC, hA⟩ := Chain.append.1 hc
    obtain ⟨m1, hc1, hc2⟩ := Chain.append.1 hPC
    obtain ⟨a1, a2, a3, a4⟩ := hA
    simp only [Chain] at a4
    have hl1 := hc1.le
    have hl2 := hc2.le
    have hl3 := hq.le
    obtain ⟨f1, f2⟩ := filter_none hC
    have hfil : (P ++ C ++ [a]).filter ev = P.filter ev ++ [a] := by
      rw [List.filter_append, List.filter_append, f1]; simp [ha]
    have hfil' : (P ++ C ++ [a]).filter (fun x => !ev x) = P.filter (fun x => !ev x) ++ C := by
      rw [List.filter_append, List.filter_append, f2]; simp [ha]
    rw [hfil, hfil']
    have hrev : ((P.filter ev ++ [a]).map (·.hi)).reverse =
        a.hi :: ((P.filter ev).map (·.hi)).reverse := by simp
    rw [hrev]
    -- the start of the chunk
    have hstart : chunkStart c b ((P.filter ev).map (·.hi)).reverse = m1 := by
      cases hP with
      | nil => simp only [Chain] at hc1; simp [chunkStart, firstOff, hc1]
      | @snoc P0 C0 a0 hP0 hC0 ha0 =>
        have e : ((List.filter ev (P0 ++ C0 ++ [a0])).map (·.hi)).reverse =
            a0.hi :: ((P0.filter ev).map (·.hi)).reverse := by
          rw [List.filter_append, List.filter_append, (filter_none hC0).1]; simp [ha0]
        rw [e]
        obtain ⟨m3, _, hA0⟩ := Chain.append.1 hc1
        obtain ⟨z1, z2, z3, z4⟩ := hA0
        simp only [Chain] at z4
        simp only [chunkStart, z1, ds]; omega
    -- names are distinct
    have hnC : (C.map (·.hi)).Nodup := by
      simp only [List.map_append, List.nodup_append] at hn; exact hn.1.1.2.1
    have hdis : (∀ x ∈ C, ∀ y ∈ P, x.hi ≠ y.hi) ∧ (∀ x ∈ C, ∀ y ∈ Q, x.hi ≠ y.hi) := by
      simp only [List.map_append, List.nodup_append, List.mem_append, List.mem_map,
        List.map_cons, List.map_nil] at hn
      constructor
      · intro x hx y hy e
        exact hn.1.1.2.2 y.hi ⟨y, hy, rfl⟩ x.hi ⟨x, hx, rfl⟩ e.symm
      · intro x hx y hy e
        exact hn.2.2 x.hi (Or.inl (Or.inr ⟨x, hx, rfl⟩)) y.hi ⟨y, hy, rfl⟩ e
    have hsz : (b.hdr a.hi).size = a.v.length := by rw [a1]
    have hoff : (b.hdr a.hi).off = m2 := by rw [a1]
    obtain ⟨d', hd'⟩ : ∃ d', d' = d + a.v.length + 1 := ⟨_, rfl⟩
    -- the bucket after moving the chunk
    obtain ⟨b', hb', ht', hP', hCQ⟩ : ∃ b' : VB K,
        b' = (if m2 - m1 = 0 then b else shiftEntries b m1 d' (m2 - m1)) ∧ b'.total = b.total ∧
        Chain b'.hdr b'.mem (c.kb - b.total) P m1 ∧ Chain b'.hdr b'.mem (m1 + d') (C ++ Q) c.kb := by
      refine ⟨_, rfl, ?_⟩
      split
      · next h0 =>
        have hm : m1 = m2 := by omega
        have hCn : C = [] := by
          cases C with
          | nil => rfl
          | cons x xs => have := hc2.2.2.2.le; omega
        subst hCn
        refine ⟨rfl, hc1, ?_⟩
        have e : m1 + d' = m + d := by omega
        rw [e]; exact hq
      · next h0 =>
        obtain ⟨s1, s2, s3, s4⟩ := shiftEntries_spec (d := d') hc2 hnC
          (fun g hg => hs g (by simp [hg])) (by omega)
        refine ⟨rfl, ?_, ?_⟩
        · apply hc1.frame
          · intro x hx
            apply s2
            intro hm
            obtain ⟨y, hy, hyx⟩ := List.mem_map.1 hm
            exact hdis.1 y hy x hx hyx
          · intro z h1 h2; exact s4 z (by omega)
        · apply Chain.append.2
          refine ⟨m2 + d', s1, ?_⟩
          have e : m2 + d' = m + d := by omega
          rw [e]
          apply hq.frame
          · intro x hx
            apply s2
            intro hm
            obtain ⟨y, hy, hyx⟩ := List.mem_map.1 hm
            exact hdis.2 y hy x hx hyx
          · intro z h1 h2; exact s4 z (by omega)
    have hstep : evictShift c (a.hi :: ((P.filter ev).map (·.hi)).reverse) d b =
        evictShift c ((P.filter ev).map (·.hi)).reverse d' b' := by
      rw [evictShift]
      rw [hstart, hoff, hsz, hb', hd']
      rfl
    rw [hstep]
    rw [← ht'] at hP'
    have := ih (Q := C ++ Q) (d := d') (m := m1) (b := b') (by omega) hP' hCQ
      (by
        refine hn.sublist (List.Sublist.map _ ?_)
        rw [← List.append_assoc, List.append_assoc (P ++ C)]
        exact List.Sublist.append_left (List.sublist_append_right _ _) _)
      (by
        intro g hg
        apply hs
        simp only [List.mem_append] at hg ⊢
        tauto)
    dsimp only at this
    rw [ht'] at this
    refine ⟨?_, ?_⟩
    · rw [this.1, segLen_append]; simp [segLen]; omega
    · rw [List.append_assoc]; exact this.2

/-- Objects of the data section are stored at increasing offsets. -/
theorem Chain.pairwise {hdr : Nat → Hdr K} {mem} {segs : List (Seg K)} {s e}
    (h : Chain hdr mem s segs e) :
    segs.Pairwise (fun g g' => (hdr g.hi).off < (hdr g'.hi).off) := by
  induction segs generalizing s with
  | nil => exact .nil
  | cons g gs ih =>
    obtain ⟨h1, h2, h3, h4⟩ := h
    refine .cons ?_ (ih h4)
    intro g' hg'
    have := (h4.off_mem hg').1
    rw [h1]; dsimp only; omega

/-- Sorting the evicted headers by offset gives the evicted objects in data order. -/
theorem sort_eq {hdr : Nat → Hdr K} {mem} {segs : List (Seg K)} {s e} {arr : List Nat}
    {ev : Seg K → Bool} (h : Chain hdr mem s segs e) (hn : (segs.map (·.hi)).Nodup)
    (ha : arr.Nodup) (hm : ∀ i, i ∈ arr ↔ ∃ g ∈ segs, g.hi = i ∧ ev g = true) :
    arr.mergeSort (fun x y => (hdr x).off ≤ (hdr y).off) = (segs.filter ev).map (·.hi) := by
  have hpw := h.pairwise
  apply List.Perm.eq_of_pairwise (le := fun x y => (hdr x).off ≤ (hdr y).off)
  · intro x y hx hy h1 h2
    rw [(List.mergeSort_perm _ _).mem_iff] at hx
    obtain ⟨g, hg, rfl, _⟩ := (hm x).1 hx
    rw [List.mem_map] at hy
    obtain ⟨g', hg', rfl⟩ := hy
    have hg'' := (List.mem_filter.1 hg').1
    -- two objects with the same offset coincide
    by_cases heq : g = g'
    · rw [heq]
    · exfalso
      have hoff : (hdr g.hi).off = (hdr g'.hi).off := by omega
      have := List.Pairwise.forall_of_forall_of_flip (R := fun g g' : Seg K =>
        g ≠ g' → (hdr g.hi).off ≠ (hdr g'.hi).off) (l := segs)
        (fun x _ hx => absurd rfl hx)
        (hpw.imp (fun h _ => by omega))
        (hpw.imp (fun h _ => by omega))
      exact this hg hg'' heq hoff
  · have := List.pairwise_mergeSort (le := fun x y => decide ((hdr x).off ≤ (hdr y).off))
      (by intro a b c; simp; omega) (by intro a b; simp; omega) arr
    exact this.imp (fun h => by simpa using h)
  · rw [List.pairwise_map]
    exact (hpw.filter _).imp (fun h => by omega)
  · refine (List.mergeSort_perm _ _).trans ?_
    rw [List.perm_ext_iff_of_nodup ha]
    · intro i
      rw [hm]
      simp only [List.mem_map, List.mem_filter]
      constructor
      · rintro ⟨g, h1, h2, h3⟩; exact ⟨g, ⟨h1, h3⟩, h2⟩
      · rintro ⟨g, ⟨h1, h3⟩, h2⟩; exact ⟨g, h1, h2, h3⟩
    · exact hn.sublist ((List.filter_sublist).map _)

/-- The prefix of entries that is kept. -/
def Keeps (c : VCfg) (req : Nat) (l : List (K × List Nat)) (q : Nat) : Prop :=
  q ≤ l.length ∧ q < 255 ∧ req + cost c (l.take q) ≤ c.kb ∧
    ∀ q', q < q' → q' ≤ l.length → ¬ (q' < 255 ∧ req + cost c (l.take q') ≤ c.kb)

theorem evictEntries_spec {c : VCfg} (hkb : c.kb < 65536) {b : VB K} {l : List (K × List Nat)}
    {req : Nat} (h : Rep c b l) (hreq : req ≤ c.kb) : ∃ q, Keeps c req l q ∧
      ((evictEntries c b req).1 = true ↔ q < l.length) ∧
      Rep c (evictEntries c b req).2.1 (l.take q) ∧
      (evictEntries c b req).2.2 = (l.drop q).reverse := by
  have hcost := h.cost
  have hsp := h.space
  have hnum := h.num
  have hlen := h.len
  have hfree : c.kb - b.total - c.hs * b.n = c.kb - cost c l := by rw [hlen]; omega
  by_cases hnone : c.kb - b.total - c.hs * b.n ≥ req ∧ b.n ≠ kMaxEntries
  · have he : evictEntries c b req = (false, b, []) := by
      simp only [evictEntries]; rw [if_pos hnone]
    rw [he]
    simp only [kMaxEntries] at hnone
    refine ⟨l.length, ⟨Nat.le_refl _, by omega, ?_, by omega⟩, by simp, ?_, ?_⟩
    · rw [List.take_length]; omega
    · rw [List.take_length]; exact h
    · simp
  · -- the evicted positions
    obtain ⟨arr, harr⟩ : ∃ arr, arr = (if b.n = kMaxEntries then
        (b.n - 1) :: evictWalk c b req (b.n - 1)
          (c.kb - b.total - c.hs * b.n + (b.hdr (b.n - 1)).size + c.hs + ds)
      else evictWalk c b req b.n (c.kb - b.total - c.hs * b.n)) := ⟨_, rfl⟩
    have hq : ∃ q, q < l.length ∧ Keeps c req l q ∧ arr = (List.range' q (l.length - q)).reverse := by
      by_cases hmax : b.n = kMaxEntries
      · rw [if_pos hmax] at harr
        simp only [kMaxEntries] at hmax
        have hl255 : l.length = 254 + 1 := by omega
        have hsz : (b.hdr 254).size = (l[254]'(by omega)).2.length :=
          (h.key (i := 254) (k := (l[254]'(by omega)).1) (v := (l[254]'(by omega)).2)
            (by rw [List.getElem?_eq_getElem (by omega)])).2.2
        have hct := cost_take_succ c (l := l) (r := 254) (by omega)
        rw [List.take_of_length_le (by omega)] at hct
        have hfr : c.kb - b.total - c.hs * b.n + (b.hdr 254).size + c.hs + ds =
            c.kb - cost c (l.take 254) := by
          rw [hfree, hsz]; simp only [ds]; omega
        rw [hmax] at harr
        rw [hmax] at hfr
        simp only [Nat.reduceSub] at harr
        rw [hfr] at harr
        obtain ⟨q, q1, q2, q3, q4⟩ := evictWalk_spec h hreq 254 (by omega)
        refine ⟨q, by omega, ⟨by omega, by omega, q3, ?_⟩, ?_⟩
        · intro q' h1 h2 h3
          exact q4 q' h1 (by omega) h3.2
        · rw [harr, q2, hl255]
          have e2 : 254 + 1 - q = (254 - q) + 1 := by omega
          rw [e2, List.range'_concat]
          simp
          omega
      · rw [if_neg hmax] at harr
        rw [hfree, hlen] at harr
        obtain ⟨q, q1, q2, q3, q4⟩ := evictWalk_spec h hreq l.length (Nat.le_refl _)
        rw [List.take_length] at q2
        have hlt : q < l.length := by
          rcases Nat.lt_or_ge q l.length with h1 | h1
          · exact h1
          · exfalso
            have : q = l.length := by omega
            rw [this, List.take_length] at q3
            exact hnone ⟨by omega, hmax⟩
        simp only [kMaxEntries] at hmax
        exact ⟨q, hlt, ⟨q1, by omega, q3, fun q' h1 h2 h3 => q4 q' h1 h2 h3.2⟩, by rw [harr, q2]⟩
    obtain ⟨q, hqlt, hkeep, harr'⟩ := hq
    have he : evictEntries c b req =
        (true, { (evictShift c (arr.mergeSort (fun x y => (b.hdr x).off ≤ (b.hdr y).off)).reverse 0 b).1 with
            n := b.n - arr.length
            total := b.total - (evictShift c
              (arr.mergeSort (fun x y => (b.hdr x).off ≤ (b.hdr y).off)).reverse 0 b).2 },
          arr.map fun i => (vKey b i, vVal b i)) := by
      simp only [evictEntries]; rw [if_neg hnone, ← harr]
    rw [he]
    refine ⟨q, hkeep, by simp [hqlt], ?_, ?_⟩
    · obtain ⟨segs, hc, hn, hs, hl⟩ := h.chain
      let ev : Seg K → Bool := fun g => decide (q ≤ g.hi)
      have hsort := sort_eq (arr := arr) (ev := ev) hc hn
        (by rw [harr']; exact List.nodup_reverse.2 List.nodup_range')
        (by
          intro i
          rw [harr', List.mem_reverse, List.mem_range'_1]
          constructor
          · rintro ⟨h1, h2⟩
            obtain ⟨g, hg, rfl⟩ := hi_ex hl (i := i) (by omega)
            exact ⟨g, hg, rfl, by simp [ev, h1]⟩
          · rintro ⟨g, hg, rfl, h1⟩
            have := hi_lt hl hg
            simp only [ev, decide_eq_true_eq] at h1
            omega)
      rw [hsort]
      obtain ⟨P, C, rfl, hP, hC⟩ := blocks_split ev segs
      obtain ⟨f1, f2⟩ := filter_none hC
      obtain ⟨m, c1, c2⟩ := Chain.append.1 hc
      have hfe : (P ++ C).filter ev = P.filter ev := by rw [List.filter_append, f1]; simp
      have hsh := evictShift_spec hkb hP (Q := C) (d := 0) (by omega) c1 c2 hn hs
      rw [← hfe] at hsh
      dsimp only at hsh
      obtain ⟨r, hr⟩ : ∃ r, r = evictShift c (((P ++ C).filter ev).map (·.hi)).reverse 0 b := ⟨_, rfl⟩
      rw [← hr] at hsh ⊢
      have hfn : P.filter (fun x => !ev x) ++ C = (P ++ C).filter (fun x => !ev x) := by
        rw [List.filter_append, f2]
      rw [hfn] at hsh
      have hlt : (l.take q).length = q := by rw [List.length_take]; omega
      have hD : r.2 ≤ b.total := by
        have h1 := hsh.2.le
        have := h.space
        omega
      have hlarr : b.n - arr.length = q := by rw [harr']; simp; omega
      refine ⟨by dsimp only; rw [hlt, hlarr], by omega, ?_, (P ++ C).filter (fun x => !ev x), ?_, ?_, ?_, ?_⟩
      · dsimp only
        rw [hlt]
        have := Nat.mul_le_mul_left c.hs (Nat.le_of_lt hqlt)
        omega
      · dsimp only
        have e : c.kb - (b.total - r.2) = c.kb - b.total + r.2 := by omega
        rw [e]; exact hsh.2
      · exact hn.sublist ((List.filter_sublist).map _)
      · intro g hg; exact hs g (List.mem_filter.1 hg).1
      · intro i k v
        rw [List.getElem?_take]
        constructor
        · intro hi
          split at hi
          · next hiq =>
            obtain ⟨g, hg, rfl, h2, h3⟩ := (hl i k v).1 hi
            refine ⟨g, List.mem_filter.2 ⟨hg, ?_⟩, rfl, h2, h3⟩
            simp only [ev, Bool.not_eq_true', decide_eq_false_iff_not]; omega
          · cases hi
        · rintro ⟨g, hg, rfl, h2, h3⟩
          obtain ⟨hg1, hg2⟩ := List.mem_filter.1 hg
          simp only [ev, Bool.not_eq_true', decide_eq_false_iff_not] at hg2
          rw [if_pos (by omega)]
          exact (hl _ _ _).2 ⟨g, hg1, rfl, h2, h3⟩
    · dsimp only
      rw [harr', List.map_reverse]
      congr 1
      apply List.ext_getElem?
      intro j
      rw [List.getElem?_map, List.getElem?_drop]
      by_cases hj : j < l.length - q
      · have hlt : q + j < l.length := by omega
        rw [List.getElem?_range' hj, List.getElem?_eq_getElem hlt]
        have := h.key (i := q + j) (k := l[q + j].1) (v := l[q + j].2)
          (by rw [List.getElem?_eq_getElem hlt])
        simp only [Option.map_some, Nat.one_mul, this.1, this.2.1]
      · rw [List.getElem?_eq_none (by simpa using hj), List.getElem?_eq_none (by omega)]
        rfl

end Verif.CCache
