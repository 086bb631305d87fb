import Verif.AllocClass.OpRel
namespace Verif.AllocClass
open Verif

theorem partitionFree_count (sl : Nat) (a : Addr) : ∀ (k : Nat) (f i n : List Addr),
    (partitionFree sl k f i n).1.count a + (partitionFree sl k f i n).2.1.count a + (partitionFree sl k f i n).2.2.count a =
      f.count a + i.count a + n.count a
  | 0, f, i, n => rfl
  | _ + 1, [], i, n => rfl
  | k + 1, b :: f, i, n => by
    unfold partitionFree
    split
    · rw [partitionFree_count sl a k]; simp only [List.count_cons]; omega
    · rw [partitionFree_count sl a k]; simp only [List.count_cons]; omega

theorem partitionFree_mem (sl : Nat) : ∀ (k : Nat) (f i n : List Addr), (∀ a ∈ i, a.1 = sl) → (∀ a ∈ n, a.1 ≠ sl) →
    (∀ a ∈ (partitionFree sl k f i n).2.1, a.1 = sl) ∧ (∀ a ∈ (partitionFree sl k f i n).2.2, a.1 ≠ sl)
  | 0, f, i, n, h1, h2 => ⟨h1, h2⟩
  | _ + 1, [], i, n, h1, h2 => ⟨h1, h2⟩
  | k + 1, b :: f, i, n, h1, h2 => by
    unfold partitionFree
    split
    · exact partitionFree_mem sl k f _ _ (by grind) h2
    · exact partitionFree_mem sl k f _ _ h1 (by grind)

theorem scan_pc (p : Prune) (ph : Phase) (a : Addr) : pc (some { p.scan with phase := ph }) a = pc (some p) a := by
  simp only [pc, Prune.scan]
  exact partitionFree_count p.slab a _ _ _ _

theorem markFreed_length (size : Nat) : ∀ (l : List Addr) (bits : List Bool), (markFreed size bits l).length = bits.length
  | [], bits => rfl
  | a :: l, bits => by
    have := markFreed_length size l (bits.set (a.2 / size) true)
    simpa [markFreed] using this

theorem markFreed_get (size : Nat) : ∀ (l : List Addr) (bits : List Bool) (i : Nat),
    (markFreed size bits l)[i]? = some true ↔ (bits[i]? = some true ∨ (i < bits.length ∧ ∃ a ∈ l, a.2 / size = i))
  | [], bits, i => by simp [markFreed]
  | a :: l, bits, i => by
    have := markFreed_get size l (bits.set (a.2 / size) true) i
    simp only [markFreed, List.foldl_cons] at this ⊢
    rw [this]
    simp only [List.getElem?_set, List.length_set, List.mem_cons, exists_eq_or_imp]
    by_cases h : a.2 / size = i
    · subst h
      by_cases h2 : a.2 / size < bits.length
      · simp [h2]
      · have : bits[a.2 / size]? = none := by simp; omega
        simp [h2, this]
    · simp [h]

theorem count_eq_zero_ne {l : List Addr} {a : Addr} (h : ∀ x ∈ l, x.1 ≠ a.1) : l.count a = 0 := by
  rw [List.count_eq_zero]; intro hm; exact h a hm rfl

/-- the bits after the free allocations found in the slab are marked -/
theorem bit_markFreed {size : Nat} {map : Nat → Option (List Bool)} {sl : Nat} {bits : List Bool} {l : List Addr} {a : Addr}
    (hm : map sl = some bits) (hl : bits.length = KS / size) (hin : ∀ x ∈ l, x.1 = sl ∧ chunk size x)
    (hle : l.count a + bit size map a ≤ 1) :
    bit size (upd map sl (some (markFreed size bits l))) a = bit size map a + l.count a := by
  by_cases ha : a.1 = sl
  · by_cases hc : chunk size a
    · have hb : bit size map a = if bits[a.2 / size]? = some true then 1 else 0 := by
        unfold bit; rw [ha, hm]; simp [hc]
      have hb' : bit size (upd map sl (some (markFreed size bits l))) a =
          if (markFreed size bits l)[a.2 / size]? = some true then 1 else 0 := by
        unfold bit; rw [ha]; simp [hc]
      have hm : a ∈ l ↔ ∃ x ∈ l, x.2 / size = a.2 / size := by
        constructor
        · exact fun h => ⟨a, h, rfl⟩
        · rintro ⟨x, hx, hxe⟩
          have := chunk_inj (hin x hx).2 hc ((hin x hx).1.trans ha.symm) hxe
          exact this ▸ hx
      rw [hb', hb]
      rw [hb] at hle
      have hlt : a.2 / size < bits.length := by rw [hl]; exact hc.2
      have hmf := markFreed_get size l bits (a.2 / size)
      rw [← hm] at hmf
      by_cases hal : a ∈ l
      · have hcp := List.count_pos_iff.2 hal
        rw [if_pos (hmf.2 (Or.inr ⟨hlt, hal⟩))]
        split at hle <;> split <;> first | contradiction | omega
      · rw [List.count_eq_zero.2 hal]
        have : ((markFreed size bits l)[a.2 / size]? = some true) ↔ bits[a.2 / size]? = some true := by rw [hmf]; simp [hal]
        simp [this]
    · have : l.count a = 0 := List.count_eq_zero.2 fun h => hc (hin a h).2
      simp [bit, hc, this]
  · have : l.count a = 0 := count_eq_zero_ne fun x hx => by rw [(hin x hx).1]; exact fun h => ha h.symm
    rw [this]; simp [bit, upd_ne _ _ ha]

theorem Inv.bit_le {cls pool size s c} (h : Inv cls pool size s c) (a : Addr) :
    c.live.count a + s.ac.freed.count a + pc s.ac.prune a + unc size s.ac.off s.ac.cur a + bit size s.ac.map a ≤ 1 := by
  rw [h.cnt]; unfold own; split <;> simp

theorem Inv.chunk_of_pos {cls pool size s c} (h : Inv cls pool size s c) {a : Addr}
    (h1 : 0 < c.live.count a + s.ac.freed.count a + pc s.ac.prune a + unc size s.ac.off s.ac.cur a + bit size s.ac.map a) :
    chunk size a := by
  rw [h.cnt] at h1
  by_contra hc
  simp [own, hc] at h1

/-- only the free list and the lists of the running release change -/
theorem inv_prune {cls pool size s c freed' can' p p' ab} (h : Inv cls pool size s c) (hp : s.ac.prune = some p)
    (hs : p'.slab = p.slab)
    (hc : ∀ a, freed'.count a + pc (some p') a = s.ac.freed.count a + pc (some p) a)
    (hph : phaseOK size freed' c.live p')
    (hab : c.aborted = true → ab = true)
    (hba : (p'.phase = .back ∨ p'.phase = .aborted) → ab = true)
    (hcan : ab = false → c.aborted = false → can' = false → s.ac.can = false ∧ freed' = []) :
    Inv cls pool size { s with ac := { s.ac with freed := freed', can := can', prune := some p' } } { c with aborted := ab } := by
  obtain ⟨hcls, hpool, hsize, size0, sizeKS, nodup, slabsNd, slabs, excl, hdrs, clsNe, foreign, bits, cur, off, cnt, maps,
    opensNd, pruneNot, pruning, openFree, phase, backAb, active, can⟩ := h
  constructor <;> (try simp only) <;> try assumption
  · intro a
    have := cnt a; have := hc a
    rw [hp] at *; omega
  · rw [pruning, hp]; simp [hs]
  · intro a ha
    have := openFree a ha; have := hc a
    rw [hp] at *; omega
  · intro q hq; cases hq; exact hph
  · intro q hq; cases hq; exact hba
  · intro h1 h2
    have h3 : c.aborted = false := by
      cases h : c.aborted
      · rfl
      · rw [hab h] at h1; cases h1
    have := hcan h1 h3 h2
    exact ⟨this.2, (can h3 this.1).2⟩

theorem activeOf_mem {size sl : Nat} {bits : List Bool} (h0 : 0 < size) (hl : bits.length = KS / size) (a : Addr) :
    a ∈ activeOf size sl bits ↔ a.1 = sl ∧ chunk size a ∧ bits[a.2 / size]? ≠ some true := by
  unfold activeOf
  simp only [List.mem_map, List.mem_filter, List.mem_range]
  constructor
  · rintro ⟨i, ⟨hi, hb⟩, rfl⟩
    refine ⟨rfl, (chunk_mul h0).2 (by omega), ?_⟩
    simp only [Nat.mul_div_cancel _ h0]
    simp [List.getD_eq_getElem?_getD, List.getElem?_eq_getElem hi] at hb ⊢
    exact hb
  · rintro ⟨rfl, hc, hb⟩
    have hlt : a.2 / size < bits.length := by rw [hl]; exact hc.2
    refine ⟨a.2 / size, ⟨hlt, ?_⟩, (chunk_eq hc).symm⟩
    simp [List.getD_eq_getElem?_getD, List.getElem?_eq_getElem hlt] at hb ⊢
    exact hb

theorem activeOf_nodup {size sl : Nat} {bits : List Bool} (h0 : 0 < size) : (activeOf size sl bits).Nodup := by
  unfold activeOf
  refine List.Nodup.map ?_ (List.nodup_range.filter _)
  intro i j hij
  simp at hij
  rcases hij with hij | hij
  · exact hij
  · omega

/-- the slab leaves the class: every allocation of it is free -/
theorem Inv.drop {cls pool size s c sl bits} (h : Inv cls pool size s c) (hm : s.ac.map sl = some bits)
    (hfr : ∀ a ∈ s.ac.freed, a.1 ≠ sl) (hpc : ∀ a : Addr, a.1 = sl → pc s.ac.prune a = 0)
    (hl : ∀ a ∈ c.live, a.1 ≠ sl) (a : Addr) :
    c.live.count a + s.ac.freed.count a + pc s.ac.prune a + unc size s.ac.off s.ac.cur a + bit size (upd s.ac.map sl none) a =
      own size s.ac.allocated (upd s.ac.map sl none) a := by
  have e := h.cnt a
  by_cases ha : a.1 = sl
  · have h1 : c.live.count a = 0 := List.count_eq_zero.2 fun hh => hl a hh ha
    have h2 : s.ac.freed.count a = 0 := List.count_eq_zero.2 fun hh => hfr a hh ha
    have h3 := hpc a ha
    have h4 := (h.excl sl (by simp [hm])).2
    have h5 : unc size s.ac.off s.ac.cur a = 0 := by
      unfold unc; rw [if_neg]; rintro ⟨g, _⟩; exact h4 (ha ▸ h.cur _ g)
    rw [h1, h2, h3, h5]
    subst ha
    simp [bit, own, h4]
  · rw [bit_none hm a] at e
    simp only [ha, false_and, if_false, Nat.add_zero] at e
    rw [e]; simp [own, upd_ne _ _ ha]

/-- the slab returns to the class with what is free in it -/
theorem Inv.back {cls pool size s c sl bits} (h : Inv cls pool size s c) (hm : s.ac.map sl = some bits) (a : Addr) :
    c.live.count a + (s.ac.restore sl bits).freed.count a + pc s.ac.prune a + unc size s.ac.off s.ac.cur a +
      bit size (upd s.ac.map sl none) a = own size (s.ac.allocated ++ [sl]) (upd s.ac.map sl none) a := by
  have e := h.cnt a
  rw [bit_none hm a] at e
  have hr := restore_count (ac := s.ac) (sl := sl) (bits := bits) (by rw [h.hsize]; exact h.size0) (by rw [h.hsize]; exact h.bits _ _ hm) a
  rw [h.hsize] at hr
  rw [hr]
  have : own size (s.ac.allocated ++ [sl]) (upd s.ac.map sl none) a = own size s.ac.allocated s.ac.map a := by
    unfold own
    by_cases ha : a.1 = sl
    · subst ha; simp [hm]
    · simp [upd_ne _ _ ha, ha]
  rw [this, ← e]; omega

theorem isSome_upd_none {V : Type} {map : Nat → Option V} {x y : Nat} :
    (upd map x none y).isSome = true ↔ y ≠ x ∧ (map y).isSome = true := by
  by_cases hy : y = x
  · subst hy; simp
  · rw [upd_ne _ _ hy]; simp [hy]

/-- the slab leaves the class -/
theorem inv_release {cls pool size s c sl bits pr op active' h'} (h : Inv cls pool size s c) (hm : s.ac.map sl = some bits)
    (hfr : ∀ a ∈ s.ac.freed, a.1 ≠ sl) (hpc : ∀ a : Addr, a.1 = sl → pc s.ac.prune a = 0)
    (hl : ∀ a ∈ c.live, a.1 ≠ sl) (hh : (h' : Hdr).cls = -1)
    (hpr : (pr = s.ac.prune ∧ op = c.opens.erase sl ∧ c.pruning ≠ some sl ∧ active' = (op.length : Int)) ∨
           (pr = none ∧ op = c.opens ∧ sl ∉ c.opens ∧ c.pruning = some sl ∧ active' = s.ac.active ∧ ∀ a : Addr, pc s.ac.prune a = 0)) :
    Inv cls pool size
      { s with ac := { s.ac with map := upd s.ac.map sl none, prune := pr, active := active' }, hdr := upd s.hdr sl h' }
      { c with slabs := c.slabs.erase sl, opens := op, pruning := pr.map (·.slab) } := by
  have hcnt := h.drop hm hfr hpc hl
  obtain ⟨hcls, hpool, hsize, size0, sizeKS, nodup, slabsNd, slabs, excl, hdrs, clsNe, foreign, bits, cur, off, cnt, maps,
    opensNd, pruneNot, pruning, openFree, phase, backAb, active, can⟩ := h
  have hpc2 : ∀ a, pc pr a = pc s.ac.prune a := by
    intro a
    rcases hpr with ⟨rfl, _⟩ | ⟨rfl, _, _, _, _, h1⟩
    · rfl
    · rw [h1]; rfl
  have hops : ∀ x, x ∈ op ↔ x ∈ c.opens ∧ x ≠ sl := by
    intro x
    rcases hpr with ⟨_, rfl, _⟩ | ⟨_, rfl, h1, _⟩
    · rw [opensNd.mem_erase_iff]; tauto
    · constructor
      · exact fun hx => ⟨hx, fun e => h1 (e ▸ hx)⟩
      · exact fun hx => hx.1
  constructor <;> (try simp only [isSome_upd_none]) <;> try assumption
  · exact slabsNd.erase _
  · intro x
    have := excl sl (by simp [hm])
    rw [slabsNd.mem_erase_iff, slabs]; grind
  · intro x hx; exact excl x hx.2
  · intro x hx
    rw [slabsNd.mem_erase_iff] at hx
    rw [upd_ne _ _ hx.1, upd_ne _ _ hx.1]; exact hdrs x hx.2
  · intro x hx
    by_cases hxs : x = sl
    · subst hxs; simp only [upd_same, hh]; grind
    · rw [upd_ne _ _ hxs]
      exact foreign x (fun h => hx (by rw [slabsNd.mem_erase_iff]; exact ⟨hxs, h⟩))
  · intro x l hx
    by_cases hxs : x = sl
    · subst hxs; simp at hx
    · rw [upd_ne _ _ hxs] at hx; exact bits _ _ hx
  · intro a; rw [hpc2]; exact hcnt a
  · intro x
    rw [maps, hops]
    rcases hpr with ⟨rfl, _, h1, _⟩ | ⟨rfl, _, h1, h2, _⟩
    · rw [← pruning]; grind
    · grind
  · rcases hpr with ⟨_, rfl, _⟩ | ⟨_, rfl, _⟩
    · exact opensNd.erase _
    · exact opensNd
  · intro x hx
    rw [hops]
    rcases hpr with ⟨rfl, _⟩ | ⟨rfl, _⟩
    · rw [← pruning] at hx
      exact fun h => pruneNot x hx h.1
    · simp at hx
  · intro a ha
    rw [hops] at ha
    rw [hpc2]; exact openFree a ha.1
  · intro p hp
    rcases hpr with ⟨rfl, _⟩ | ⟨rfl, _⟩
    · exact phase p hp
    · simp at hp
  · intro p hp
    rcases hpr with ⟨rfl, _⟩ | ⟨rfl, _⟩
    · exact backAb p hp
    · simp at hp
  · rcases hpr with ⟨_, rfl, _, h1⟩ | ⟨_, rfl, _, _, h1, _⟩
    · exact h1
    · rw [h1, active]

/-- the slab is again one of the class -/
theorem inv_restore {cls pool size s c sl bits pr op active' h'} (h : Inv cls pool size s c) (hm : s.ac.map sl = some bits)
    (hh : (h' : Hdr) = { s.hdr sl with marked := false })
    (hpr : (pr = s.ac.prune ∧ op = c.opens.erase sl ∧ c.pruning ≠ some sl ∧ active' = (op.length : Int)) ∨
           (pr = none ∧ op = c.opens ∧ sl ∉ c.opens ∧ c.pruning = some sl ∧ active' = s.ac.active ∧ ∀ a : Addr, pc s.ac.prune a = 0)) :
    Inv cls pool size
      { s with ac := { s.ac.restore sl bits with map := upd s.ac.map sl none, allocated := s.ac.allocated ++ [sl],
                                                 prune := pr, active := active' }, hdr := upd s.hdr sl h' }
      { c with opens := op, pruning := pr.map (·.slab) } := by
  have hcnt := h.back hm
  have hrc := restore_count (ac := s.ac) (sl := sl) (bits := bits) (by rw [h.hsize]; exact h.size0) (by rw [h.hsize]; exact h.bits _ _ hm)
  obtain ⟨hcls, hpool, hsize, size0, sizeKS, nodup, slabsNd, slabs, excl, hdrs, clsNe, foreign, bits', cur, off, cnt, maps,
    opensNd, pruneNot, pruning, openFree, phase, backAb, active, can⟩ := h
  have hpc2 : ∀ a, pc pr a = pc s.ac.prune a := by
    intro a
    rcases hpr with ⟨rfl, _⟩ | ⟨rfl, _, _, _, _, h1⟩
    · rfl
    · rw [h1]; rfl
  have hops : ∀ x, x ∈ op ↔ x ∈ c.opens ∧ x ≠ sl := by
    intro x
    rcases hpr with ⟨_, rfl, _⟩ | ⟨_, rfl, h1, _⟩
    · rw [opensNd.mem_erase_iff]; tauto
    · constructor
      · exact fun hx => ⟨hx, fun e => h1 (e ▸ hx)⟩
      · exact fun hx => hx.1
  have hex := excl sl (by simp [hm])
  have hdr1 := hdrs sl ((slabs sl).2 (by simp [hm]))
  have hmemf : ∀ a, a ∈ (s.ac.restore sl bits).freed → a ∈ s.ac.freed ∨ a.1 = sl := by
    intro a ha
    have h1 := List.count_pos_iff.2 ha
    rw [hrc] at h1
    by_cases h2 : a.1 = sl
    · exact Or.inr h2
    · simp [h2] at h1; exact Or.inl h1
  have hrest : (s.ac.restore sl bits).cur = s.ac.cur ∧ (s.ac.restore sl bits).off = s.ac.off ∧
     (s.ac.restore sl bits).size = s.ac.size ∧ (s.ac.restore sl bits).freeSlabs = s.ac.freeSlabs ∧
     (s.ac.restore sl bits).cls = s.ac.cls ∧ (s.ac.restore sl bits).pool = s.ac.pool := ⟨rfl, rfl, rfl, rfl, rfl, rfl⟩
  obtain ⟨r1, r2, r3, r4, r5, r6⟩ := hrest
  constructor <;> (try simp only [isSome_upd_none, r1, r2, r3, r4, r5, r6]) <;> try assumption
  · rw [← List.append_assoc, List.nodup_append]
    refine ⟨nodup, by simp, ?_⟩
    intro x hx y hy
    simp at hy; subst hy; rintro rfl; simp at hx; tauto
  · intro x
    rw [slabs]; grind
  · intro x hx
    have := excl x hx.2; grind
  · intro x hx
    by_cases hxs : x = sl
    · subst hxs
      simp only [upd_same, hh]
      simp; grind
    · rw [upd_ne _ _ hxs, upd_ne _ _ hxs]; exact hdrs x hx
  · intro x hx
    by_cases hxs : x = sl
    · subst hxs; exact absurd ((slabs x).2 (by simp [hm])) hx
    · rw [upd_ne _ _ hxs]
      exact foreign x hx
  · intro x l hx
    by_cases hxs : x = sl
    · subst hxs; simp at hx
    · rw [upd_ne _ _ hxs] at hx; exact bits' _ _ hx
  · intro x hx; simp [cur x hx]
  · intro a; rw [hpc2]; exact hcnt a
  · intro x
    rw [maps, hops]
    rcases hpr with ⟨rfl, _, h1, _⟩ | ⟨rfl, _, h1, h2, _⟩
    · rw [← pruning]; grind
    · grind
  · rcases hpr with ⟨_, rfl, _⟩ | ⟨_, rfl, _⟩
    · exact opensNd.erase _
    · exact opensNd
  · intro x hx
    rw [hops]
    rcases hpr with ⟨rfl, _⟩ | ⟨rfl, _⟩
    · rw [← pruning] at hx
      exact fun h => pruneNot x hx h.1
    · simp at hx
  · intro a ha
    rw [hops] at ha
    rw [hpc2, hrc]
    have := openFree a ha.1
    simp [ha.2, this]
  · intro p hp
    rcases hpr with ⟨rfl, _, hne, _⟩ | ⟨rfl, _⟩
    · have := phase p hp
      have hsl : p.slab ≠ sl := by
        rintro rfl; apply hne; rw [pruning, hp]; rfl
      unfold phaseOK at this ⊢
      grind
    · simp at hp
  · intro p hp
    rcases hpr with ⟨rfl, _⟩ | ⟨rfl, _⟩
    · exact backAb p hp
    · simp at hp
  · rcases hpr with ⟨_, rfl, _, h1⟩ | ⟨_, rfl, _, _, h1, _⟩
    · exact h1
    · rw [h1, active]
  · intro h1 h2
    obtain ⟨h3, h4⟩ := restore_can h2
    obtain ⟨g1, g2, g3⟩ := can h1 h3
    refine ⟨h4.trans g1, g2, ?_⟩
    simpa [AC.canCarve, r1, r2, r3] using g3

theorem inv_abort {cls pool size s c sl s'} (h : Inv cls pool size s c) (ho : sl ∈ c.opens) (he : abortRelease s sl = .ok s') :
    Inv cls pool size s' { c with opens := c.opens.erase sl } := by
  unfold abortRelease at he
  split at he
  · simp at he
  rename_i bits hm
  simp only [Except.ok.injEq] at he
  subst he
  have hd := h.hdrs sl ((h.slabs sl).2 (by simp [hm]))
  have hlen : (c.opens.erase sl).length = c.opens.length - 1 := List.length_erase_of_mem ho
  have hpos : 0 < c.opens.length := List.length_pos_of_mem ho
  have := inv_restore (pr := s.ac.prune) (op := c.opens.erase sl) (active' := s.ac.active - 1)
    (h' := { (s.hdr sl).assign s.ac.cls s.ac.size with marked := false }) h hm
    (by simp [Hdr.assign, h.hcls, h.hsize, ← hd.2.2.1, ← hd.2.2.2.1])
    (Or.inl ⟨rfl, rfl, fun hp => h.pruneNot sl hp ho, by rw [h.active, hlen]; omega⟩)
  rw [← h.pruning] at this
  exact this

theorem abort_ok {cls pool size s c sl} (h : Inv cls pool size s c) (ho : sl ∈ c.opens) : ∃ s', abortRelease s sl = .ok s' := by
  have := (h.maps sl).2 (Or.inl ho)
  obtain ⟨bits, hm⟩ := Option.isSome_iff_exists.1 this
  exact ⟨_, by simp [abortRelease, hm]; rfl⟩

/-- all bits are set exactly if no allocation of the slab is live -/
theorem all_iff {cls pool size s c sl bits} (h : Inv cls pool size s c) (ho : sl ∈ c.opens) (hm : s.ac.map sl = some bits) :
    bits.all id = true ↔ ∀ a ∈ c.live, a.1 ≠ sl := by
  have hl := h.bits _ _ hm
  constructor
  · intro ha a hal hsl
    obtain ⟨_, _, _, _, hb, hc, _⟩ := h.live_facts hal
    have hlt : a.2 / size < bits.length := by rw [hl]; exact hc.2
    have : bits[a.2 / size] = true := List.all_eq_true.1 ha _ (List.getElem_mem hlt)
    simp [bit, hc, hsl, hm, hlt, this] at hb
  · intro hno
    rw [List.all_eq_true]
    intro b hb
    obtain ⟨i, hi, rfl⟩ := List.getElem_of_mem hb
    have hc : chunk size (sl, i * size) := (chunk_mul h.size0).2 (by omega)
    have e := h.cnt (sl, i * size)
    have h1 : c.live.count (sl, i * size) = 0 := List.count_eq_zero.2 fun hh => hno _ hh rfl
    have h2 := h.openFree (sl, i * size) ho
    have h4 := (h.excl sl (by simp [hm])).2
    have h5 : unc size s.ac.off s.ac.cur (sl, i * size) = 0 := by
      unfold unc; rw [if_neg]; rintro ⟨g, _⟩; exact h4 (h.cur _ g)
    rw [h1, h2.1, h2.2, h5] at e
    simp [own, hc, hm, bit, Nat.mul_div_cancel _ h.size0, List.getElem?_eq_getElem hi] at e
    exact e

theorem inv_complete {cls pool size s c sl s'} (h : Inv cls pool size s c) (ho : sl ∈ c.opens)
    (he : completeRelease s sl = .ok s') :
    Inv cls pool size s' { c with opens := c.opens.erase sl, slabs := c.slabs.erase sl } := by
  unfold completeRelease at he
  split at he
  · simp at he
  split at he
  · simp at he
  unfold allFreed at he
  cases hm : s.ac.map sl with
  | none => simp [hm] at he
  | some bits =>
  simp only [hm] at he
  cases hb : bits.all id with
  | false => simp [hb] at he
  | true =>
  simp only [hb, Except.ok.injEq] at he
  subst he
  have hno := (all_iff h ho hm).1 hb
  have hlen : (c.opens.erase sl).length = c.opens.length - 1 := List.length_erase_of_mem ho
  have hpos : 0 < c.opens.length := List.length_pos_of_mem ho
  have := inv_release (pr := s.ac.prune) (op := c.opens.erase sl) (active' := s.ac.active - 1) (h' := (s.hdr sl).clear) h hm
    (fun a ha hsl => by
      have h1 := (h.openFree a (hsl ▸ ho)).1
      rw [List.count_eq_zero] at h1; exact h1 ha)
    (fun a hsl => (h.openFree a (hsl ▸ ho)).2) hno rfl
    (Or.inl ⟨rfl, rfl, fun hp => h.pruneNot sl hp ho, by rw [h.active, hlen]; omega⟩)
  rw [← h.pruning] at this
  exact this

/-- completing does not throw; it waits while allocations of the slab are live -/
theorem complete_iff {cls pool size s c sl} (h : Inv cls pool size s c) (ho : sl ∈ c.opens) :
    ((∃ s', completeRelease s sl = .ok s') ↔ ∀ a ∈ c.live, a.1 ≠ sl) ∧
    ((∃ a ∈ c.live, a.1 = sl) → completeRelease s sl = .error .disabled) := by
  have hs := (h.maps sl).2 (Or.inl ho)
  obtain ⟨bits, hm⟩ := Option.isSome_iff_exists.1 hs
  have hd := h.hdrs sl ((h.slabs sl).2 (by simp [hm]))
  have hall := all_iff h ho hm
  have hmk : (s.hdr sl).marked = true := by rw [hd.2.2.2.2, hm]; rfl
  have hval : completeRelease s sl = match bits.all id with
      | false => .error .disabled
      | true => .ok { s with ac := { s.ac with map := upd s.ac.map sl none, active := s.ac.active - 1 },
                                 hdr := upd s.hdr sl (s.hdr sl).clear } := by
    unfold completeRelease
    simp only [CS.header, hd.1, if_true, hd.2.2.1, h.hcls, hmk, ne_eq, not_true, or_self, if_false, allFreed, hm]
    cases bits.all id <;> rfl
  constructor
  · rw [← hall, hval]
    cases hb : bits.all id <;> simp
  · rintro ⟨a, ha, hsl⟩
    cases hb : bits.all id with
    | false => rw [hval, hb]
    | true => exact absurd hsl (hall.1 hb a ha)

end Verif.AllocClass
