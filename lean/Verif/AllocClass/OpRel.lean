import Verif.AllocClass.OpFree
namespace Verif.AllocClass
open Verif

theorem initBits_length (c : AC) (sl : Nat) : (c.initBits sl).length = KS / c.size := by
  unfold AC.initBits; split <;> simp [AC.per]

theorem off_div_le {n x y : Nat} (h0 : 0 < n) (hx : x % n = 0) : x / n ≤ y / n ↔ x ≤ y := by
  constructor
  · intro h
    have a := Nat.div_add_mod x n
    have := Nat.mul_le_mul_left n h
    have := Nat.mul_div_le y n
    omega
  · intro h; exact Nat.div_le_div_right h

theorem initBits_get {c : AC} {sl : Nat} {a : Addr} (h0 : 0 < c.size) (ho : c.off % c.size = 0) (hc : chunk c.size a) :
    (c.initBits sl)[a.2 / c.size]? = some true ↔ c.cur = some sl ∧ c.off ≤ a.2 := by
  unfold AC.initBits
  have := hc.2
  split
  · rename_i h
    simp only [List.getElem?_mapIdx, List.getElem?_replicate, AC.per, this, if_true, Option.map_some, Option.some.injEq, h, true_and]
    by_cases h3 : c.off ≤ a.2 <;> simp [off_div_le h0 ho, h3]
  · rename_i h
    simp [h, List.getElem?_replicate]

theorem pick_mem {s : CS} {r sl} (hp : s.ac.pick r = some sl) :
    sl ∈ s.ac.freeSlabs ∨ sl ∈ s.ac.allocated := by
  unfold AC.pick at hp
  split at hp
  · simp at hp; subst hp; simp [*]
  · exact Or.inr (List.mem_of_getElem? hp)

/-- what startSlabRelease does first -/
theorem relStart_cases {s : CS} {hint r s' o} (h : relStart s hint r = .ok (s', o)) :
    ∃ sl, relSlab s hint r = some sl ∧ sl < s.next ∧ s.ac.prune = none ∧
      (s.hdr sl).cls = s.ac.cls ∧ (s.hdr sl).pool = s.ac.pool ∧ (s.hdr sl).marked = false ∧
      ((sl ∈ s.ac.freeSlabs ∧ o = some sl ∧
          s' = { s with ac := { s.ac with freeSlabs := swapRemove s.ac.freeSlabs sl },
                        hdr := upd s.hdr sl ((s.hdr sl).assign (-1) 0) }) ∨
       (sl ∉ s.ac.freeSlabs ∧ sl ∈ s.ac.allocated ∧ o = none ∧
          s' = { s with
                  ac := { s.ac with
                    map := upd s.ac.map sl (some (s.ac.initBits sl))
                    allocated := swapRemove s.ac.allocated sl
                    off := if s.ac.cur = some sl then 0 else s.ac.off
                    cur := if s.ac.cur = some sl then none else s.ac.cur
                    prune := some ⟨sl, [], [], [], .take⟩ }
                  hdr := upd s.hdr sl { s.hdr sl with marked := true } })) := by
  unfold relStart at h
  split at h
  · simp at h
  rename_i hp
  split at h
  · simp at h
  split at h
  · simp at h
  rename_i sl hsl
  split at h
  · simp at h
  rename_i hd hh
  unfold CS.header at hh
  split at hh
  swap
  · simp at hh
  rename_i hlt
  cases hh
  split at h
  · simp at h
  rename_i hk
  refine ⟨sl, hsl, hlt, by simpa using hp, by grind, by grind, by grind, ?_⟩
  split at h
  · simp only [Except.ok.injEq, Prod.mk.injEq] at h
    rename_i hm
    exact Or.inl ⟨hm, h.2.symm, h.1.symm⟩
  split at h
  · simp at h
  split at h
  · simp at h
  simp only [Except.ok.injEq, Prod.mk.injEq] at h
  rename_i h1 h2 h3
  exact Or.inr ⟨h1, by simpa using h3, h.2.symm, h.1.symm⟩

theorem inv_relStart {cls pool size s c hint r s' o} (h : Inv cls pool size s c) (he : relStart s hint r = .ok (s', o)) :
    Inv cls pool size s' (c.afterStart o (relSlab s hint r)) := by
  obtain ⟨sl, hsl, hlt, hnp, hc1, hc2, hc3, hcase⟩ := relStart_cases he
  rw [hsl]
  obtain ⟨hcls, hpool, hsize, size0, sizeKS, nodup, slabsNd, slabs, excl, hdrs, clsNe, foreign, bits, cur, off, cnt, maps,
    opensNd, pruneNot, pruning, openFree, phase, backAb, active, can⟩ := h
  have nd1 : s.ac.freeSlabs.Nodup := (List.nodup_append.1 nodup).1
  have nd2 : s.ac.allocated.Nodup := (List.nodup_append.1 nodup).2.1
  have ndx : ∀ x ∈ s.ac.freeSlabs, x ∉ s.ac.allocated := fun x h1 h2 => (List.nodup_append.1 nodup).2.2 x h1 x h2 rfl
  have hnone : s.ac.map sl = none := by
    have h1 : sl ∈ c.slabs := by
      rw [slabs]; rcases hcase with ⟨h1, _⟩ | ⟨_, h1, _⟩ <;> tauto
    have := (hdrs sl h1).2.2.2.2
    rw [hc3] at this
    cases hm : s.ac.map sl <;> simp [hm] at this ⊢
  rcases hcase with ⟨hm, rfl, rfl⟩ | ⟨hm1, hm, rfl, rfl⟩
  · simp only [Client.afterStart]
    have hmem := fun y => mem_swapRemove (y := y) nd1 hm
    have hne := ndx sl hm
    constructor <;> (try simp only [hmem]) <;> try assumption
    · rw [List.nodup_append]
      refine ⟨nodup_swapRemove nd1 hm, nd2, ?_⟩
      intro x h1 y h2
      rw [hmem] at h1
      rintro rfl
      exact ndx x h1.1 h2
    · exact slabsNd.erase _
    · intro x
      rw [slabsNd.mem_erase_iff, slabs]
      grind
    · intro x hx
      exact ⟨fun h => (excl x hx).1 h.1, (excl x hx).2⟩
    · intro x hx
      rw [slabsNd.mem_erase_iff] at hx
      rw [upd_ne _ _ hx.1]; exact hdrs x hx.2
    · intro x hx
      by_cases hxs : x = sl
      · subst hxs
        simp [Hdr.assign]; omega
      · rw [upd_ne _ _ hxs]
        exact foreign x (fun h => hx (by rw [slabsNd.mem_erase_iff]; exact ⟨hxs, h⟩))
    · intro h1 h2
      have := can h1 h2
      rw [this.2.1] at hm; simp at hm
  · have hmem := fun y => mem_swapRemove (y := y) nd2 hm
    have hsome : ∀ y, (upd s.ac.map sl (some (s.ac.initBits sl)) y).isSome = true ↔ y = sl ∨ (s.ac.map y).isSome = true := by
      intro y
      by_cases hy : y = sl
      · subst hy; simp
      · rw [upd_ne _ _ hy]; simp [hy]
    have hnpr : c.pruning = none := by simp [pruning, hnp]
    constructor <;> (try simp only [hmem, hsome, Client.afterStart]) <;> try assumption
    · rw [List.nodup_append]
      refine ⟨nd1, nodup_swapRemove nd2 hm, ?_⟩
      intro x h1 y h2
      rw [hmem] at h2
      rintro rfl
      exact ndx x h1 h2.1
    · intro x
      rw [slabs]
      grind
    · intro x hx
      rcases hx with rfl | hx
      · exact ⟨hm1, fun h => h.2 rfl⟩
      · exact ⟨(excl x hx).1, fun h => (excl x hx).2 h.1⟩
    · intro x hx
      have hx' := hx
      rw [slabs] at hx'
      by_cases hxs : x = sl
      · subst hxs
        simp only [upd_same]
        have := hdrs x hx
        simp; grind
      · rw [upd_ne _ _ hxs, upd_ne _ _ hxs]; exact hdrs x hx
    · intro x hx
      by_cases hxs : x = sl
      · subst hxs
        exact absurd ((slabs x).2 (Or.inr (Or.inl hm))) hx
      · rw [upd_ne _ _ hxs]
        exact foreign x hx
    · intro x l hl
      by_cases hxs : x = sl
      · subst hxs
        simp at hl
        rw [← hl, initBits_length, hsize]
      · rw [upd_ne _ _ hxs] at hl; exact bits _ _ hl
    · intro x hx
      split at hx
      · simp at hx
      · refine ⟨cur x hx, ?_⟩
        rintro rfl; contradiction
    · split
      · simp
      · exact off
    · intro a
      have e := cnt a
      rw [hnp] at e
      have hu : ∀ (a : Addr), chunk size a → ((s.ac.initBits sl)[a.2 / size]? = some true ↔ s.ac.cur = some sl ∧ s.ac.off ≤ a.2) := by
        intro a ha
        have := initBits_get (c := s.ac) (sl := sl) (a := a) (by omega) (by rw [hsize]; exact off) (by rw [hsize]; exact ha)
        rwa [hsize] at this
      have hu := hu a
      clear hdrs slabs foreign phase openFree cnt maps excl
      simp only [pc] at e ⊢
      simp only [List.count_nil, Nat.add_zero] at e ⊢
      by_cases hc : chunk size a
      · simp only [hc, true_imp_iff] at hu
        by_cases ha : a.1 = sl
        · subst ha
          simp only [own, unc, bit, hc, hnone, upd_same, hmem] at e ⊢
          by_cases h4 : s.ac.cur = some a.1
          · by_cases h3 : s.ac.off ≤ a.2 <;> simp_all
          · simp_all
        · have ha' : ¬ sl = a.1 := fun h => ha h.symm
          simp only [own, unc, bit, hc, upd_ne _ _ ha, hmem] at e ⊢
          by_cases h4 : s.ac.cur = some sl
          · simp_all
          · simp_all
      · simpa [own, unc, bit, hc] using e
    · intro x
      simp
      rw [maps]
      simp [hnpr]; tauto
    · intro x hx
      simp at hx; subst hx
      intro h1
      have := (maps sl).2 (Or.inl h1)
      simp [hnone] at this
    · rfl
    · intro a ha
      exact ⟨(openFree a ha).1, by simp [pc]⟩
    · rintro p hp
      cases hp
      simp [phaseOK]
    · rintro p hp
      cases hp
      simp
    · intro h1 h2
      have := can h1 h2
      refine ⟨this.1, this.2.1, ?_⟩
      have h3 := this.2.2
      simp only [AC.canCarve] at h3 ⊢
      split <;> simp_all

/-- startSlabRelease finds nothing it says cannot be -/
theorem relStart_corrupt {cls pool size s c} (h : Inv cls pool size s c) (hint r) : relStart s hint r ≠ .error .corrupt := by
  intro he
  unfold relStart at he
  split at he
  · simp at he
  split at he
  · simp at he
  split at he
  · simp at he
  rename_i sl hsl
  split at he
  · simp at he
  rename_i hd hh
  unfold CS.header at hh
  split at hh
  swap
  · simp at hh
  cases hh
  split at he
  · simp at he
  rename_i hk
  split at he
  · simp at he
  rename_i h1
  have hf := h.foreign sl
  have h2 : sl ∈ c.slabs := by
    by_contra h3
    apply hf h3
    rw [← h.hcls, ← h.hpool]; tauto
  have h3 := (h.hdrs sl h2).2.2.2.2
  have h4 := (h.slabs sl).1 h2
  split at he
  · grind
  split at he
  · grind
  · simp at he

end Verif.AllocClass
