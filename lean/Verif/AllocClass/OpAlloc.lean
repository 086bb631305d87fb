import Verif.AllocClass.Lemmas
namespace Verif.AllocClass
open Verif

theorem inv_init {cls pool size hdr next} (h1 : cls ≠ -1) (h0 : 0 < size) (h2 : size ≤ KS)
    (h3 : ∀ sl, ¬ ((hdr sl : Hdr).cls = cls ∧ (hdr sl).pool = pool)) :
    Inv cls pool size ⟨AC.new cls pool size, hdr, next⟩ ⟨[], [], [], none, false⟩ := by
  constructor <;> simp_all [AC.new, pc, unc, bit, own]

theorem inv_addSlab {cls pool size s c sl} (h : Inv cls pool size s c) (h1 : sl ∉ c.slabs) (h2 : sl < s.next)
    (h3 : (s.hdr sl).pool = s.ac.pool) (h4 : (s.hdr sl).marked = false) :
    Inv cls pool size (addSlab s sl) { c with slabs := sl :: c.slabs } := by
  obtain ⟨hcls, hpool, hsize, size0, sizeKS, nodup, slabsNd, slabs, excl, hdrs, clsNe, foreign, bits, cur, off, cnt, maps,
    opensNd, pruneNot, pruning, openFree, phase, backAb, active, can⟩ := h
  constructor <;> (try simp only [addSlab]) <;> try assumption
  · have := slabs sl; grind
  · grind
  · grind
  · grind
  · have := slabs sl
    intro x hx
    by_cases hx' : x = sl
    · subst hx'; simp only [upd_same, Hdr.assign]; grind
    · rw [upd_ne _ _ hx']; exact hdrs x (by grind)
  · intro x hx
    rw [upd_ne _ _ (by grind)]; exact foreign x (by grind)
  · simp

theorem mod_add_self {n x : Nat} (h : x % n = 0) : (x + n) % n = 0 := by simp [h]

/-- a slab is made current -/
theorem inv_setup {cls pool size s c ac} (h : Inv cls pool size s c) (hf : s.ac.canCarve = false)
    (hs : s.ac.setup = some ac) (hfr : s.ac.freed = []) :
    Inv cls pool size { s with ac := ac } c ∧ ac.canCarve = true ∧ ac.freed = [] := by
  obtain ⟨hcls, hpool, hsize, size0, sizeKS, nodup, slabsNd, slabs, excl, hdrs, clsNe, foreign, bits, cur, off, cnt, maps,
    opensNd, pruneNot, pruning, openFree, phase, backAb, active, can⟩ := h
  rcases List.eq_nil_or_concat s.ac.freeSlabs with hn | ⟨i, sl, hn⟩
  · simp [AC.setup, hn] at hs
  simp only [AC.setup, hn, List.concat_eq_append, List.getLast?_concat, Option.map_some, Option.some.injEq,
    List.dropLast_concat] at hs
  subst hs
  simp only [List.concat_eq_append] at hn
  rw [hn] at nodup slabs excl can
  refine ⟨?_, by simp [AC.canCarve, hsize, sizeKS], hfr⟩
  constructor <;> (try simp only) <;> try assumption
  · grind
  · grind
  · grind
  · grind
  · simp
  · intro a
    have e := cnt a
    have hunc : unc size s.ac.off s.ac.cur a = 0 := by
      unfold unc
      rw [if_neg]
      rintro ⟨g1, g2, g3⟩
      have := chunk_le g2
      simp [AC.canCarve, g1] at hf
      omega
    have hb : s.ac.map sl = none := by
      cases hm : s.ac.map sl with
      | none => rfl
      | some x =>
        have := (excl sl (by simp [hm])).1
        simp at this
    have hsl : sl ∉ s.ac.allocated := by grind
    rw [hunc] at e
    clear hdrs slabs foreign phase openFree cnt maps excl
    simp only [own, unc, bit] at e ⊢
    by_cases ha : a.1 = sl <;> by_cases hc : chunk size a <;> grind
  · simp [AC.canCarve]
    grind

theorem phaseOK_live {size : Nat} {f l l' : List Addr} {p : Prune} (h : phaseOK size f l p)
    (hl : ∀ a ∈ l', a.1 = p.slab → a ∈ l) : phaseOK size f l' p := by
  unfold phaseOK at h ⊢; grind

theorem inv_carve {cls pool size s c ac a} (h : Inv cls pool size s c) (hf : s.ac.canCarve = true)
    (hs : s.ac.carve = some (ac, a)) (hfr : s.ac.freed = []) :
    Inv cls pool size { s with ac := ac } { c with live := a :: c.live } := by
  obtain ⟨hcls, hpool, hsize, size0, sizeKS, nodup, slabsNd, slabs, excl, hdrs, clsNe, foreign, bits, cur, off, cnt, maps,
    opensNd, pruneNot, pruning, openFree, phase, backAb, active, can⟩ := h
  cases hc : s.ac.cur with
  | none => simp [AC.carve, hc] at hs
  | some sl =>
  simp [AC.carve, hc] at hs
  obtain ⟨rfl, rfl⟩ := hs
  simp [AC.canCarve, hc] at hf
  have hnm : s.ac.map sl = none := by
    cases hm : s.ac.map sl with
    | none => rfl
    | some x => exact absurd (cur sl hc) (excl sl (by simp [hm])).2
  constructor <;> (try simp only) <;> try assumption
  · intro x hx; cases hx; exact cur _ hc
  · rw [hsize]; exact mod_add_self off
  · intro a
    have e := cnt a
    rw [List.count_cons, ← e]
    by_cases ha : a = (sl, s.ac.off)
    · subst ha
      have : chunk size (sl, s.ac.off) := chunk_of_le (by omega) off (by rw [← hsize]; exact hf)
      simp only [unc, hc, this]
      simp
      rw [if_neg (by omega)]; omega
    · have : ((sl, s.ac.off) == a) = false := by simp; exact fun h => ha h.symm
      rw [this]
      have : unc size (s.ac.off + s.ac.size) (some sl) a = unc size s.ac.off s.ac.cur a := by
        unfold unc
        simp only [hc, hsize]
        by_cases h1 : sl = a.1
        · by_cases h2 : chunk size a
          · have h3 : s.ac.off ≠ a.2 := fun h3 => ha (by rw [h3, h1])
            have : s.ac.off + size ≤ a.2 ↔ s.ac.off ≤ a.2 := by
              constructor
              · omega
              · intro h4
                exact mul_gap off h2.1 (by omega)
            simp [h1, h2, this]
          · simp [h2]
        · simp [h1]
      rw [this]; simp
  · intro p hp
    refine phaseOK_live (phase p hp) ?_
    have hsl : sl ≠ p.slab := by
      rintro rfl
      have := (maps p.slab).2 (Or.inr (by simp [pruning, hp]))
      simp [hnm] at this
    simp
    grind
  · intro h1 h2
    have := (can h1 h2).2.2
    simp [AC.canCarve, hc] at this
    omega

theorem inv_pop {cls pool size s c a l} (h : Inv cls pool size s c) (hf : s.ac.freed = a :: l) :
    Inv cls pool size { s with ac := { s.ac with freed := l } } { c with live := a :: c.live } := by
  obtain ⟨hcls, hpool, hsize, size0, sizeKS, nodup, slabsNd, slabs, excl, hdrs, clsNe, foreign, bits, cur, off, cnt, maps,
    opensNd, pruneNot, pruning, openFree, phase, backAb, active, can⟩ := h
  constructor <;> (try simp only) <;> try assumption
  · intro x
    have := cnt x
    rw [hf] at this
    rw [← this, List.count_cons, List.count_cons]; omega
  · intro x hx
    have := openFree x hx
    rw [hf, List.count_cons] at this
    omega
  · intro p hp
    have := phase p hp
    unfold phaseOK at this ⊢
    rw [hf] at this
    clear cnt openFree slabs maps
    split <;> grind
  · grind

theorem allocate_some {cls pool size s c} (h : Inv cls pool size s c) : ∃ ac r, s.ac.allocate = some (ac, r) := by
  unfold AC.allocate
  split
  · exact ⟨_, _, rfl⟩
  · rename_i hn
    split
    · exact ⟨_, _, rfl⟩
    · rename_i hfr
      split
      · rename_i hc
        cases hcur : s.ac.cur with
        | none => simp [AC.canCarve, hcur] at hc
        | some x => exact ⟨_, _, by simp [AC.carve, hcur]; exact ⟨rfl, rfl⟩⟩
      · rename_i hc
        cases hs : s.ac.setup with
        | none =>
          rcases List.eq_nil_or_concat s.ac.freeSlabs with hn' | ⟨i, sl, hn'⟩
          · simp_all
          · simp [AC.setup, hn', -List.concat_eq_append] at hs
            simp at hs
        | some ac =>
          have := inv_setup h (by simpa using hc) hs hfr
          cases hcur : ac.cur with
          | none => simp [AC.canCarve, hcur] at this
          | some x => exact ⟨_, _, by simp [AC.carve, hcur]; exact ⟨rfl, rfl⟩⟩

theorem inv_allocate {cls pool size s c ac r} (h : Inv cls pool size s c) (he : s.ac.allocate = some (ac, r)) :
    Inv cls pool size { s with ac := ac } { c with live := r.toList ++ c.live } := by
  unfold AC.allocate at he
  split at he
  · rename_i hc
    simp at he
    obtain ⟨rfl, rfl⟩ := he
    obtain ⟨hcls, hpool, hsize, size0, sizeKS, nodup, slabsNd, slabs, excl, hdrs, clsNe, foreign, bits, cur, off, cnt, maps,
      opensNd, pruneNot, pruning, openFree, phase, backAb, active, can⟩ := h
    constructor <;> (try simp only [Option.toList_none, List.nil_append]) <;> try assumption
    simp at hc
    intro _ _
    exact ⟨hc.1.1, hc.1.2, hc.2⟩
  · split at he
    · simp at he
      obtain ⟨rfl, rfl⟩ := he
      exact inv_pop h (by assumption)
    · rename_i hfr
      split at he
      · rename_i hc
        cases hs : s.ac.carve with
        | none => simp [hs] at he
        | some x =>
          simp [hs] at he
          obtain ⟨rfl, rfl⟩ := he
          exact inv_carve h hc hs hfr
      · rename_i hc
        cases hs : s.ac.setup with
        | none => simp [hs] at he
        | some ac1 =>
          obtain ⟨g1, g2, g3⟩ := inv_setup h (by simpa using hc) hs hfr
          cases hs1 : ac1.carve with
          | none => simp [hs, hs1] at he
          | some x =>
            simp [hs, hs1] at he
            obtain ⟨rfl, rfl⟩ := he
            exact inv_carve (s := { s with ac := ac1 }) g1 g2 hs1 g3

/-- an answer of nothing means there is nothing -/
theorem allocate_none {c ac : AC} (he : c.allocate = some (ac, none)) :
    c.freed = [] ∧ c.freeSlabs = [] ∧ c.canCarve = false := by
  unfold AC.allocate at he
  split at he
  · rename_i hc; simp at hc; exact ⟨hc.1.1, hc.1.2, hc.2⟩
  · split at he
    · simp at he
    · split at he
      · cases hs : c.carve <;> simp [hs] at he
      · cases hs : c.setup.bind AC.carve <;> simp [hs] at he

end Verif.AllocClass
