import Verif.AllocClass.OpAlloc
namespace Verif.AllocClass
open Verif

theorem Inv.live_facts {cls pool size s c} (h : Inv cls pool size s c) {a : Addr} (ha : a ∈ c.live) :
    c.live.count a = 1 ∧ s.ac.freed.count a = 0 ∧ pc s.ac.prune a = 0 ∧ unc size s.ac.off s.ac.cur a = 0 ∧
    bit size s.ac.map a = 0 ∧ chunk size a ∧ (a.1 ∈ s.ac.allocated ∨ (s.ac.map a.1).isSome) := by
  have e := h.cnt a
  have h1 : 0 < c.live.count a := List.count_pos_iff.2 ha
  have h2 : own size s.ac.allocated s.ac.map a ≤ 1 := by unfold own; split <;> simp
  have h3 : own size s.ac.allocated s.ac.map a = 1 := by omega
  refine ⟨by omega, by omega, by omega, by omega, by omega, ?_⟩
  unfold own at h3
  by_contra hc
  rw [if_neg hc] at h3; omega

theorem Inv.live_slab {cls pool size s c} (h : Inv cls pool size s c) {a : Addr} (ha : a ∈ c.live) : a.1 ∈ c.slabs := by
  have := (h.live_facts ha).2.2.2.2.2.2
  rw [h.slabs]; tauto

/-- the bits after one of them is set -/
theorem bit_set {size : Nat} {map : Nat → Option (List Bool)} {a b : Addr} {bits : List Bool} (hm : map a.1 = some bits)
    (ha : chunk size a) (hl : bits.length = KS / size) :
    bit size (upd map a.1 (some (bits.set (a.2 / size) true))) b = if b = a then 1 else bit size map b := by
  unfold bit
  by_cases hba : b = a
  · subst hba
    rw [if_pos rfl, if_pos]
    refine ⟨ha, _, upd_same _ _ _, ?_⟩
    have := ha.2
    rw [List.getElem?_set_self (by omega)]
  · rw [if_neg hba]
    by_cases h1 : b.1 = a.1
    · by_cases hcb : chunk size b
      · have : a.2 / size ≠ b.2 / size := fun h => hba (chunk_inj hcb ha h1 h.symm)
        rw [h1]
        simp [hcb, hm, List.getElem?_set_ne this]
      · simp [hcb]
    · rw [upd_ne _ _ h1]

theorem isSome_upd_some {V : Type} {map : Nat → Option V} {x y : Nat} {v v' : V} (h : map x = some v) :
    (upd map x (some v') y).isSome = (map y).isSome := by
  by_cases hy : y = x
  · subst hy; simp [h]
  · rw [upd_ne _ _ hy]

theorem own_upd_some {size : Nat} {al : List Nat} {map : Nat → Option (List Bool)} {x : Nat} {v v' : List Bool}
    (h : map x = some v) (a : Addr) : own size al (upd map x (some v')) a = own size al map a := by
  unfold own; rw [isSome_upd_some h]

theorem count_erase_live {l : List Addr} {a b : Addr} (h : a ∈ l) : l.count b = (l.erase a).count b + if b = a then 1 else 0 := by
  by_cases hb : b = a
  · subst hb
    have := List.count_pos_iff.2 h
    rw [List.count_erase_self]; simp; omega
  · rw [List.count_erase_of_ne hb]; simp [hb]

theorem free_ok {cls pool size s c a} (h : Inv cls pool size s c) (ha : a ∈ c.live) : ∃ s', free s a = .ok s' := by
  obtain ⟨_, _, _, _, hbit, hch, hown⟩ := h.live_facts ha
  obtain ⟨g1, g2, g3, g4, g5⟩ := h.hdrs a.1 (h.live_slab ha)
  unfold free
  simp only [CS.header, g1, if_true, g3, h.hcls, ne_eq, not_true, if_false, g5]
  cases hm : s.ac.map a.1 with
  | none => simp
  | some bits =>
    simp only [Option.isSome_some, if_true]
    have : bits.getD (a.2 / s.ac.size) false = false := by
      rw [h.hsize]
      cases hb : bits[a.2 / size]? with
      | none => simp [hb]
      | some b =>
        cases b with
        | false => simp [hb]
        | true => simp [bit, hch, hm, hb] at hbit
    rw [this]; simp

theorem inv_free {cls pool size s c a s'} (h : Inv cls pool size s c) (ha : a ∈ c.live) (hf : free s a = .ok s') :
    Inv cls pool size s' { c with live := c.live.erase a } := by
  obtain ⟨hlive, hfreed, hpc, hunc, hbit, hch, hown⟩ := h.live_facts ha
  have hhdr := h.hdrs a.1 (h.live_slab ha)
  obtain ⟨hcls, hpool, hsize, size0, sizeKS, nodup, slabsNd, slabs, excl, hdrs, clsNe, foreign, bits, cur, off, cnt, maps,
    opensNd, pruneNot, pruning, openFree, phase, backAb, active, can⟩ := h
  unfold free at hf
  simp only [CS.header, hhdr.1, if_true, hhdr.2.2.1, hcls, ne_eq, not_true, if_false, hhdr.2.2.2.2] at hf
  cases hm : s.ac.map a.1 with
  | none =>
    simp [hm] at hf
    subst hf
    constructor <;> (try simp only) <;> try assumption
    · intro x
      have e := cnt x
      rw [count_erase_live ha] at e
      rw [← e, List.count_cons]
      by_cases hx : x = a
      · subst hx; simp; omega
      · have : ¬ a = x := fun h => hx h.symm
        simp [hx, this]
    · intro x hx
      have := openFree x hx
      refine ⟨?_, this.2⟩
      rw [List.count_cons, this.1]
      have : ¬ a = x := by
        rintro rfl
        have := (maps a.1).2 (Or.inl hx)
        simp [hm] at this
      simp [this]
    · intro p hp
      have h1 : a.1 ≠ p.slab := by
        intro h1
        have := (maps p.slab).2 (Or.inr (by simp [pruning, hp]))
        rw [← h1, hm] at this; simp at this
      have h2 := phase p hp
      have h3 : ∀ x ∈ c.live.erase a, x.1 = p.slab → x ∈ c.live := fun x hx _ => List.mem_of_mem_erase hx
      refine phaseOK_live ?_ h3
      unfold phaseOK at h2 ⊢
      split <;> grind
    · simp
  | some bs =>
    simp only [hm, Option.isSome_some, if_true] at hf
    split at hf
    · simp at hf
    simp only [Except.ok.injEq] at hf
    subst hf
    have hbl := bits _ _ hm
    have hsome : ∀ y, (upd s.ac.map a.1 (some (bs.set (a.2 / size) true)) y).isSome = (s.ac.map y).isSome :=
      fun y => isSome_upd_some hm
    constructor <;> (try simp only [hsize, hsome]) <;> try assumption
    · intro sl l hl
      by_cases hsl : sl = a.1
      · subst hsl; simp at hl; subst hl; simpa using hbl
      · rw [upd_ne _ _ hsl] at hl; exact bits _ _ hl
    · intro x
      have e := cnt x
      rw [count_erase_live ha] at e
      rw [bit_set hm hch hbl, own_upd_some hm, ← e]
      by_cases hx : x = a
      · subst hx; simp; omega
      · simp [hx]
    · intro p hp
      exact phaseOK_live (phase p hp) fun x hx _ => List.mem_of_mem_erase hx
    · intro h1 h2
      simpa [AC.canCarve, hsize] using can h1 h2

/-- the bits of the slab become free allocations again -/
theorem restore_count {ac : AC} {sl : Nat} {bits : List Bool} (h0 : 0 < ac.size) (hl : bits.length = KS / ac.size) (a : Addr) :
    (ac.restore sl bits).freed.count a =
      ac.freed.count a + if a.1 = sl ∧ chunk ac.size a ∧ bits[a.2 / ac.size]? = some true then 1 else 0 := by
  unfold AC.restore
  simp only [List.count_append]
  rw [Nat.add_comm]
  congr 1
  have hnd : (((List.range bits.length).filter (fun i => bits.getD i false)).reverse.map (fun i => (sl, i * ac.size))).Nodup := by
    refine List.Nodup.map ?_ (List.nodup_reverse.2 (List.nodup_range.filter _))
    intro i j hij
    simp at hij
    rcases hij with hij | hij
    · exact hij
    · omega
  rw [hnd.count]
  congr 1
  simp only [List.mem_map, List.mem_reverse, List.mem_filter, List.mem_range, eq_iff_iff]
  constructor
  · rintro ⟨i, ⟨hi, hb⟩, rfl⟩
    refine ⟨rfl, (chunk_mul h0).2 (by omega), ?_⟩
    simp only [Nat.mul_div_cancel _ h0]
    simp [List.getD_eq_getElem?_getD, List.getElem?_eq_getElem hi] at hb ⊢
    exact hb
  · rintro ⟨rfl, hc, hb⟩
    refine ⟨a.2 / ac.size, ⟨by have := hc.2; omega, by simp [List.getD_eq_getElem?_getD, hb]⟩, (chunk_eq hc).symm⟩

theorem restore_can {ac : AC} {sl : Nat} {bits : List Bool} (h : (ac.restore sl bits).can = false) :
    ac.can = false ∧ (ac.restore sl bits).freed = ac.freed := by
  unfold AC.restore at h ⊢
  simp only [Bool.or_eq_false_iff, Bool.not_eq_false', List.isEmpty_iff] at h
  exact ⟨h.1, by rw [h.2]; rfl⟩

theorem bit_none {size : Nat} {map : Nat → Option (List Bool)} {sl : Nat} {bits : List Bool} (hm : map sl = some bits) (a : Addr) :
    bit size map a = bit size (upd map sl none) a + if a.1 = sl ∧ chunk size a ∧ bits[a.2 / size]? = some true then 1 else 0 := by
  unfold bit
  by_cases h : a.1 = sl
  · subst h; simp [hm]
  · simp [upd_ne _ _ h, h]

end Verif.AllocClass
