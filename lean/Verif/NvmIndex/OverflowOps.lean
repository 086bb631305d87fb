import Verif.NvmIndex.OverflowInv
/-
What the steps of the operations of the index with overflow blocks do (C59).
-/
namespace Verif.NvmIndex.Fixed
open Verif

theorem regOf_same {c : Cfg} {s : St} {q : Nat} {r : PRec} (h1 : r.valid = (s.ht q).valid) (h2 : r.combined = (s.ht q).combined)
    (h3 : r.addr = (s.ht q).addr) : regOf c (s.setRec q r) = regOf c s := by
  funext q'
  rw [regOf_setRec]
  split
  · next e => subst e; rw [h1, h2, h3]; rfl
  · rfl

/-! ### A plain record is written -/

theorem ht_setDist (s : St) (b v p : Nat) : (s.setDist b v p).ht = s.ht := rfl

theorem regOf_place {c : Cfg} (hc : c.Good) {s : St} {b i p : Nat} {r : PRec} (hb : b < c.total) (hi : i < 4)
    (hr : r.valid = true) (hp : r.combined = false) :
    regOf c ((s.setRec (c.slot b i) r).setDist (c.slot b i) i p) = upd (regOf c s) (c.slot b i) (some ((b, p), r.addr)) := by
  funext q'
  unfold regOf keyAt
  rw [fill_setDist _ _ _ _ _ hi, part_setDist, ht_setDist]
  simp only [St.setRec, upd]
  by_cases e : q' = c.slot b i
  · subst e
    simp [slot_lt hc hb i, hr, hp, org_slot hc hb]
  · simp only [e, if_false]
    rfl

theorem put_plain {c : Cfg} {s : OSt} (h : Wf c s) {q i p : Nat} {r : PRec} (h1 : (s.base.ht q).combined = false)
    (hp : r.combined = false) :
    Wf c { s with base := (s.base.setRec q r).setDist q i p } ∧ OSt.bl { s with base := (s.base.setRec q r).setDist q i p } = s.bl := by
  have hw := wf_setRec h (q := q) (r := r) (by rw [h1, hp]) (by rw [hp]; simp)
  have hb := bl_setRec (s := s) (q := q) (r := r) (by rw [h1, hp])
  exact ⟨⟨hw.cv, hw.bv, hw.out⟩, hb⟩

/-! ### A record of a block is written or removed -/

theorem put_blk {c : Cfg} {s : OSt} (h : Wf c s) {q x : Nat} {b b' : Blk} {r : PRec} (h1 : (s.base.ht q).combined = true)
    (hb : s.comb q = some b) (hv : b'.val = upd b.val x (some r)) (hs : ∀ y ∈ b.stored, y ∈ b'.stored) (hx : x ∈ b'.stored)
    (hr : r.valid = true) (hp : r.combined = false) :
    Wf c { s with comb := upd s.comb q (some b') } ∧
      ∀ q' y, OSt.bl { s with comb := upd s.comb q (some b') } q' y = if q' = q ∧ y = x then some r.addr else s.bl q' y := by
  constructor
  · constructor
    · intro q' hq hcq
      refine ⟨(h.cv q' hq hcq).1, ?_⟩
      simp only [upd]
      split
      · exact ⟨b', rfl⟩
      · exact (h.cv q' hq hcq).2
    · intro q' b1 y r' hq hcq hb1 hy
      simp only [upd] at hb1
      split at hb1
      · next e =>
        subst e; cases hb1
        rw [hv] at hy
        simp only [upd] at hy
        split at hy
        · next e => subst e; cases hy; exact ⟨hr, hp, hx⟩
        · obtain ⟨z1, z2, z3⟩ := h.bv _ _ _ _ hq hcq hb hy; exact ⟨z1, z2, hs _ z3⟩
      · exact h.bv _ _ _ _ hq hcq hb1 hy
    · exact h.out
  · intro q' y
    by_cases e : q' = q
    · subst e
      rw [bl_val (s := { s with comb := upd s.comb q' (some b') }) (b := b') h1 (by simp), bl_val h1 hb, hv]
      by_cases e2 : y = x
      · subst e2; simp
      · simp [upd, e2]
    · unfold OSt.bl; simp [upd, e]

theorem drop_blk {c : Cfg} {s : OSt} (h : Wf c s) {q x : Nat} {b : Blk} (h1 : (s.base.ht q).combined = true)
    (hb : s.comb q = some b) :
    Wf c { s with comb := upd s.comb q (some (b.remove x)) } ∧
      ∀ q' y, OSt.bl { s with comb := upd s.comb q (some (b.remove x)) } q' y = if q' = q ∧ y = x then none else s.bl q' y := by
  constructor
  · constructor
    · intro q' hq hcq
      refine ⟨(h.cv q' hq hcq).1, ?_⟩
      simp only [upd]
      split
      · exact ⟨_, rfl⟩
      · exact (h.cv q' hq hcq).2
    · intro q' b1 y r' hq hcq hb1 hy
      simp only [upd] at hb1
      split at hb1
      · next e =>
        subst e; cases hb1
        simp only [Blk.remove, upd] at hy
        split at hy
        · cases hy
        · have := h.bv _ _ _ _ hq hcq hb hy; exact this
      · exact h.bv _ _ _ _ hq hcq hb1 hy
    · exact h.out
  · intro q' y
    by_cases e : q' = q
    · subst e
      rw [bl_val (s := { s with comb := upd s.comb q' (some (b.remove x)) }) (b := b.remove x) h1 (by simp), bl_val h1 hb]
      by_cases e2 : y = x
      · subst e2; simp [Blk.remove]
      · simp [Blk.remove, upd, e2]
    · unfold OSt.bl; simp [upd, e]

theorem drop_plain {c : Cfg} {s : OSt} (h : Wf c s) {q : Nat} (h1 : (s.base.ht q).combined = false) :
    Wf c { s with base := s.base.setRec q PRec.empty } ∧ OSt.bl { s with base := s.base.setRec q PRec.empty } = s.bl ∧
      regOf c (s.base.setRec q PRec.empty) = upd (regOf c s.base) q none := by
  refine ⟨wf_setRec h (by rw [h1]; rfl) (by intro h; cases h), bl_setRec (by rw [h1]; rfl), ?_⟩
  funext q'
  rw [regOf_setRec]
  simp only [upd]
  split
  · simp [PRec.empty, PRec.valid]
  · rfl

/-! ### Moving a record -/

theorem AI.shift {c : Cfg} {reg : Nat → Option (Key × Nat)} {bl : Nat → Nat → Option Nat} {cur : Nat → Option Nat}
    (h : AI c reg bl cur) {q d : Nat} {k : Key} {a : Nat} (hq : reg q = some (k, a)) :
    AI c (upd (upd reg q none) d (some (k, a))) bl cur := by
  obtain ⟨x, rfl, hx⟩ := h.own _ _ _ hq
  have hm : AI c (upd reg q none) bl cur := h.mono (fun q' e => by
    simp only [upd]; split
    · simp
    · exact id) (fun _ _ _ => id)
  refine hm.addReg hx ?_ ?_
  · intro q' k b h1 _ hk
    simp only [upd] at h1
    split at h1
    · cases h1
    · next e => subst hk; exact e (h.uniq _ _ _ _ _ h1 hq)
  · intro q'
    cases hb : bl q' x with
    | none => rfl
    | some a' =>
      have := h.bown _ _ _ hb
      rw [hx] at this; cases this
      exact absurd hb (h.d2 _ _ _ _ _ hq)

theorem move_o {c : Cfg} (hc : c.Good) {s : OSt} {cur : Nat → Option Nat} (hI : OInv c s cur) {q sub : Nat} (hq : q < c.total)
    (hv : (s.base.ht q).valid = true) (hp : (s.base.ht q).combined = false) (hr : s.base.room c q = some sub) :
    OInv c { s with base := s.base.move c q sub } cur ∧ ((s.base.move c q sub).ht q).valid = false ∧
      OSt.bl { s with base := s.base.move c q sub } = s.bl ∧
      ∃ d, regOf c (s.base.move c q sub) = upd (upd (regOf c s.base) q none) d (some (keyAt c s.base q, (s.base.ht q).addr)) ∧
        regOf c s.base d = none ∧ d ≠ q := by
  obtain ⟨hsub, hne, hinv⟩ := room_some hr
  have ho := org_lt hc hq (s.base.fill q)
  have hso := slot_org hc hq (s.base.fill q)
  have hdl := slot_lt hc ho sub
  have hod := org_slot hc ho sub
  have hdq : c.slot (c.org q (s.base.fill q)) sub ≠ q := by
    intro he
    exact hne (slot_inj hc.big hsub (fill_lt s.base q) (by rw [he, hso]))
  generalize hd : c.slot (c.org q (s.base.fill q)) sub = d at *
  have hmv : s.base.move c q sub = ((s.base.setRec d (s.base.ht q)).setRec q PRec.empty).setDist d sub (s.base.part q) := by
    unfold St.move; rw [hd]
  have hh : ∀ x, (s.base.move c q sub).ht x = if x = q then PRec.empty else if x = d then s.base.ht q else s.base.ht x := by
    intro x; rw [hmv]; rfl
  have hdc : (s.base.ht d).combined = false := by
    cases e : (s.base.ht d).combined with
    | false => rfl
    | true => rw [(hI.wf.cv d hdl e).1] at hinv; cases hinv
  have hreg : regOf c (s.base.move c q sub) = upd (upd (regOf c s.base) q none) d (some (keyAt c s.base q, (s.base.ht q).addr)) := by
    funext x
    have hf : (s.base.move c q sub).fill x = if x = d then sub else s.base.fill x := by
      rw [hmv]; exact fill_setDist _ _ _ _ _ hsub
    have hpt : (s.base.move c q sub).part x = if x = d then s.base.part q else s.base.part x := by
      rw [hmv]; rfl
    unfold regOf keyAt
    rw [hf, hpt, hh]
    simp only [upd]
    by_cases hx2 : x = d
    · subst hx2; simp [hdq, hdl, hv, hp, hod]
    · by_cases hx : x = q
      · subst hx; simp [hx2, PRec.empty, PRec.valid]
      · simp [hx, hx2]
  have hcm : ∀ x, ((s.base.move c q sub).ht x).combined = (s.base.ht x).combined := by
    intro x; rw [hh]; split
    · next e => rw [e, hp]; rfl
    · split
      · next e => rw [e, hp, hdc]
      · rfl
  have hbl : OSt.bl { s with base := s.base.move c q sub } = s.bl := by
    funext q' x
    unfold OSt.bl
    simp only [hcm]
  refine ⟨⟨⟨?_, ?_, ?_⟩, ?_⟩, ?_, hbl, d, hreg, ?_, hdq⟩
  · intro q' h1 h2
    simp only [hcm] at h2
    refine ⟨?_, (hI.wf.cv q' h1 h2).2⟩
    simp only [hh]
    split
    · next e => rw [e, hp] at h2; cases h2
    · split
      · next e => rw [e, hdc] at h2; cases h2
      · exact (hI.wf.cv q' h1 h2).1
  · intro q' b x r h1 h2
    simp only [hcm] at h2
    exact hI.wf.bv q' b x r h1 h2
  · intro q' h1
    simp only [hcm]
    exact hI.wf.out q' h1
  · rw [hbl, hreg]
    exact hI.ai.shift (regOf_eq hq hv hp)
  · rw [hh, if_pos rfl]; rfl
  · unfold regOf; rw [hinv]; simp

end Verif.NvmIndex.Fixed
