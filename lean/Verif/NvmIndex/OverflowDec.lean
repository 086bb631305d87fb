import Verif.NvmIndex.OverflowOps
/-
The bucket that an insertion chooses (C59).
-/
namespace Verif.NvmIndex.Fixed
open Verif

/-- The index holds record `a` of hash `x`. -/
def Held (c : Cfg) (s : OSt) (x a : Nat) : Prop :=
  (∃ q, regOf c s.base q = some (keyOf c x, a)) ∨ ∃ q, s.bl q x = some a

/-- the retrieval of keys does not lie about current records -/
def Honest (key : Nat → Option Nat) (cur : Nat → Option Nat) : Prop := ∀ x a k, cur x = some a → key a = some k → k = x

structure MkE (c : Cfg) (s t : OSt) (cur : Nat → Option Nat) : Prop where
  inv : OInv c t cur
  bl : t.bl = s.bl
  fwd : ∀ q k a, regOf c s.base q = some (k, a) → ∃ q', regOf c t.base q' = some (k, a)
  bwd : ∀ q k a, regOf c t.base q = some (k, a) → ∃ q', regOf c s.base q' = some (k, a)

theorem makeEmpty_o {c : Cfg} (hc : c.Good) {s : OSt} {cur : Nat → Option Nat} (hI : OInv c s cur) {b : Nat} (hb : b < c.total)
    (l : List Nat) (hl : ∀ i ∈ l, i < 4) :
    MkE c s { s with base := (s.base.makeEmpty c b l).1 } cur ∧
    (∀ i, (s.base.makeEmpty c b l).2 = some i → i < 4 ∧ ((s.base.makeEmpty c b l).1.ht (c.slot b i)).valid = false) ∧
    ((s.base.makeEmpty c b l).2 = none → (s.base.makeEmpty c b l).1 = s.base ∧ ∀ i ∈ l, (s.base.ht (c.slot b i)).valid = true) := by
  have h0 : MkE c s s cur := ⟨hI, rfl, fun q k a h => ⟨q, h⟩, fun q k a h => ⟨q, h⟩⟩
  induction l with
  | nil => exact ⟨h0, by simp [St.makeEmpty], by simp [St.makeEmpty]⟩
  | cons i l ih =>
    have ih := ih (fun i hi => hl i (by simp [hi]))
    have hi := hl i (by simp)
    unfold St.makeEmpty
    by_cases hv : (s.base.ht (c.slot b i)).valid = false
    · rw [if_pos hv]
      refine ⟨h0, ?_, by simp⟩
      intro j hj
      simp only [Option.some.injEq] at hj
      subst hj
      exact ⟨hi, hv⟩
    · rw [if_neg hv]
      simp only [Bool.not_eq_false] at hv
      have next : MkE c s { s with base := (s.base.makeEmpty c b l).1 } cur ∧
          (∀ i, (s.base.makeEmpty c b l).2 = some i → i < 4 ∧ ((s.base.makeEmpty c b l).1.ht (c.slot b i)).valid = false) ∧
          ((s.base.makeEmpty c b l).2 = none → (s.base.makeEmpty c b l).1 = s.base ∧
            ∀ j ∈ i :: l, (s.base.ht (c.slot b j)).valid = true) := by
        refine ⟨ih.1, ih.2.1, fun hn => ⟨(ih.2.2 hn).1, ?_⟩⟩
        intro j hj
        rcases List.mem_cons.1 hj with rfl | hj
        · exact hv
        · exact (ih.2.2 hn).2 j hj
      by_cases hcm : (s.base.ht (c.slot b i)).combined = true
      · rw [if_pos hcm]; exact next
      · rw [if_neg hcm]
        simp only [Bool.not_eq_true] at hcm
        split
        · cases hr : s.base.room c (c.slot b i) with
          | none => exact next
          | some sub =>
            obtain ⟨m1, m2, m3, d, m4, m5, m6⟩ := move_o hc hI (slot_lt hc hb i) hv hcm hr
            refine ⟨⟨m1, m3, ?_, ?_⟩, ?_, by simp⟩
            · intro q k a hq
              simp only [m4]
              by_cases e : q = c.slot b i
              · subst e
                rw [regOf_eq (slot_lt hc hb i) hv hcm] at hq
                exact ⟨d, by rw [upd_same]; exact hq⟩
              · refine ⟨q, ?_⟩
                have : q ≠ d := by rintro rfl; rw [m5] at hq; cases hq
                rw [upd_ne _ _ this, upd_ne _ _ e]; exact hq
            · intro q k a hq
              simp only [m4] at hq
              by_cases e : q = d
              · subst e
                rw [upd_same] at hq
                exact ⟨c.slot b i, by rw [regOf_eq (slot_lt hc hb i) hv hcm]; exact hq⟩
              · rw [upd_ne _ _ e] at hq
                by_cases e : q = c.slot b i
                · subst e; rw [upd_same] at hq; cases hq
                · rw [upd_ne _ _ e] at hq; exact ⟨q, hq⟩
            · intro j hj
              simp only [Option.some.injEq] at hj
              subst hj
              exact ⟨hi, m2⟩
        · exact next

theorem convert_o {c : Cfg} (hc : c.Good) {s : OSt} {cur : Nat → Option Nat} (hI : OInv c s cur) {key : Nat → Option Nat}
    (hk : Honest key cur) {q : Nat} (hq : q < c.total) (hv : (s.base.ht q).valid = true) (hp : (s.base.ht q).combined = false) :
    (key (s.base.ht q).addr = none ∧ s.convert key q = s) ∨
    ∃ x, OInv c (s.convert key q) cur ∧ ((s.convert key q).base.ht q).combined = true ∧
      keyAt c s.base q = keyOf c x ∧ cur x = some (s.base.ht q).addr ∧
      (s.convert key q).comb q = some ⟨[x], upd (fun _ => none) x (some (s.base.ht q))⟩ ∧
      (∀ q', q' ≠ q → (s.convert key q).comb q' = s.comb q') ∧
      (∀ q', q' ≠ q → (s.convert key q).base.ht q' = s.base.ht q') ∧
      regOf c (s.convert key q).base = upd (regOf c s.base) q none ∧
      ∀ q' y, (s.convert key q).bl q' y = if q' = q ∧ y = x then some (s.base.ht q).addr else s.bl q' y := by
  cases hkey : key (s.base.ht q).addr with
  | none => left; unfold OSt.convert; rw [hkey]; exact ⟨rfl, rfl⟩
  | some k =>
    right
    have hreg := regOf_eq hq hv hp
    obtain ⟨x, hx1, hx2⟩ := hI.ai.own _ _ _ hreg
    have hkx := hk x _ k hx2 hkey
    subst hkx
    have hadd : ({} : Blk).add k (s.base.ht q) = some ⟨[k], upd (fun _ => none) k (some (s.base.ht q))⟩ := by
      unfold Blk.add
      simp [blkRoom]
    have hcv : s.convert key q = OSt.mk (s.base.setRec q combinedRec)
        (upd s.comb q (some ⟨[k], upd (fun _ => none) k (some (s.base.ht q))⟩)) := by
      unfold OSt.convert; rw [hkey]; simp only [hadd]
    have hh : ∀ q', (s.base.setRec q combinedRec).ht q' = if q' = q then combinedRec else s.base.ht q' := fun q' => rfl
    have hr : regOf c (s.convert key q).base = upd (regOf c s.base) q none := by
      rw [hcv]; funext q'
      simp only
      rw [regOf_setRec]
      simp only [upd]
      split
      · simp [combinedRec, PRec.combined]
      · rfl
    have hbl : ∀ q' y, (s.convert key q).bl q' y = if q' = q ∧ y = k then some (s.base.ht q).addr else s.bl q' y := by
      rw [hcv]
      intro q' y
      unfold OSt.bl
      simp only [hh]
      by_cases e : q' = q
      · subst e
        by_cases e2 : y = k
        · subst e2; simp [combinedRec, PRec.combined]
        · have hcb : combinedRec.combined = true := rfl
          simp only [upd_same, upd_ne _ _ e2, e2, and_false, if_false, if_true, hcb, hp, Bool.false_eq_true, Option.bind_some, Option.map_none]
      · simp [e, upd]
    refine ⟨k, ⟨⟨?_, ?_, ?_⟩, ?_⟩, ?_, hx1.symm, hx2, ?_, ?_, ?_, hr, hbl⟩
    · intro q' h1 h2
      rw [hcv] at h2 ⊢
      simp only [hh] at h2 ⊢
      by_cases e : q' = q
      · subst e; simp [combinedRec, PRec.valid]
      · simp only [e, if_false] at h2 ⊢; simp only [upd, e, if_false]; exact hI.wf.cv q' h1 h2
    · intro q' b y r h1 h2 h3 h4
      rw [hcv] at h2 h3
      simp only [hh] at h2 h3
      by_cases e : q' = q
      · subst e
        simp only [upd_same, Option.some.injEq] at h3
        subst h3
        simp only [upd] at h4
        split at h4
        · next e => cases h4; exact ⟨hv, hp, by simp [e]⟩
        · cases h4
      · simp only [upd, e, if_false] at h2 h3; exact hI.wf.bv q' b y r h1 h2 h3 h4
    · intro q' h1
      rw [hcv]
      simp only [hh]
      split
      · next e => subst e; omega
      · exact hI.wf.out q' h1
    · rw [hr]
      have hm : AI c (upd (regOf c s.base) q none) s.bl cur := hI.ai.mono (fun q' e => by
        simp only [upd]; split
        · simp
        · exact id) (fun _ _ _ => id)
      refine hm.addBl (q := q) (x := k) hx2 ?_ ?_ ?_ hbl
      · refine ⟨s.base.fill q, fill_lt _ _, ?_⟩
        have : c.bucketId k = c.org q (s.base.fill q) := congrArg Prod.fst hx1
        rw [this, slot_org hc hq]
      · intro q' k' b h1 hb
        subst hb
        simp only [upd] at h1
        split at h1
        · cases h1
        · next e =>
          obtain ⟨y, hy1, hy2⟩ := hI.ai.own _ _ _ h1
          have := hI.ai.inj _ _ _ hy2 hx2
          subst this
          rw [← hx1] at hreg
          subst hy1
          exact e (hI.ai.uniq _ _ _ _ _ h1 hreg)
      · intro q' _
        cases hb : s.bl q' k with
        | none => rfl
        | some a =>
          have := hI.ai.bown _ _ _ hb
          rw [hx2] at this; cases this
          exact absurd hb (hI.ai.d2 _ _ _ _ _ hreg)
    · rw [hcv]; simp only [hh, if_true]; rfl
    · rw [hcv]; simp
    · intro q' e; rw [hcv]; simp [upd, e]
    · intro q' e; rw [hcv]; simp [hh, e]

/-- The keys stored in blocks are different, and have property `P`. -/
def SI (P : Nat → Prop) (s : OSt) : Prop := ∀ q b, s.comb q = some b → b.stored.Nodup ∧ ∀ y ∈ b.stored, P y

/-- What decideSlot achieves. -/
structure Dec (c : Cfg) (s : OSt) (key : Nat → Option Nat) (h : Nat) (cur : Nat → Option Nat) (t : OSt) (i : Nat) : Prop where
  lt : i < 4
  inv : OInv c t cur
  keeps : ∀ x a, cur x = some a → Held c s x a → Held c t x a
  back : ∀ x a, cur x = some a → Held c t x a → Held c s x a
  dreg : (t.base.ht (c.slot (c.bucketId h) i)).combined = false →
    (∀ q k a, regOf c t.base q = some (k, a) → q ≠ c.slot (c.bucketId h) i → k ≠ keyOf c h) ∧ (∀ q, t.bl q h = none) ∧
    ((∀ x a, cur x = some a → key a = some x) →
      regOf c t.base (c.slot (c.bucketId h) i) = none ∨ ∃ a, regOf c t.base (c.slot (c.bucketId h) i) = some (keyOf c h, a))
  dblk : (t.base.ht (c.slot (c.bucketId h) i)).combined = true →
    (∀ q, q ≠ c.slot (c.bucketId h) i → t.bl q h = none) ∧ (∀ q k a, regOf c t.base q = some (k, a) → cur h ≠ some a)
  st : ∀ P : Nat → Prop, (∀ x a, cur x = some a → P x) → SI P s → SI P t

theorem bucketId_lt' {c : Cfg} (hc : c.Good) (h : Nat) : c.bucketId h < c.total := Nat.mod_lt _ hc.pos

/-- the current record of `h` is not in a plain bucket of another key -/
theorem AI.noreg {c : Cfg} {reg : Nat → Option (Key × Nat)} {bl : Nat → Nat → Option Nat} {cur : Nat → Option Nat}
    (hA : AI c reg bl cur) {h : Nat} (hn : ∀ q k a, reg q = some (k, a) → k ≠ keyOf c h) :
    ∀ q k a, reg q = some (k, a) → cur h ≠ some a := by
  intro q k a h1 h2
  obtain ⟨x, hx1, hx2⟩ := hA.own _ _ _ h1
  have := hA.inj _ _ _ hx2 h2
  subst this
  exact hn _ _ _ h1 hx1.symm

theorem decide_o {c : Cfg} (hc : c.Good) {s : OSt} {cur : Nat → Option Nat} (hI : OInv c s cur) {key : Nat → Option Nat}
    (hk : Honest key cur) (h : Nat) : Dec c s key h cur (s.decideSlot c key h).1 (s.decideSlot c key h).2 := by
  have hb := bucketId_lt' hc h
  unfold OSt.decideSlot
  cases hch : s.check c h with
  | some i =>
    simp only
    unfold OSt.check at hch
    cases hcc : s.checkComb c h with
    | some j =>
      rw [hcc] at hch; cases hch
      obtain ⟨h1, h2, b, r, h3, h4⟩ := checkComb_some hcc
      have hbl := bl_val h2 h3 h
      rw [h4] at hbl
      refine ⟨h1, hI, fun _ _ _ => id, fun _ _ _ => id, fun hf => (by rw [h2] at hf; cases hf), fun _ => ⟨?_, ?_⟩, fun _ _ => id⟩
      · intro q hq
        cases hx : s.bl q h with
        | none => rfl
        | some a => exact absurd (hI.ai.d3 _ _ _ _ _ hx hbl) hq
      · intro q k a hq hcur
        rw [hI.ai.bown _ _ _ hbl] at hcur
        exact hI.ai.d2 _ _ _ (c.slot (c.bucketId h) i) h hq (by rw [hbl]; exact hcur)
    | none =>
      rw [hcc] at hch
      obtain ⟨h1, h2, h3, h4⟩ := scheck_some hc hb hch
      refine ⟨h1, hI, fun _ _ _ => id, fun _ _ _ => id, fun _ => ⟨?_, checkComb_none hI hcc, fun _ => .inr ⟨_, h4⟩⟩,
        fun hf => (by rw [h3] at hf; cases hf), fun _ _ => id⟩
      intro q k a hq hne hkk
      subst hkk
      exact hne (hI.ai.uniq _ _ _ _ _ hq h4)
  | none =>
    simp only
    unfold OSt.check at hch
    cases hcc : s.checkComb c h with
    | some j => rw [hcc] at hch; cases hch
    | none =>
      rw [hcc] at hch
      have hnb := checkComb_none hI hcc
      have hnr : ∀ q k a, regOf c s.base q = some (k, a) → k ≠ keyOf c h := fun q k a hq => scheck_none hc hb hch hq
      obtain ⟨hM, hS, hN⟩ := makeEmpty_o hc hI hb [0, 1, 2, 3] (by decide)
      have hkeep : ∀ x a, cur x = some a → Held c s x a → Held c { s with base := (s.base.makeEmpty c (c.bucketId h) [0, 1, 2, 3]).1 } x a := by
        rintro x a - (⟨q, hq⟩ | ⟨q, hq⟩)
        · exact .inl (hM.fwd _ _ _ hq)
        · exact .inr ⟨q, by rw [hM.bl]; exact hq⟩
      have hback : ∀ x a, cur x = some a → Held c { s with base := (s.base.makeEmpty c (c.bucketId h) [0, 1, 2, 3]).1 } x a → Held c s x a := by
        rintro x a - (⟨q, hq⟩ | ⟨q, hq⟩)
        · exact .inl (hM.bwd _ _ _ hq)
        · exact .inr ⟨q, by rw [← hM.bl]; exact hq⟩
      cases hm : (s.base.makeEmpty c (c.bucketId h) [0, 1, 2, 3]).2 with
      | some i =>
        simp only
        obtain ⟨h1, h2⟩ := hS i hm
        have hsl := slot_lt hc hb i
        refine ⟨h1, hM.inv, hkeep, hback, fun _ => ⟨?_, ?_, fun _ => .inl ?_⟩, fun hf => ?_, fun _ _ => id⟩
        · intro q k a hq _
          obtain ⟨q', hq'⟩ := hM.bwd _ _ _ hq
          exact hnr _ _ _ hq'
        · intro q; rw [hM.bl]; exact hnb q
        · unfold regOf; simp only; rw [h2]; simp
        · have := (hM.inv.wf.cv _ hsl hf).1
          simp only at this
          rw [h2] at this; cases this
      | none =>
        simp only
        obtain ⟨hbase, hval⟩ := hN hm
        rw [hbase]
        cases hf : [0, 1, 2, 3].find? (fun i => (s.base.ht (c.slot (c.bucketId h) i)).combined) with
        | some i =>
          simp only
          have h1 := List.find?_some hf
          have h2 := List.mem_of_find?_eq_some hf
          refine ⟨by simp at h2; omega, hI, fun _ _ _ => id, fun _ _ _ => id, fun hf => ?_, fun _ => ⟨fun q _ => hnb q, hI.ai.noreg hnr⟩, fun _ _ => id⟩
          simp only at h1 hf
          rw [h1] at hf; cases hf
        | none =>
          simp only
          rw [List.find?_eq_none] at hf
          have hp : (s.base.ht (c.slot (c.bucketId h) 0)).combined = false := by
            have := hf 0 (by simp); simpa using this
          have hv := hval 0 (by simp)
          have hsl := slot_lt hc hb 0
          rcases convert_o hc hI hk hsl hv hp with ⟨h1, h2⟩ | ⟨x, h1, h2, h3, h4, h5, h6, h7, h8, h9⟩
          · rw [h2]
            refine ⟨by decide, hI, fun _ _ _ => id, fun _ _ _ => id, fun _ => ⟨fun q k a hq _ => hnr _ _ _ hq, hnb, ?_⟩,
              fun hf => (by rw [hp] at hf; cases hf), fun _ _ => id⟩
            intro hans
            obtain ⟨y, hy1, hy2⟩ := hI.ai.own _ _ _ (regOf_eq hsl hv hp)
            rw [hans _ _ hy2] at h1; cases h1
          · have hreg := regOf_eq hsl hv hp
            rw [h3] at hreg
            have hxh : x ≠ h := by rintro rfl; exact hnr _ _ _ hreg rfl
            refine ⟨by decide, h1, ?_, ?_, fun hf => (by rw [h2] at hf; cases hf), fun _ => ⟨?_, h1.ai.noreg ?_⟩, fun P hP hS q b hb => ?_⟩
            · rintro y a hy (⟨q, hq⟩ | ⟨q, hq⟩)
              · by_cases e : q = c.slot (c.bucketId h) 0
                · subst e
                  rw [hreg] at hq
                  injection hq with hq
                  have e2 : (s.base.ht (c.slot (c.bucketId h) 0)).addr = a := congrArg Prod.snd hq
                  rw [e2] at h4
                  have := hI.ai.inj _ _ _ h4 hy
                  subst this
                  exact .inr ⟨c.slot (c.bucketId h) 0, by rw [h9]; simp [e2]⟩
                · exact .inl ⟨q, by rw [h8, upd_ne _ _ e]; exact hq⟩
              · refine .inr ⟨q, ?_⟩
                rw [h9]; split
                · next e => obtain ⟨-, rfl⟩ := e; rw [← h4, hy]
                · exact hq
            · rintro y a hy (⟨q, hq⟩ | ⟨q, hq⟩)
              · rw [h8] at hq
                simp only [upd] at hq
                split at hq
                · cases hq
                · exact .inl ⟨q, hq⟩
              · rw [h9] at hq
                split at hq
                · next e => obtain ⟨rfl, rfl⟩ := e; injection hq with hq; rw [hq] at hreg; exact .inl ⟨_, hreg⟩
                · exact .inr ⟨q, hq⟩
            · intro q _
              rw [h9, if_neg (by rintro ⟨-, e⟩; exact hxh e.symm)]; exact hnb q
            · intro q k a hq
              rw [h8] at hq
              simp only [upd] at hq
              split at hq
              · cases hq
              · exact hnr _ _ _ hq
            · by_cases e : q = c.slot (c.bucketId h) 0
              · subst e
                rw [h5] at hb; cases hb
                exact ⟨by simp, fun y hy => by simp at hy; subst hy; exact hP _ _ h4⟩
              · rw [h6 q e] at hb; exact hS q b hb

end Verif.NvmIndex.Fixed
