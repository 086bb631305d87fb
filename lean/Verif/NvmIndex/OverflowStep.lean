import Verif.NvmIndex.OverflowDec
/-
The operations of the index with overflow blocks keep the invariant (C59).
-/
namespace Verif.NvmIndex.Fixed
open Verif

/-- Hash `h` is found in slot `i`, as record `r`. -/
structure Found (c : Cfg) (s : OSt) (cur : Nat → Option Nat) (h i : Nat) (r : PRec) : Prop where
  lt : i < 4
  rcd : s.record h (c.slot (c.bucketId h) i) = some r
  valid : r.valid = true
  plain : r.combined = false
  own : ∃ y, keyOf c y = keyOf c h ∧ cur y = some r.addr
  cur : ∀ a, cur h = some a → Held c s h a → r.addr = a
  kind : ((s.base.ht (c.slot (c.bucketId h) i)).combined = true ∧ ∃ b r0, s.comb (c.slot (c.bucketId h) i) = some b ∧
      b.val h = some r0 ∧ r0.addr = r.addr ∧ s.bl (c.slot (c.bucketId h) i) h = some r.addr) ∨
    ((s.base.ht (c.slot (c.bucketId h) i)).combined = false ∧ s.base.ht (c.slot (c.bucketId h) i) = r ∧
      regOf c s.base (c.slot (c.bucketId h) i) = some (keyOf c h, r.addr) ∧ ∀ q, s.bl q h = none)

theorem check_o {c : Cfg} (hc : c.Good) {s : OSt} {cur : Nat → Option Nat} (hI : OInv c s cur) (h : Nat) :
    (s.check c h = none ∧ Free (regOf c s.base) s.bl cur h ∧ ∀ a, ¬ Held c s h a) ∨
    ∃ i r, s.check c h = some i ∧ Found c s cur h i r := by
  have hb := bucketId_lt' hc h
  unfold OSt.check
  cases hcc : s.checkComb c h with
  | some i =>
    right
    obtain ⟨h1, h2, b, r, h3, h4⟩ := checkComb_some hcc
    have hbl := bl_val h2 h3 h
    rw [h4] at hbl
    obtain ⟨h5, h6, h7⟩ := hI.wf.bv _ _ _ _ (comb_lt hI.wf h2) h2 h3 h4
    have hcur := hI.ai.bown _ _ _ hbl
    refine ⟨i, { r with hits := min (r.hits + (s.base.ht (c.slot (c.bucketId h) i)).hits) 3 }, rfl, h1, ?_, h5, h6,
      ⟨h, rfl, hcur⟩, ?_, .inl ⟨h2, b, r, h3, h4, rfl, hbl⟩⟩
    · unfold OSt.record; rw [if_pos h2, h3]; simp only [h4]
    · intro a ha _; simp only [Option.map_some] at hcur; rw [hcur] at ha; injection ha
  | none =>
    simp only
    have hnb := checkComb_none hI hcc
    cases hch : s.base.check c (c.bucketId h) (partialBits h) with
    | some i =>
      right
      obtain ⟨h1, h2, h3, h4⟩ := scheck_some hc hb hch
      refine ⟨i, s.base.ht (c.slot (c.bucketId h) i), rfl, h1, ?_, h2, h3, hI.ai.own _ _ _ h4, ?_, .inr ⟨h3, rfl, h4, hnb⟩⟩
      · unfold OSt.record; rw [h3]; rfl
      · rintro a - (⟨q, hq⟩ | ⟨q, hq⟩)
        · have := hI.ai.uniq _ _ _ _ _ h4 hq
          subst this
          rw [h4] at hq; injection hq with hq; exact congrArg Prod.snd hq
        · rw [hnb] at hq; cases hq
    | none =>
      left
      have hnr : ∀ q k a, regOf c s.base q = some (k, a) → k ≠ keyOf c h := fun q k a hq => scheck_none hc hb hch hq
      refine ⟨rfl, ⟨hI.ai.noreg hnr, hnb⟩, ?_⟩
      rintro a (⟨q, hq⟩ | ⟨q, hq⟩)
      · exact hnr _ _ _ hq rfl
      · rw [hnb] at hq; cases hq

theorem count_o {c : Cfg} {s : OSt} {cur : Nat → Option Nat} (hI : OInv c s cur) (h : Nat) (f : Nat → Nat) :
    OInv c (s.count c h f) cur := ⟨⟨hI.wf.cv, hI.wf.bv, hI.wf.out⟩, hI.ai⟩

theorem Dec.count {c : Cfg} {s : OSt} {key : Nat → Option Nat} {h : Nat} {cur : Nat → Option Nat} {t : OSt} {i : Nat}
    (hD : Dec c s key h cur t i) (f : Nat → Nat) : Dec c s key h cur (t.count c h f) i :=
  ⟨hD.lt, count_o hD.inv h f, hD.keeps, hD.back, hD.dreg, hD.dblk, hD.st⟩

theorem Found.count {c : Cfg} {s : OSt} {cur : Nat → Option Nat} {h i : Nat} {r : PRec} (hF : Found c s cur h i r) (f : Nat → Nat) :
    Found c (s.count c h f) cur h i r := ⟨hF.lt, hF.rcd, hF.valid, hF.plain, hF.own, hF.cur, hF.kind⟩

theorem Blk.add_some {b b' : Blk} {k : Nat} {r : PRec} (h : b.add k r = some b') :
    b'.val = upd b.val k (some r) ∧ (∀ y ∈ b.stored, y ∈ b'.stored) ∧ k ∈ b'.stored ∧
      (b.stored.Nodup → b'.stored.Nodup) ∧ ∀ y ∈ b'.stored, y ∈ b.stored ∨ y = k := by
  unfold Blk.add at h
  split at h
  · next hk => cases h; exact ⟨rfl, fun _ => id, hk, id, fun _ => .inl⟩
  · next hk =>
    split at h
    · cases h
      refine ⟨rfl, fun y hy => by simp [hy], by simp, fun hn => ?_, fun y hy => by simpa using hy⟩
      rw [List.nodup_append]
      exact ⟨hn, by simp, fun a ha b hb => by simp at hb; subst hb; rintro rfl; exact hk ha⟩
    · cases h

theorem Blk.add_none {b : Blk} {k : Nat} {r : PRec} (h : b.add k r = none) : k ∉ b.stored ∧ blkRoom b.stored.length = false := by
  unfold Blk.add at h
  split at h
  · cases h
  · next hk =>
    split at h
    · cases h
    · next h2 => exact ⟨hk, by simpa using h2⟩

/-- Only records of the key of `h` are lost. -/
def Spares (c : Cfg) (s t : OSt) (h : Nat) : Prop := ∀ x a, keyOf c x ≠ keyOf c h → Held c s x a → Held c t x a

theorem put_o {c : Cfg} (hc : c.Good) {s : OSt} {key : Nat → Option Nat} {h : Nat} {cur : Nat → Option Nat} {t : OSt} {i : Nat}
    (hD : Dec c s key h cur t i) {r : PRec} (hr : r.valid = true) (hp : r.combined = false) (hf : ∀ x, cur x ≠ some r.addr) :
    ∃ t', t.put c h i r = some t' ∧ OInv c t' (upd cur h (some r.addr)) ∧
      ((∀ x a, cur x = some a → key a = some x) → Spares c t t' h) ∧
      (Held c t' h r.addr ∨ ∃ b, t'.comb (c.slot (c.bucketId h) i) = some b ∧ h ∉ b.stored ∧ blkRoom b.stored.length = false) := by
  have hb := bucketId_lt' hc h
  have hI := hD.inv
  unfold OSt.put
  generalize hq : c.slot (c.bucketId h) i = q at *
  have hqt : q < c.total := by rw [← hq]; exact slot_lt hc hb i
  by_cases hcm : (t.base.ht q).combined = true
  · simp only [hcm, if_true]
    obtain ⟨d1, d2⟩ := hD.dblk (by rw [hq]; exact hcm)
    obtain ⟨-, b, hcb⟩ := hI.wf.cv q hqt hcm
    rw [hcb]
    simp only
    cases ha : b.add h r with
    | none =>
      simp only
      obtain ⟨n1, n2⟩ := Blk.add_none ha
      refine ⟨t, rfl, ⟨hI.wf, hI.ai.setCur ⟨d2, ?_⟩ ?_⟩, fun _ x a _ => id, .inr ⟨b, hcb, n1, n2⟩⟩
      · intro q'
        by_cases e : q' = q
        · subst e
          rw [bl_val hcm hcb]
          cases hv : b.val h with
          | none => rfl
          | some r0 => exact absurd (hI.wf.bv _ _ _ _ hqt hcm hcb hv).2.2 n1
        · exact d1 q' (by rw [hq]; exact e)
      · intro y a e; cases e; exact hf y
    | some b' =>
      simp only
      obtain ⟨a1, a2, a3, -, -⟩ := Blk.add_some ha
      obtain ⟨p1, p2⟩ := put_blk hI.wf hcm hcb a1 a2 a3 hr hp
      refine ⟨_, rfl, ⟨p1, ?_⟩, ?_, .inl (.inr ⟨q, by rw [p2]; simp⟩)⟩
      · have hm : AI c (regOf c t.base) (fun q' y => if q' = q ∧ y = h then none else t.bl q' y) cur :=
          hI.ai.mono (fun _ _ => id) (fun q' y a => by
            split
            · simp
            · exact id)
        have hm2 := hm.setCur (x := h) (v := some r.addr) ⟨d2, fun q' => by
          simp only
          split
          · rfl
          · next e => exact d1 q' (by rw [hq]; simpa using e)⟩ (by intro y a e; cases e; exact hf y)
        refine hm2.addBl (q := q) (x := h) (upd_same _ _ _) ⟨i, hD.lt, hq.symm⟩ ?_ ?_ ?_
        · intro q' k b1 h1 h2
          subst h2
          obtain ⟨x, -, hx⟩ := hI.ai.own _ _ _ h1
          exact hf x hx
        · intro q' e; simp only [e, false_and, if_false]; exact d1 q' (by rw [hq]; exact e)
        · intro q' y; rw [p2]
          by_cases e : q' = q ∧ y = h <;> simp [e]
      · rintro - x a hx (⟨q', hq'⟩ | ⟨q', hq'⟩)
        · exact .inl ⟨q', hq'⟩
        · refine .inr ⟨q', ?_⟩
          rw [p2, if_neg (by rintro ⟨-, rfl⟩; exact hx rfl)]; exact hq'
  · rw [if_neg hcm]
    simp only [Bool.not_eq_true] at hcm
    simp only [hp, Bool.false_eq_true, if_false]
    obtain ⟨d1, d2, d3⟩ := hD.dreg (by rw [hq]; exact hcm)
    obtain ⟨p1, p2⟩ := put_plain hI.wf (q := q) (i := i) (p := partialBits h) (r := r) hcm hp
    have p3 : regOf c ((t.base.setRec q r).setDist q i (partialBits h)) = upd (regOf c t.base) q (some (keyOf c h, r.addr)) := by
      rw [← hq]; exact regOf_place hc hb hD.lt hr hp
    refine ⟨_, rfl, ⟨p1, ?_⟩, ?_, .inl (.inl ⟨q, by simp only [p3, upd_same]⟩)⟩
    · rw [p2]
      simp only [p3]
      have hm : AI c (upd (regOf c t.base) q none) t.bl cur := hI.ai.mono (fun q' e => by
        simp only [upd]; split
        · simp
        · exact id) (fun _ _ _ => id)
      have hnr : ∀ q' k a, upd (regOf c t.base) q none q' = some (k, a) → k ≠ keyOf c h := by
        intro q' k a h1
        simp only [upd] at h1
        split at h1
        · cases h1
        · next e => exact d1 _ _ _ h1 (by rw [hq]; exact e)
      have hm2 := hm.setCur (x := h) (v := some r.addr) ⟨hm.noreg hnr, d2⟩ (by intro y a e; cases e; exact hf y)
      have := hm2.addReg (q := q) (x := h) (a := r.addr) (upd_same _ _ _) (fun q' k b h1 _ => hnr q' k b h1) d2
      have e : upd (upd (regOf c t.base) q none) q (some (keyOf c h, r.addr)) = upd (regOf c t.base) q (some (keyOf c h, r.addr)) := by
        funext q'; simp only [upd]; split <;> rfl
      rw [e] at this
      exact this
    · rintro hans x a hx (⟨q', hq'⟩ | ⟨q', hq'⟩)
      · refine .inl ⟨q', ?_⟩
        have : q' ≠ q := by
          rintro rfl
          rcases d3 hans with h1 | ⟨a1, h1⟩
          · rw [hq, hq'] at h1; cases h1
          · rw [hq, hq'] at h1; injection h1 with h1; exact hx (congrArg Prod.fst h1)
        simp only [p3, upd_ne _ _ this]; exact hq'
      · exact .inr ⟨q', by rw [p2]; exact hq'⟩

theorem drop_o {c : Cfg} {s : OSt} {cur : Nat → Option Nat} (hI : OInv c s cur) {h i : Nat} {r : PRec}
    (hF : Found c s cur h i r) :
    ∃ t, s.dropAt h (c.slot (c.bucketId h) i) = some t ∧ OInv c t cur ∧ Spares c s t h ∧
      Free (regOf c t.base) t.bl cur h := by
  unfold OSt.dropAt
  generalize hq : c.slot (c.bucketId h) i = q at *
  rcases hF.kind with ⟨k1, b, r0, k2, k3, k4, k5⟩ | ⟨k1, k2, k3, k4⟩
  · rw [hq] at k1 k2 k5
    rw [if_pos k1, k2]
    simp only
    obtain ⟨p1, p2⟩ := drop_blk hI.wf (x := h) k1 k2
    have hm : AI c (regOf c s.base) (OSt.bl { s with comb := upd s.comb q (some (b.remove h)) }) cur :=
      hI.ai.mono (fun _ _ => id) (fun q' y a => by
        rw [p2]; split
        · simp
        · exact id)
    have hnb : ∀ q', OSt.bl { s with comb := upd s.comb q (some (b.remove h)) } q' h = none := by
      intro q'
      rw [p2]; split
      · rfl
      · next e =>
        cases hx : s.bl q' h with
        | none => rfl
        | some a => exact absurd ⟨hI.ai.d3 _ _ _ _ _ hx k5, rfl⟩ e
    refine ⟨_, rfl, ⟨p1, hm⟩, ?_, ⟨fun q' k a h1 h2 => ?_, hnb⟩⟩
    · rintro x a hx (⟨q', hq'⟩ | ⟨q', hq'⟩)
      · exact .inl ⟨q', hq'⟩
      · refine .inr ⟨q', ?_⟩
        rw [p2, if_neg (by rintro ⟨-, rfl⟩; exact hx rfl)]; exact hq'
    · rw [hI.ai.bown _ _ _ k5] at h2
      exact hI.ai.d2 _ _ _ q h h1 (by rw [k5]; exact h2)
  · rw [hq] at k1 k2 k3
    rw [if_neg (by rw [k1]; simp)]
    obtain ⟨p1, p2, p3⟩ := drop_plain hI.wf (q := q) k1
    have hm : AI c (upd (regOf c s.base) q none) s.bl cur := hI.ai.mono (fun q' e => by
      simp only [upd]; split
      · simp
      · exact id) (fun _ _ _ => id)
    refine ⟨_, rfl, ⟨p1, ?_⟩, ?_, ?_⟩
    · rw [p2]; simp only [p3]; exact hm
    · rintro x a hx (⟨q', hq'⟩ | ⟨q', hq'⟩)
      · refine .inl ⟨q', ?_⟩
        have : q' ≠ q := by rintro rfl; rw [k3] at hq'; injection hq' with hq'; exact hx (congrArg Prod.fst hq').symm
        simp only [p3, upd_ne _ _ this]; exact hq'
      · exact .inr ⟨q', by rw [p2]; exact hq'⟩
    · rw [p2]; simp only [p3]
      refine ⟨hm.noreg fun q' k a h1 h2 => ?_, k4⟩
      subst h2
      simp only [upd] at h1
      split at h1
      · cases h1
      · next e => exact e (hI.ai.uniq _ _ _ _ _ h1 k3)

/-- What an operation on `h` does: `e` is the record it reports. -/
structure Reads (c : Cfg) (s : OSt) (cur : Nat → Option Nat) (h : Nat) (e : Option View) : Prop where
  own : ∀ v, e = some v → ∃ y, keyOf c y = keyOf c h ∧ cur y = some v.addr
  held : ∀ a, cur h = some a → Held c s h a → ∃ v, e = some v ∧ v.addr = a

theorem lookup_o {c : Cfg} (hc : c.Good) {s : OSt} {cur : Nat → Option Nat} (hI : OInv c s cur) (h : Nat) :
    ∃ t e, s.lookup c h = some (t, e) ∧ OInv c t cur ∧ (∀ x a, Held c t x a ↔ Held c s x a) ∧ Reads c s cur h e ∧ t.comb = s.comb := by
  unfold OSt.lookup
  rcases check_o hc hI h with ⟨h1, h2, h3⟩ | ⟨i, r, h1, hF⟩
  · rw [h1]
    exact ⟨s, none, rfl, hI, fun _ _ => Iff.rfl, ⟨fun v hv => (by cases hv), fun a _ hh => absurd hh (h3 a)⟩, rfl⟩
  · rw [h1]
    simp only [hF.rcd, Option.map_some, hF.valid, if_true]
    have hv : ∀ r : PRec, r.bump.valid = r.valid := fun _ => rfl
    have hcm : ∀ r : PRec, r.bump.combined = r.combined := fun _ => rfl
    have e1 := regOf_same (c := c) (s := s.base) (q := c.slot (c.bucketId h) i)
      (r := (s.base.ht (c.slot (c.bucketId h) i)).bump) rfl rfl rfl
    have e2 := bl_setRec (s := s) (q := c.slot (c.bucketId h) i)
      (r := (s.base.ht (c.slot (c.bucketId h) i)).bump) rfl
    refine ⟨_, _, rfl, ⟨?_, ?_⟩, ?_, ⟨?_, ?_⟩, rfl⟩
    · refine wf_setRec hI.wf rfl ?_
      intro hx
      exact (hI.wf.cv _ (slot_lt hc (bucketId_lt' hc h) i) hx).1
    · rw [e2]; simp only [e1]; exact hI.ai
    · intro x a
      unfold Held
      rw [e2]; simp only [e1]
    · intro v hv; cases hv; exact hF.own
    · intro a ha hh; exact ⟨_, rfl, hF.cur a ha hh⟩

theorem peek_o {c : Cfg} (hc : c.Good) {s : OSt} {cur : Nat → Option Nat} (hI : OInv c s cur) (h : Nat) :
    ∃ e, s.peek c h = some e ∧ Reads c s cur h e := by
  unfold OSt.peek
  rcases check_o hc hI h with ⟨h1, h2, h3⟩ | ⟨i, r, h1, hF⟩
  · rw [h1]
    exact ⟨none, rfl, ⟨fun v hv => (by cases hv), fun a _ hh => absurd hh (h3 a)⟩⟩
  · rw [h1]
    simp only [hF.rcd, Option.map_some, seen, hF.valid, if_true]
    refine ⟨_, rfl, ⟨?_, ?_⟩⟩
    · intro v hv; cases hv; exact hF.own
    · intro a ha hh; exact ⟨_, rfl, hF.cur a ha hh⟩

theorem remove_o {c : Cfg} (hc : c.Good) {s : OSt} {cur : Nat → Option Nat} (hI : OInv c s cur) (h : Nat) :
    ∃ t e, s.remove c h = some (t, e) ∧ OInv c t (upd cur h none) ∧ Spares c s t h ∧ Reads c s cur h e := by
  unfold OSt.remove
  rcases check_o hc hI h with ⟨h1, h2, h3⟩ | ⟨i, r, h1, hF⟩
  · rw [h1]
    exact ⟨s, none, rfl, ⟨hI.wf, hI.ai.setCur h2 (by simp)⟩, fun _ _ _ => id,
      ⟨fun v hv => (by cases hv), fun a _ hh => absurd hh (h3 a)⟩⟩
  · rw [h1]
    obtain ⟨t, t1, t2, t3, t4⟩ := drop_o (count_o hI h (· - 1)) (hF.count (· - 1))
    simp only [hF.rcd, hF.valid, if_true, t1, Option.map_some, seen]
    refine ⟨_, _, rfl, ⟨t2.wf, t2.ai.setCur t4 (by simp)⟩, t3, ⟨?_, ?_⟩⟩
    · intro v hv; cases hv; exact hF.own
    · intro a ha hh; exact ⟨_, rfl, hF.cur a ha hh⟩

theorem removeMatch_o {c : Cfg} (hc : c.Good) {s : OSt} {cur : Nat → Option Nat} (hI : OInv c s cur) (h a : Nat) :
    ∃ t e, s.removeIfMatch c h a = some (t, e) ∧ OInv c t (fun x => if x = h ∧ cur h = some a then none else cur x) ∧
      Spares c s t h ∧ (e = true → ∃ y, keyOf c y = keyOf c h ∧ cur y = some a) ∧
      (cur h = some a → Held c s h a → e = true) ∧ (e = false → ∀ x a', Held c s x a' → Held c t x a') := by
  have key : ∀ t, OInv c t cur → (cur h = some a → Free (regOf c t.base) t.bl cur h) →
      OInv c t (fun x => if x = h ∧ cur h = some a then none else cur x) := by
    intro t ht hf
    by_cases hh : cur h = some a
    · have := ht.ai.setCur (hf hh) (v := none) (by simp)
      refine ⟨ht.wf, ?_⟩
      have e : (fun x => if x = h ∧ cur h = some a then none else cur x) = upd cur h none := by
        funext x; simp only [upd, hh, and_true]
      rw [e]; exact this
    · have e : (fun x => if x = h ∧ cur h = some a then none else cur x) = cur := by
        funext x; simp only [hh, and_false, if_false]
      rw [e]; exact ht
  unfold OSt.removeIfMatch
  rcases check_o hc hI h with ⟨h1, h2, h3⟩ | ⟨i, r, h1, hF⟩
  · rw [h1]
    exact ⟨s, false, rfl, key s hI (fun _ => h2), fun _ _ _ => id, by simp, fun _ hh => absurd hh (h3 a), fun _ _ _ => id⟩
  · rw [h1]
    simp only [hF.rcd]
    by_cases hm : r.addr = a
    · obtain ⟨t, t1, t2, t3, t4⟩ := drop_o (count_o hI h (· - 1)) (hF.count (· - 1))
      rw [if_pos ⟨hF.valid, hm⟩, t1]
      refine ⟨_, _, rfl, key t t2 (fun _ => t4), t3, fun _ => ?_, fun _ _ => rfl, by simp⟩
      rw [← hm]; exact hF.own
    · rw [if_neg (by rintro ⟨-, h⟩; exact hm h)]
      refine ⟨_, _, rfl, key s hI (fun hh => ?_), fun _ _ _ => id, by simp, fun hh h4 => absurd (hF.cur a hh h4) hm, fun _ _ _ => id⟩
      rcases hF.kind with ⟨k1, b, r0, k2, k3, k4, k5⟩ | ⟨k1, k2, k3, k4⟩
      · rw [hI.ai.bown _ _ _ k5] at hh; injection hh with hh; exact absurd hh hm
      · refine ⟨fun q k a' h5 h6 => ?_, k4⟩
        rw [hh] at h6; cases h6
        obtain ⟨y, hy1, hy2⟩ := hI.ai.own _ _ _ h5
        have := hI.ai.inj _ _ _ hy2 hh
        subst this
        subst hy1
        have := hI.ai.uniq _ _ _ _ _ h5 k3
        subst this
        rw [k3] at h5; injection h5 with h5; exact hm (congrArg Prod.snd h5)

/-- the record in the bucket chosen -/
theorem dec_record {c : Cfg} (hc : c.Good) {s : OSt} {key : Nat → Option Nat} {h : Nat} {cur : Nat → Option Nat} {t : OSt} {i : Nat}
    (hD : Dec c s key h cur t i) :
    ∃ r, t.record h (c.slot (c.bucketId h) i) = some r ∧
      (∀ a, cur h = some a → Held c s h a → r.valid = true ∧ r.addr = a) ∧
      (r.valid = true → ∃ y, cur y = some r.addr ∧ ((∀ x a, cur x = some a → key a = some x) → keyOf c y = keyOf c h)) := by
  have hb := bucketId_lt' hc h
  have hI := hD.inv
  have hsl := slot_lt hc hb i
  unfold OSt.record
  by_cases hcm : (t.base.ht (c.slot (c.bucketId h) i)).combined = true
  · rw [if_pos hcm]
    obtain ⟨d1, d2⟩ := hD.dblk hcm
    obtain ⟨-, b, hcb⟩ := hI.wf.cv _ hsl hcm
    rw [hcb]
    simp only
    cases hv : b.val h with
    | none =>
      refine ⟨_, rfl, ?_, by intro hx; cases hx⟩
      intro a ha hh
      rcases hD.keeps h a ha hh with ⟨q, hq⟩ | ⟨q, hq⟩
      · exact absurd ha (d2 _ _ _ hq)
      · by_cases e : q = c.slot (c.bucketId h) i
        · subst e; rw [bl_val hcm hcb, hv] at hq; cases hq
        · rw [d1 q e] at hq; cases hq
    | some r0 =>
      have hbl := bl_val hcm hcb h
      rw [hv] at hbl
      have hcur := hI.ai.bown _ _ _ hbl
      obtain ⟨v1, -, -⟩ := hI.wf.bv _ _ _ _ hsl hcm hcb hv
      refine ⟨_, rfl, fun a ha _ => ⟨v1, ?_⟩, fun _ => ⟨h, hcur, fun _ => rfl⟩⟩
      rw [hcur] at ha; injection ha
  · rw [if_neg hcm]
    simp only [Bool.not_eq_true] at hcm
    obtain ⟨d1, d2, d3⟩ := hD.dreg hcm
    refine ⟨_, rfl, ?_, ?_⟩
    · intro a ha hh
      rcases hD.keeps h a ha hh with ⟨q, hq⟩ | ⟨q, hq⟩
      · by_cases e : q = c.slot (c.bucketId h) i
        · subst e
          obtain ⟨-, e1, -, e2⟩ := regOf_some hq
          exact ⟨e1, (congrArg Prod.snd e2).symm⟩
        · exact absurd rfl (d1 _ _ _ hq e)
      · rw [d2] at hq; cases hq
    · intro hv
      have hreg := regOf_eq hsl hv hcm
      obtain ⟨y, hy1, hy2⟩ := hI.ai.own _ _ _ hreg
      refine ⟨y, hy2, fun hans => ?_⟩
      rcases d3 hans with h1 | ⟨a, h1⟩
      · rw [hreg] at h1; cases h1
      · rw [hreg] at h1; injection h1 with h1; rw [hy1]; exact congrArg Prod.fst h1

/-- every current record can be read -/
def Answers (key cur : Nat → Option Nat) : Prop := ∀ x a, cur x = some a → key a = some x

theorem insert_o {c : Cfg} (hc : c.Good) {s : OSt} {cur : Nat → Option Nat} (hI : OInv c s cur) {key : Nat → Option Nat}
    (hk : Honest key cur) {h a z : Nat} (ha : a ≠ 0) (hz : z < 65536) (hf : ∀ x, cur x ≠ some a) :
    ∃ t e, s.insert c key h a z = some (t, e) ∧ OInv c t (upd cur h (some a)) ∧
      (Answers key cur → ∀ x b, cur x = some b → keyOf c x ≠ keyOf c h → Held c s x b → Held c t x b) ∧
      (Answers key cur → Reads c s cur h e) ∧
      (Held c t h a ∨ ∃ i b, i < 4 ∧ t.comb (c.slot (c.bucketId h) i) = some b ∧ h ∉ b.stored ∧ blkRoom b.stored.length = false) := by
  have hD := decide_o hc hI hk h
  unfold OSt.insert
  generalize s.decideSlot c key h = d at hD ⊢
  obtain ⟨r, r1, r2, r3⟩ := dec_record hc hD
  simp only [r1]
  have hD' : Dec c s key h cur (if r.valid then d.1 else d.1.count c h (· + 1)) d.2 := by
    split
    · exact hD
    · exact hD.count _
  generalize (if r.valid then d.1 else d.1.count c h (· + 1)) = t0 at hD' ⊢
  obtain ⟨t', p1, p2, p3, p4⟩ := put_o hc hD' (r := PRec.make a z) (make_valid ha) (make_plain hz) hf
  rw [p1]
  refine ⟨t', seen r, rfl, p2, ?_, ?_, ?_⟩
  · intro hans x b hx hne hh
    exact p3 hans x b hne (hD'.keeps x b hx hh)
  · intro hans
    constructor
    · intro v hv
      unfold seen at hv
      split at hv
      · next hr => cases hv; obtain ⟨y, y1, y2⟩ := r3 hr; exact ⟨y, y2 hans, y1⟩
      · cases hv
    · intro b hb hh
      obtain ⟨h1, h2⟩ := r2 b hb hh
      exact ⟨r.view, by unfold seen; rw [if_pos h1], h2⟩
  · rcases p4 with p4 | ⟨b, b1, b2⟩
    · exact .inl p4
    · exact .inr ⟨d.2, b, hD.lt, b1, b2⟩

theorem insertNE_o {c : Cfg} (hc : c.Good) {s : OSt} {cur : Nat → Option Nat} (hI : OInv c s cur) {key : Nat → Option Nat}
    (hk : Honest key cur) {h a z : Nat} (ha : a ≠ 0) (hz : z < 65536) (hf : ∀ x, cur x ≠ some a) :
    ∃ t e, s.insertIfNotExists c key h a z = some (t, e) ∧ OInv c t (match e with | none => upd cur h (some a) | some _ => cur) ∧
      (Answers key cur → ∀ x b, cur x = some b → keyOf c x ≠ keyOf c h → Held c s x b → Held c t x b) ∧
      (Answers key cur → Reads c s cur h e) ∧
      (e = none → Held c t h a ∨ ∃ i b, i < 4 ∧ t.comb (c.slot (c.bucketId h) i) = some b ∧ h ∉ b.stored ∧ blkRoom b.stored.length = false) ∧
      (∀ v, e = some v → ∀ x b, cur x = some b → Held c s x b → Held c t x b) := by
  have hD := decide_o hc hI hk h
  unfold OSt.insertIfNotExists
  generalize s.decideSlot c key h = d at hD ⊢
  obtain ⟨r, r1, r2, r3⟩ := dec_record hc hD
  simp only [r1]
  by_cases hr : r.valid = true
  · rw [if_pos hr]
    have hs : seen r = some r.view := by unfold seen; rw [if_pos hr]
    rw [hs]
    refine ⟨_, _, rfl, hD.inv, fun _ x b hx _ hh => hD.keeps x b hx hh, fun hans => ⟨?_, ?_⟩, by simp, fun _ _ x b hx hh => hD.keeps x b hx hh⟩
    · intro v hv; cases hv
      obtain ⟨y, y1, y2⟩ := r3 hr; exact ⟨y, y2 hans, y1⟩
    · intro b hb hh; exact ⟨_, rfl, (r2 b hb hh).2⟩
  · rw [if_neg hr]
    have hD' := hD.count (f := (· + 1))
    obtain ⟨t', p1, p2, p3, p4⟩ := put_o hc hD' (r := PRec.make a z) (make_valid ha) (make_plain hz) hf
    rw [p1]
    refine ⟨t', none, rfl, p2, ?_, ?_, ?_, by simp⟩
    · intro hans x b hx hne hh
      exact p3 hans x b hne (hD'.keeps x b hx hh)
    · intro hans
      exact ⟨by simp, fun b hb hh => absurd (r2 b hb hh).1 hr⟩
    · intro _
      rcases p4 with p4 | ⟨b, b1, b2⟩
      · exact .inl p4
      · exact .inr ⟨d.2, b, hD.lt, b1, b2⟩

theorem Found.dec {c : Cfg} {s : OSt} {cur : Nat → Option Nat} (hI : OInv c s cur) {h i : Nat} {r : PRec}
    (hF : Found c s cur h i r) (key : Nat → Option Nat) : Dec c s key h cur s i := by
  refine ⟨hF.lt, hI, fun _ _ _ => id, fun _ _ _ => id, fun hf => ?_, fun hf => ?_, fun _ _ => id⟩
  · rcases hF.kind with ⟨k1, -⟩ | ⟨k1, k2, k3, k4⟩
    · rw [hf] at k1; cases k1
    · refine ⟨fun q k a h1 h2 h3 => ?_, k4, fun _ => .inr ⟨_, k3⟩⟩
      subst h3; exact h2 (hI.ai.uniq _ _ _ _ _ h1 k3)
  · rcases hF.kind with ⟨k1, b, r0, k2, k3, k4, k5⟩ | ⟨k1, -⟩
    · refine ⟨fun q hq => ?_, fun q k a h1 h2 => ?_⟩
      · cases hx : s.bl q h with
        | none => rfl
        | some a => exact absurd (hI.ai.d3 _ _ _ _ _ hx k5) hq
      · rw [hI.ai.bown _ _ _ k5] at h2
        exact hI.ai.d2 _ _ _ _ h h1 (by rw [k5]; exact h2)
    · rw [hf] at k1; cases k1

theorem replace_o {c : Cfg} (hc : c.Good) {s : OSt} {cur : Nat → Option Nat} (hI : OInv c s cur) {h new old : Nat}
    (hn : new ≠ 0) (hf : ∀ x, cur x ≠ some new) (ho : ∀ x, x ≠ h → cur x ≠ some old) :
    ∃ t e, s.replaceIfMatch c h new old = some (t, e) ∧ OInv c t (if e then upd cur h (some new) else cur) ∧
      Spares c s t h ∧ (e = true → cur h = some old ∧ Held c t h new) ∧ (e = false → t = s) ∧
      (cur h = some old → Held c s h old → e = true) := by
  unfold OSt.replaceIfMatch
  rcases check_o hc hI h with ⟨h1, h2, h3⟩ | ⟨i, r, h1, hF⟩
  · rw [h1]
    exact ⟨s, false, rfl, hI, fun _ _ _ => id, by simp, fun _ => rfl, fun _ hh => absurd hh (h3 _)⟩
  · rw [h1]
    simp only [hF.rcd]
    by_cases hm : r.addr = old
    · rw [if_pos ⟨hF.valid, hm⟩]
      have hcur : cur h = some old := by
        obtain ⟨y, -, hy⟩ := hF.own
        rw [hm] at hy
        by_cases e : y = h
        · subst e; exact hy
        · exact absurd hy (ho y e)
      have hv : PRec.valid { r with addr := new, hits := 0 } = true := by simp [PRec.valid, hn]
      have hpl : PRec.combined { r with addr := new, hits := 0 } = false := hF.plain
      have hb := bucketId_lt' hc h
      rcases hF.kind with ⟨k1, b, r0, k2, k3, k4, k5⟩ | ⟨k1, k2, k3, k4⟩
      · obtain ⟨v1, v2, v3⟩ := hI.wf.bv _ _ _ _ (comb_lt hI.wf k1) k1 k2 k3
        obtain ⟨t', p1, p2, -, p4⟩ := put_o hc (hF.dec hI (fun _ => none)) (r := { r with addr := new, hits := 0 }) hv hpl hf
        rw [if_pos k1, k2]
        unfold OSt.put at p1
        simp only [k1, if_true, k2] at p1
        cases ha : b.add h { r with addr := new, hits := 0 } with
        | none => exact absurd v3 (Blk.add_none ha).1
        | some b' =>
          rw [ha] at p1
          simp only [Option.some.injEq] at p1
          obtain ⟨a1, a2, a3, -, -⟩ := Blk.add_some ha
          obtain ⟨q1, q2⟩ := put_blk hI.wf k1 k2 a1 a2 a3 hv hpl
          simp only [ha]
          rw [p1]
          refine ⟨_, _, rfl, p2, ?_, fun _ => ⟨hcur, ?_⟩, by simp, fun _ _ => rfl⟩
          · rw [← p1]
            rintro x a hx (⟨q', hq'⟩ | ⟨q', hq'⟩)
            · exact .inl ⟨q', hq'⟩
            · refine .inr ⟨q', ?_⟩
              rw [q2, if_neg (by rintro ⟨-, rfl⟩; exact hx rfl)]; exact hq'
          · refine .inr ⟨c.slot (c.bucketId h) i, ?_⟩
            rw [← p1, q2]; simp
      · rw [if_neg (by rw [k1]; simp)]
        rw [k2]
        generalize hq : c.slot (c.bucketId h) i = q at *
        have hqt : q < c.total := by rw [← hq]; exact slot_lt hc hb i
        have p3 : regOf c (s.base.setRec q { r with addr := new, hits := 0 }) = upd (regOf c s.base) q (some (keyOf c h, new)) := by
          funext q'
          rw [regOf_setRec]
          simp only [upd]
          split
          · rw [if_pos ⟨hqt, hv, hpl⟩]
            obtain ⟨-, -, -, e⟩ := regOf_some k3
            have e1 : keyOf c h = keyAt c s.base q := congrArg Prod.fst e
            rw [e1]
          · rfl
        have p2 := bl_setRec (s := s) (q := q) (r := { r with addr := new, hits := 0 }) (by rw [k1, hpl])
        refine ⟨_, _, rfl, ⟨wf_setRec hI.wf (by rw [k1, hpl]) (by rw [hpl]; simp), ?_⟩, ?_, fun _ => ⟨hcur, .inl ⟨q, by simp only [p3, upd_same]⟩⟩,
          by simp, fun _ _ => rfl⟩
        · rw [p2]
          simp only [p3, if_true]
          have hmo : AI c (upd (regOf c s.base) q none) s.bl cur := hI.ai.mono (fun q' e => by
            simp only [upd]; split
            · simp
            · exact id) (fun _ _ _ => id)
          have hnr : ∀ q' k a, upd (regOf c s.base) q none q' = some (k, a) → k ≠ keyOf c h := by
            intro q' k a h1 h2
            subst h2
            simp only [upd] at h1
            split at h1
            · cases h1
            · next e => exact e (hI.ai.uniq _ _ _ _ _ h1 k3)
          have hm2 := hmo.setCur (x := h) (v := some new) ⟨hmo.noreg hnr, k4⟩ (by intro y a e; cases e; exact hf y)
          have := hm2.addReg (q := q) (x := h) (a := new) (upd_same _ _ _) (fun q' k b h1 _ => hnr q' k b h1) k4
          have e : upd (upd (regOf c s.base) q none) q (some (keyOf c h, new)) = upd (regOf c s.base) q (some (keyOf c h, new)) := by
            funext q'; simp only [upd]; split <;> rfl
          rw [e] at this
          exact this
        · rintro x a hx (⟨q', hq'⟩ | ⟨q', hq'⟩)
          · refine .inl ⟨q', ?_⟩
            have : q' ≠ q := by rintro rfl; rw [k3] at hq'; injection hq' with hq'; exact hx (congrArg Prod.fst hq').symm
            simp only [p3, upd_ne _ _ this]; exact hq'
          · exact .inr ⟨q', by rw [p2]; exact hq'⟩
    · rw [if_neg (by rintro ⟨-, h⟩; exact hm h)]
      exact ⟨s, false, rfl, hI, fun _ _ _ => id, by simp, fun _ => rfl, fun hh h4 => absurd (hF.cur _ hh h4) hm⟩

theorem empty_o {c : Cfg} {s : OSt} (h1 : ∀ q, q < c.total → s.base.ht q = PRec.empty) (h2 : ∀ q, c.total ≤ q → (s.base.ht q).combined = false) :
    OInv c s (fun _ => none) := by
  have hcm : ∀ q, (s.base.ht q).combined = false := by
    intro q
    by_cases h : q < c.total
    · rw [h1 q h]; rfl
    · exact h2 q (by omega)
  have hb : ∀ q x, s.bl q x = none := by intro q x; unfold OSt.bl; rw [hcm]; rfl
  have hr : ∀ q, regOf c s.base q = none := by
    intro q; unfold regOf
    by_cases h : q < c.total
    · rw [h1 q h]; simp [PRec.empty, PRec.valid]
    · simp [h]
  constructor
  · constructor
    · intro q _ h; rw [hcm] at h; cases h
    · intro q b x r _ h; rw [hcm] at h; cases h
    · exact h2
  · constructor <;> simp [hb, hr]

theorem reset_o {c : Cfg} (hc : c.Good) {s : OSt} {cur : Nat → Option Nat} (hI : OInv c s cur) : OInv c (s.reset c) (fun _ => none) := by
  have hsh := (shards_eq hc).1
  refine empty_o ?_ ?_
  · intro q hq
    simp only [OSt.reset, St.reset]
    rw [if_pos (by rw [hsh]; exact hq)]
  · intro q hq
    simp only [OSt.reset, St.reset]
    rw [if_neg (by rw [hsh]; omega)]
    exact hI.wf.out q hq

/-! ### The keys in the blocks -/

theorem put_si {c : Cfg} {P : Nat → Prop} {s t : OSt} {h i : Nat} {r : PRec} (h1 : s.put c h i r = some t) (hS : SI P s)
    (hP : P h) : SI P t := by
  unfold OSt.put at h1
  simp only at h1
  split at h1
  · cases hb : s.comb (c.slot (c.bucketId h) i) with
    | none => rw [hb] at h1; cases h1
    | some b =>
      rw [hb] at h1
      simp only at h1
      cases ha : b.add h r with
      | none => rw [ha] at h1; cases h1; exact hS
      | some b' =>
        rw [ha] at h1
        cases h1
        intro q b1 hq
        simp only [upd] at hq
        split at hq
        · cases hq
          obtain ⟨-, -, -, a1, a2⟩ := Blk.add_some ha
          obtain ⟨s1, s2⟩ := hS _ _ hb
          exact ⟨a1 s1, fun y hy => (a2 y hy).elim (s2 y) (fun e => e ▸ hP)⟩
        · exact hS _ _ hq
  · cases h1; exact hS

theorem drop_si {P : Nat → Prop} {s t : OSt} {h q : Nat} (h1 : s.dropAt h q = some t) (hS : SI P s) : SI P t := by
  unfold OSt.dropAt at h1
  split at h1
  · cases hb : s.comb q with
    | none => rw [hb] at h1; cases h1
    | some b =>
      rw [hb] at h1
      cases h1
      intro q' b1 hq
      simp only [upd] at hq
      split at hq
      · cases hq
        have := hS _ _ hb; exact this
      · exact hS _ _ hq
  · cases h1; exact hS

theorem step_si {c : Cfg} (hc : c.Good) {P : Nat → Prop} {s t : OSt} {cur : Nat → Option Nat} (hI : OInv c s cur)
    {key : Nat → Option Nat} (hk : Honest key cur) {o : Op} {r : Res}
    (ho : match o with
      | .insert h _ _ => P h
      | .insertNE h _ _ => P h
      | .replace h _ _ => P h
      | _ => True)
    (hP : ∀ x a, cur x = some a → P x) (h1 : s.step c key o = some (t, r)) (hS : SI P s) : SI P t := by
  cases o with
  | lookup h =>
    obtain ⟨t', e, l1, -, -, -, l2⟩ := lookup_o hc hI h
    simp only [OSt.step, l1, Option.map_some, Option.some.injEq, Prod.mk.injEq] at h1
    obtain ⟨rfl, -⟩ := h1
    intro q b hq; rw [l2] at hq; exact hS q b hq
  | peek h =>
    simp only [OSt.step, Option.map_eq_some_iff, Prod.mk.injEq] at h1
    obtain ⟨x, -, rfl, -⟩ := h1; exact hS
  | insert h a z =>
    have hD := decide_o hc hI hk h
    have hS' := hD.st P hP hS
    simp only [OSt.step, Option.map_eq_some_iff, Prod.mk.injEq] at h1
    obtain ⟨x, h1, rfl, -⟩ := h1
    unfold OSt.insert at h1
    simp only at h1
    split at h1
    · cases h1
    · next r0 hr =>
      rw [Option.map_eq_some_iff] at h1
      obtain ⟨t', h1, rfl⟩ := h1
      refine put_si h1 ?_ ho
      split
      · exact hS'
      · exact hS'
  | insertNE h a z =>
    have hD := decide_o hc hI hk h
    have hS' := hD.st P hP hS
    simp only [OSt.step, Option.map_eq_some_iff, Prod.mk.injEq] at h1
    obtain ⟨x, h1, rfl, -⟩ := h1
    unfold OSt.insertIfNotExists at h1
    simp only at h1
    split at h1
    · cases h1
    · next r0 hr =>
      split at h1
      · cases h1; exact hS'
      · rw [Option.map_eq_some_iff] at h1
        obtain ⟨t', h1, rfl⟩ := h1
        exact put_si h1 hS' ho
  | replace h a z =>
    simp only [OSt.step, Option.map_eq_some_iff, Prod.mk.injEq] at h1
    obtain ⟨x, h1, rfl, -⟩ := h1
    unfold OSt.replaceIfMatch at h1
    simp only at h1
    repeat' split at h1
    all_goals first | cases h1; done | (cases h1; exact hS) | skip
    next b hb _ b' ha =>
    cases h1
    intro q b1 hq
    simp only [upd] at hq
    split at hq
    · cases hq
      obtain ⟨-, -, -, a1, a2⟩ := Blk.add_some ha
      obtain ⟨s1, s2⟩ := hS _ _ hb
      exact ⟨a1 s1, fun y hy => (a2 y hy).elim (s2 y) (fun e => e ▸ ho)⟩
    · exact hS _ _ hq
  | remove h =>
    simp only [OSt.step, Option.map_eq_some_iff, Prod.mk.injEq] at h1
    obtain ⟨x, h1, rfl, -⟩ := h1
    unfold OSt.remove at h1
    simp only at h1
    repeat' split at h1
    all_goals first | cases h1; done | (cases h1; exact hS) | skip
    all_goals
      rw [Option.map_eq_some_iff] at h1
      obtain ⟨t', h1, rfl⟩ := h1
      exact drop_si h1 hS
  | removeMatch h a =>
    simp only [OSt.step, Option.map_eq_some_iff, Prod.mk.injEq] at h1
    obtain ⟨x, h1, rfl, -⟩ := h1
    unfold OSt.removeIfMatch at h1
    simp only at h1
    repeat' split at h1
    all_goals first | cases h1; done | (cases h1; exact hS) | skip
    rw [Option.map_eq_some_iff] at h1
    obtain ⟨t', h1, rfl⟩ := h1
    exact drop_si h1 hS
  | reset =>
    simp only [OSt.step, Option.some.injEq, Prod.mk.injEq] at h1
    obtain ⟨rfl, -⟩ := h1
    intro q b hq; cases hq

end Verif.NvmIndex.Fixed
