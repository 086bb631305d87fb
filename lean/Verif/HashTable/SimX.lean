import Verif.HashTable.Sim
/-! Simulation, steps that change memory. -/
namespace Verif.HashTable
variable {K : Type} {n : Nat} {c : Cfg K} {s : State K n} {L : Nat → List P} {a : Atomic K n}

theorem flag_same {t : Fin n} {q : PC K} {b : Nat} (h : Sim c s L a) (hq : s.pc t = q)
    (hf : q.flagNode = none) (x : P) (hb : c.bkt x = b)
    (ho : ∀ t', t' ≠ t → (s.pc t').flagNode ≠ some x) : s.acc x = true ↔ x ∈ L b := by
  subst hb
  apply h.inv.flag
  intro t'
  by_cases e : t' = t
  · subst e; rw [hq, hf]; simp
  · exact ho t' e

theorem fresh_notin {l : List P} {nd : P} (h : Fresh c l nd) : nd ∉ l := fun hm => h nd hm rfl

theorem sim_iLink {t : Fin n} {o : Op K} {nd : P} {hd : Option P} (h : Sim c s L a)
    (hp : s.pc t = .iLink o hd) (ho : o.newNode = some nd) :
    Next c a .tau { s.setPc t (.iNext o hd) with heads := upd s.heads (c.opBucket o) (some nd) } := by
  have hc := h.chain hp rfl rfl rfl
  obtain ⟨nd', r, hr, hf, hh⟩ := h.loc hp
  have e := pre_new hr
  rw [ho] at e; cases e
  refine silent h hp (fun _ e => setPc_other _ _ e) (setPc_self _ _ _) rfl
    (frameX h.inv hp rfl rfl (new_excl ho) (fun _ e => setPc_other _ _ e) (setPc_self _ _ _) rfl
      ?_ (fun _ _ => rfl) (fun _ _ => rfl) (fun _ _ => rfl) (op_lt (new_excl ho)) (h.inv.good _)
      ⟨nd, r, hr, hf, ?_, ?_⟩ (Or.inl rfl) (fun _ hx => Or.inl hx) (fun nd hn => h.late hp hn) ?_ rfl)
  · intro b hb; simp [upd, hb]
  · simp [upd]
  · rw [hh]; exact hc
  · intro x hx _ h2; exact flag_same h hp rfl x hx h2

theorem sim_iNext {t : Fin n} {o : Op K} {nd : P} {hd : Option P} (h : Sim c s L a)
    (hp : s.pc t = .iNext o hd) (ho : o.newNode = some nd) :
    Next c a .tau { s.setPc t (.iMark o) with next := upd s.next nd hd } := by
  obtain ⟨nd', r, hr, hf, hh, hs⟩ := h.loc hp
  have e := pre_new hr
  rw [ho] at e; cases e
  refine silent h hp (fun _ e => setPc_other _ _ e) (setPc_self _ _ _) rfl
    (frameX h.inv hp rfl rfl (new_excl ho) (fun _ e => setPc_other _ _ e) (setPc_self _ _ _) rfl
      (fun _ _ => rfl) ?_ (fun _ _ => rfl) (fun _ _ => rfl) (op_lt (new_excl ho)) (h.inv.good _)
      ⟨nd, r, hr, hf, ?_⟩ (Or.inl rfl) (fun _ hx => Or.inl hx) (fun nd hn => h.late hp hn) ?_ rfl)
  · intro x hx
    have : x ≠ nd := fun e => hx (by rw [e, new_bkt ho])
    simp [upd, this]
  · refine ⟨hh, ?_⟩
    show Seg (upd s.next nd hd) (upd s.next nd hd nd) _ none
    rw [Seg.upd_notin (fresh_notin hf)]
    simpa [upd] using hs
  · intro x hx _ h2; exact flag_same h hp rfl x hx h2

theorem sim_iMark {t : Fin n} {o : Op K} {nd : P} {r : Res} (h : Sim c s L a)
    (hp : s.pc t = .iMark o) (ho : resPre o = some (nd, r)) :
    Next c a .tau { s.setPc t (.iCount o) with acc := upd s.acc nd true } := by
  obtain ⟨nd', r', hr, hf, hc⟩ := h.loc hp
  rw [ho] at hr; cases hr
  have hx := new_excl (pre_new ho)
  have hb : c.opBucket o = c.bkt nd := new_bkt (pre_new ho)
  rw [hb] at hf hc
  have hnone : a.map (c.key nd) = none := by
    cases hm : a.map (c.key nd) with
    | none => rfl
    | some p => rw [h.map] at hm; exact absurd hm.2 (hf p hm.1)
  have hother : ∀ b, b ≠ c.bkt nd → upd L (c.bkt nd) (nd :: L (c.bkt nd)) b = L b := by
    intro b hb'; simp [upd, hb']
  have hself : upd L (c.bkt nd) (nd :: L (c.bkt nd)) (c.bkt nd) = nd :: L (c.bkt nd) := by simp [upd]
  have hgood : Good c (c.bkt nd) (nd :: L (c.bkt nd)) := by
    refine ⟨?_, ?_⟩
    · rw [List.map_cons, List.nodup_cons]
      refine ⟨?_, (h.inv.good _).1⟩
      rw [List.mem_map]
      rintro ⟨p, hp1, hp2⟩
      exact hf p hp1 hp2
    · intro p hp1
      rcases List.mem_cons.1 hp1 with rfl | hp1
      · rfl
      · exact (h.inv.good _).2 p hp1
  have hI : Inv c { s.setPc t (.iCount o) with acc := upd s.acc nd true }
      (upd L (c.bkt nd) (nd :: L (c.bkt nd))) := by
    refine frameX h.inv hp rfl rfl hx (fun _ e => setPc_other _ _ e) (setPc_self _ _ _) rfl
      (fun _ _ => rfl) (fun _ _ => rfl) ?_ ?_ (op_lt hx) ?_ ⟨nd, r, ho⟩ (Or.inr ?_) ?_ ?_ ?_ ?_
    · intro x hx
      have : x ≠ nd := fun e => hx (by rw [e, hb])
      simp [upd, this]
    · rw [hb]; exact hother
    · rw [hb, hself]; exact hgood
    · rw [hb, hself]; exact hc
    · rw [hb, hself]
      intro x hxm
      rcases List.mem_cons.1 hxm with rfl | hxm
      · exact Or.inr (pre_new ho)
      · exact Or.inl hxm
    · intro nd hn; cases hn
    · intro x hxb _ h2
      rw [hb, hself]
      by_cases e : x = nd
      · subst e; simp [upd]
      · have := flag_same h hp rfl x (hxb.trans hb) h2
        simp [upd, e, this]
    · rw [hb, hself]
      show s.numKeys + 1 + _ = s.numKeys + 0 + _
      push_cast [List.length_cons]; omega
  have hmap : MapOk c (upd L (c.bkt nd) (nd :: L (c.bkt nd))) (setKey a.map (c.key nd) (some nd)) := by
    refine mapOk_set h.map hother ?_ ?_
    · intro p hpk
      rw [hself]
      have : p ≠ nd := fun e => hpk (by rw [e])
      simp [this]
    · intro p hpk
      rw [hself]
      simp only [List.mem_cons]
      constructor
      · rintro (rfl | hp1)
        · rfl
        · exact absurd hpk (hf p hp1)
      · rintro rfl; exact Or.inl rfl
  cases o <;> simp only [resPre, reduceCtorEq, Option.some.injEq, Prod.mk.injEq] at ho <;>
    obtain ⟨rfl, -⟩ := ho
  · exact effect h hp (fun _ e => setPc_other _ _ e) (setPc_self _ _ _) rfl rfl
      (.insertNew _ _ _ hnone (setKey_self _ _ _) (setKey_other _ _ _)) hmap hI
  · exact effect h hp (fun _ e => setPc_other _ _ e) (setPc_self _ _ _) rfl rfl
      (.putNew _ _ _ _ hnone (setKey_self _ _ _) (setKey_other _ _ _)) hmap hI

/-- step that only changes `numKeys_` and the program point. -/
theorem sim_count {t : Fin n} {p q : PC K} {o : Op K} {v : Int} (h : Sim c s L a) (hq : s.pc t = q)
    (hqo : q.op = some o) (hpo : p.op = some o) (hx : o.exclusive = true) (hql : q.inLock = true)
    (loc : Loc c { s.setPc t p with numKeys := v } L p)
    (hqd : q.dirty = false) (hl : p.late = none) (hf : p.flagNode = none ∧ q.flagNode = none)
    (hv : v + p.owed = s.numKeys + q.owed) (habs : p.abs = q.abs) :
    Next c a .tau { s.setPc t p with numKeys := v } := by
  refine silent h hq (fun _ e => setPc_other _ _ e) (setPc_self _ _ _) habs
    (frameX h.inv hq hqo hql hx (fun _ e => setPc_other _ _ e) (setPc_self _ _ _) hpo
      (fun _ _ => rfl) (fun _ _ => rfl) (fun _ _ => rfl) (fun _ _ => rfl) (op_lt hx) (h.inv.good _)
      loc (Or.inr (h.chain hq hqo hql hqd)) (fun _ hx => Or.inl hx) ?_ ?_ ?_)
  · intro nd hn; rw [hl] at hn; cases hn
  · intro x hxb _ h2; exact flag_same h hq hf.2 x hxb h2
  · show v + _ + _ = _; omega

theorem sim_xLink {t : Fin n} {o : Op K} {nd x : P} {prev : Option P} (h : Sim c s L a)
    (hp : s.pc t = .xLink o prev x) (ho : o.newNode = some nd) :
    Next c a .tau ((s.setLink (c.opBucket o) prev (some nd)).setPc t (.xNext o x)) := by
  have hc := h.chain hp rfl rfl rfl
  obtain ⟨nd', pre, post, h1, h2, h3, h4, h5, h6⟩ := h.loc hp
  rw [ho] at h1; cases h1
  have hg := h5 ▸ h.inv.good (c.opBucket o)
  have hgp := good_parts hg
  have hnd := good_nodup hg
  have hpc : ∀ t', t' ≠ t → ((s.setLink (c.opBucket o) prev (some nd)).setPc t (.xNext o x)).pc t' = s.pc t' := by
    intro t' e; rw [setPc_other _ _ e, setLink_pc]
  have hprev : ∀ y, prev = some y → y ∈ pre := fun y hy => last_mem (h6 ▸ hy)
  have hnp := List.nodup_append.1 hnd
  have hns : ∀ y ∈ x :: post, prev ≠ some y := by
    intro y hy e; exact hnp.2.2 y (hprev y e) y hy rfl
  rw [h5] at hc
  unfold Chain at hc
  rw [Seg.append] at hc
  obtain ⟨m, hc1, hc2⟩ := hc
  refine silent h hp hpc (setPc_self _ _ _) rfl
    (frameX h.inv hp rfl rfl (new_excl ho) hpc (setPc_self _ _ _) rfl
      ?_ ?_ ?_ (fun _ _ => rfl) (op_lt (new_excl ho)) (h.inv.good _)
      ⟨nd, pre, post, ho, h2, h3, h4, h5, ?_, ?_⟩ (Or.inl rfl) (fun _ hx => Or.inl hx)
      (fun nd hn => h.late hp hn) ?_ ?_)
  · intro b hb; exact setLink_heads hb
  · intro y hy
    exact setLink_next fun e => hy (hgp.1 y (hprev y e))
  · intro y _; show (s.setLink _ _ _).acc y = _; rw [setLink_acc]
  · show Seg (s.setLink _ _ _).next ((s.setLink _ _ _).heads _) pre (some nd)
    rw [h6]; exact setLink_seg hnp.1 hc1
  · show Seg (s.setLink _ _ _).next ((s.setLink _ _ _).next x) post none
    rw [setLink_next (hns x (by simp)), setLink_seg_notin fun y hy => hns y (by simp [hy])]
    exact hc2.2
  · intro y hy _ h2
    show (s.setLink _ _ _).acc y = true ↔ _
    rw [setLink_acc]; exact flag_same h hp rfl y hy h2
  · show (s.setLink _ _ _).numKeys + _ + _ = _
    rw [setLink_num]; rfl

theorem sim_xNext {t : Fin n} {o : Op K} {nd x : P} (h : Sim c s L a)
    (hp : s.pc t = .xNext o x) (ho : o.newNode = some nd) :
    Next c a .tau { s.setPc t (.xDone o x) with next := upd s.next nd (s.next x) } := by
  obtain ⟨nd', pre, post, h1, h2, h3, h4, h5, h6, h7⟩ := h.loc hp
  rw [ho] at h1; cases h1
  have hl : nd ∉ L (c.opBucket o) := by rw [new_bkt ho]; exact h.late hp ho
  rw [h5] at hl
  simp only [List.mem_append, List.mem_cons, not_or] at hl
  refine silent h hp (fun _ e => setPc_other _ _ e) (setPc_self _ _ _) rfl
    (frameX h.inv hp rfl rfl (new_excl ho) (fun _ e => setPc_other _ _ e) (setPc_self _ _ _) rfl
      (fun _ _ => rfl) ?_ (fun _ _ => rfl) (fun _ _ => rfl) (op_lt (new_excl ho)) (h.inv.good _)
      ⟨nd, pre, post, ho, h2, h3, h4, h5, ?_⟩ (Or.inl rfl) (fun _ hx => Or.inl hx)
      (fun nd hn => h.late hp hn) ?_ rfl)
  · intro y hy
    have : y ≠ nd := fun e => hy (by rw [e, new_bkt ho])
    simp [upd, this]
  · show Seg (upd s.next nd (s.next x)) (s.heads _) (pre ++ nd :: post) none
    rw [Seg.append]
    refine ⟨some nd, ?_, rfl, ?_⟩
    · rw [Seg.upd_notin hl.1]; exact h6
    · rw [Seg.upd_notin hl.2.2]; simpa [upd] using h7
  · intro y hy _ h2; exact flag_same h hp rfl y hy h2

theorem sim_xMark {t : Fin n} {nd x : P} (h : Sim c s L a)
    (hp : s.pc t = .xDone (.insertOrReplace nd false) x) :
    Next c a .tau { s.setPc t (.xOld (.insertOrReplace nd false) x) with acc := upd s.acc nd true } := by
  obtain ⟨nd', pre, post, h1, h2, h3, h4, h5, h6⟩ := h.loc hp
  cases h1
  refine silent h hp (fun _ e => setPc_other _ _ e) (setPc_self _ _ _) rfl
    (frameX h.inv hp rfl rfl rfl (fun _ e => setPc_other _ _ e) (setPc_self _ _ _) rfl
      (fun _ _ => rfl) (fun _ _ => rfl) ?_ (fun _ _ => rfl) (op_lt rfl) (h.inv.good _)
      ⟨nd, pre, post, rfl, h3, h5, h6, ?_⟩ (Or.inl rfl) (fun _ hx => Or.inl hx)
      (fun nd hn => h.late hp hn) ?_ rfl)
  · intro y hy
    have : y ≠ nd := fun e => hy (by rw [e]; rfl)
    simp [upd, this]
  · simp [upd]
  · intro y hy hfl h2
    have : y ≠ nd := fun e => hfl (by rw [e]; rfl)
    have h3 := flag_same h hp rfl y hy h2
    simp only [upd, this, if_false]; exact h3

/-- replacing `x` by `nd` in the logical chain. -/
theorem replace_facts {o : Op K} {x nd : P} {pre post : List P} (h : Sim c s L a)
    (hb : c.opBucket o = c.bkt nd) (h3 : c.key x = c.key nd) (h5 : L (c.opBucket o) = pre ++ x :: post)
    (hl : nd ∉ L (c.bkt nd)) :
    Good c (c.opBucket o) (pre ++ nd :: post) ∧ nd ≠ x ∧ a.map (c.key nd) = some x ∧
    MapOk c (upd L (c.opBucket o) (pre ++ nd :: post)) (setKey a.map (c.key nd) (some nd)) := by
  have hg := h5 ▸ h.inv.good (c.opBucket o)
  have hg' := nd_split hg h3
  have hxm : x ∈ L (c.bkt nd) := by rw [← hb, h5]; simp
  have hne : nd ≠ x := fun e => hl (e ▸ hxm)
  have hmx : a.map (c.key nd) = some x := by rw [h.map]; exact ⟨hxm, h3⟩
  refine ⟨hg', hne, hmx, ?_⟩
  rw [hb] at *
  refine mapOk_set h.map (fun b hb' => by simp [upd, hb']) ?_ ?_
  · intro p hpk
    have e1 : p ≠ nd := fun e => hpk (by rw [e])
    have e2 : p ≠ x := fun e => hpk (by rw [e, h3])
    simp [upd, h5, e1, e2]
  · intro p hpk
    simp only [upd, if_pos]
    constructor
    · intro hp1; exact good_inj hg' hp1 (by simp) hpk
    · rintro rfl; simp

theorem sim_xOld {t : Fin n} {o : Op K} {x : P} (h : Sim c s L a) (hp : s.pc t = .xOld o x) :
    Next c a .tau { s.setPc t (.fin o (.handle (some x))) with acc := upd s.acc x false } := by
  obtain ⟨nd, pre, post, rfl, h3, h5, h6, h7⟩ := h.loc hp
  have hl : nd ∉ L (c.bkt nd) := h.late hp rfl
  obtain ⟨hg', hne, hmx, hmap⟩ := replace_facts h (o := .insertOrReplace nd false) rfl h3 h5 hl
  have hxb : c.bkt x = c.opBucket (.insertOrReplace nd false) := (good_parts (h5 ▸ h.inv.good _)).2.1
  refine effect h hp (fun _ e => setPc_other _ _ e) (setPc_self _ _ _) rfl rfl
    (.putOld nd x _ _ hmx (Ne.symm hne) (setKey_self _ _ _) (setKey_other _ _ _)) hmap ?_
  refine frameX h.inv hp rfl rfl rfl (fun _ e => setPc_other _ _ e) (setPc_self _ _ _) rfl
      (fun _ _ => rfl) (fun _ _ => rfl) ?_ (fun b hb => by simp [upd, hb]) (op_lt rfl) ?_
      trivial (Or.inr ?_) ?_ (fun nd hn => by cases hn) ?_ ?_
  · intro y hy
    have : y ≠ x := fun e => hy (by rw [e, hxb])
    simp [upd, this]
  · simp only [upd, if_pos]; exact hg'
  · simp only [upd, if_pos]; exact h6
  · simp only [upd, if_pos]
    intro y hy
    rw [h5]
    simp only [List.mem_append, List.mem_cons] at hy ⊢
    rcases hy with hy | rfl | hy
    · exact Or.inl (Or.inl hy)
    · exact Or.inr rfl
    · exact Or.inl (Or.inr (Or.inr hy))
  · intro y hy _ h2
    simp only [upd, if_pos]
    by_cases e : y = x
    · subst e
      simp only [if_pos]
      have : y ∉ pre ++ nd :: post := by
        have hn := good_nodup (h5 ▸ h.inv.good _)
        rw [List.nodup_append] at hn
        simp only [List.mem_append, List.mem_cons, not_or]
        refine ⟨fun hy1 => hn.2.2 y hy1 y (by simp) rfl, Ne.symm hne, ?_⟩
        have := hn.2.1
        rw [List.nodup_cons] at this
        exact this.1
      simp [this]
    · simp only [e, if_false]
      by_cases e2 : y = nd
      · subst e2; simp [h7]
      · have hfl : s.acc y = true ↔ y ∈ L (c.bkt y) := by
          apply h.inv.flag
          intro t'
          by_cases ht : t' = t
          · subst ht; rw [hp]; intro e3
            exact e2 (Option.some.inj e3).symm
          · exact h2 t' ht
        rw [hfl, hy, h5]
        simp [e, e2]
  · simp only [upd, if_pos]
    rw [h5]
    show s.numKeys + 0 + _ = s.numKeys + 0 + _
    simp

theorem sim_zOld {t : Fin n} {old nd x : P} {p : Bool} (h : Sim c s L a)
    (hp : s.pc t = .xDone (.replaceIf old nd p) x) :
    Next c a .tau { s.setPc t (.zMark (.replaceIf old nd p)) with acc := upd s.acc old false } := by
  obtain ⟨nd', pre, post, h1, h2, h3, h4, h5, h6⟩ := h.loc hp
  cases h1
  obtain ⟨rfl, rfl⟩ := h4 _ _ _ rfl
  have hl : nd ∉ L (c.bkt nd) := h.late hp rfl
  obtain ⟨hg', hne, hmx, hmap⟩ := replace_facts h (o := .replaceIf x nd true) rfl h3 h5 hl
  have hxb : c.bkt x = c.opBucket (.replaceIf x nd true) := (good_parts (h5 ▸ h.inv.good _)).2.1
  refine effect h hp (fun _ e => setPc_other _ _ e) (setPc_self _ _ _) rfl rfl
    (.replaceYes x nd _ _ (by rw [h3]; exact hmx) (setKey_self _ _ _) (setKey_other _ _ _)) hmap ?_
  refine frameX h.inv hp rfl rfl rfl (fun _ e => setPc_other _ _ e) (setPc_self _ _ _) rfl
      (fun _ _ => rfl) (fun _ _ => rfl) ?_ (fun b hb => by simp [upd, hb]) (op_lt rfl) ?_
      ⟨x, nd, rfl, by simp [upd]⟩ (Or.inr ?_) ?_ (fun nd hn => by cases hn) ?_ ?_
  · intro y hy
    have : y ≠ x := fun e => hy (by rw [e, hxb])
    simp [upd, this]
  · simp only [upd, if_pos]; exact hg'
  · simp only [upd, if_pos]; exact h6
  · simp only [upd, if_pos]
    intro y hy
    rw [h5]
    simp only [List.mem_append, List.mem_cons] at hy ⊢
    rcases hy with hy | rfl | hy
    · exact Or.inl (Or.inl hy)
    · exact Or.inr rfl
    · exact Or.inl (Or.inr (Or.inr hy))
  · intro y hy hfl h2
    simp only [upd, if_pos]
    have e2 : y ≠ nd := fun e => hfl (by rw [e]; rfl)
    by_cases e : y = x
    · subst e
      simp only [if_pos]
      have : y ∉ pre ++ nd :: post := by
        have hn := good_nodup (h5 ▸ h.inv.good _)
        rw [List.nodup_append] at hn
        simp only [List.mem_append, List.mem_cons, not_or]
        refine ⟨fun hy1 => hn.2.2 y hy1 y (by simp) rfl, Ne.symm hne, ?_⟩
        have := hn.2.1
        rw [List.nodup_cons] at this
        exact this.1
      simp [this]
    · simp only [e, if_false]
      rw [flag_same h hp rfl y hy h2, h5]
      simp [e, e2]
  · simp only [upd, if_pos]
    rw [h5]
    show s.numKeys + 0 + _ = s.numKeys + 0 + _
    simp

theorem sim_zMark {t : Fin n} {o : Op K} {nd : P} (h : Sim c s L a) (hp : s.pc t = .zMark o)
    (ho : o.newNode = some nd) :
    Next c a .tau { s.setPc t (.fin o (.flag true)) with acc := upd s.acc nd true } := by
  have hc := h.chain hp rfl rfl rfl
  obtain ⟨old, nd', rfl, hm⟩ := h.loc hp
  cases ho
  refine silent h hp (fun _ e => setPc_other _ _ e) (setPc_self _ _ _) rfl
    (frameX h.inv hp rfl rfl rfl (fun _ e => setPc_other _ _ e) (setPc_self _ _ _) rfl
      (fun _ _ => rfl) (fun _ _ => rfl) ?_ (fun _ _ => rfl) (op_lt rfl) (h.inv.good _)
      trivial (Or.inr hc) (fun _ hx => Or.inl hx) (fun nd hn => by cases hn) ?_ rfl)
  · intro y hy
    have : y ≠ nd := fun e => hy (by rw [e]; rfl)
    simp [upd, this]
  · intro y hy _ h2
    by_cases e : y = nd
    · subst e; simp only [upd, if_pos]; simp [hm]
    · simp only [upd, e, if_false]
      have hfl : s.acc y = true ↔ y ∈ L (c.bkt y) := by
        apply h.inv.flag
        intro t'
        by_cases ht : t' = t
        · subst ht; rw [hp]; intro e3
          exact e (Option.some.inj e3).symm
        · exact h2 t' ht
      rw [hfl, hy]

theorem sim_bLink {t : Fin n} {o : Op K} {old x : P} {prev : Option P} (h : Sim c s L a)
    (hp : s.pc t = .bLink o old prev x) :
    Next c a .tau ((s.setLink (c.opBucket o) prev (some old)).setPc t (.bNext o old x)) := by
  obtain ⟨nd, pre, post, h1, h2, h3, h5, hc, h6⟩ := h.loc hp
  subst h3
  have ho : o.newNode = some x := by rw [h1]; rfl
  have hg := h5 ▸ h.inv.good (c.opBucket o)
  have hg' := nd_split hg h2
  have hgp := good_parts hg'
  have hnd := good_nodup hg'
  have hpc : ∀ t', t' ≠ t → ((s.setLink (c.opBucket o) prev (some old)).setPc t (.bNext o old x)).pc t' = s.pc t' := by
    intro t' e; rw [setPc_other _ _ e, setLink_pc]
  have hprev : ∀ y, prev = some y → y ∈ pre := fun y hy => last_mem (h6 ▸ hy)
  have hnp := List.nodup_append.1 hnd
  have hns : ∀ y ∈ x :: post, prev ≠ some y := by
    intro y hy e; exact hnp.2.2 y (hprev y e) y hy rfl
  unfold Chain at hc
  rw [Seg.append] at hc
  obtain ⟨m, hc1, hc2⟩ := hc
  refine silent h hp hpc (setPc_self _ _ _) rfl
    (frameX h.inv hp rfl rfl (new_excl ho) hpc (setPc_self _ _ _) rfl
      ?_ ?_ ?_ (fun _ _ => rfl) (op_lt (new_excl ho)) (h.inv.good _)
      ⟨x, pre, post, h1, h2, rfl, h5, ?_, ?_⟩ (Or.inl rfl) (fun _ hx => Or.inl hx)
      (fun nd hn => h.late hp hn) ?_ ?_)
  · intro b hb; exact setLink_heads hb
  · intro y hy
    exact setLink_next fun e => hy (hgp.1 y (hprev y e))
  · intro y _; show (s.setLink _ _ _).acc y = _; rw [setLink_acc]
  · show Seg (s.setLink _ _ _).next ((s.setLink _ _ _).heads _) pre (some old)
    rw [h6]; exact setLink_seg hnp.1 hc1
  · show Seg (s.setLink _ _ _).next ((s.setLink _ _ _).next x) post none
    rw [setLink_next (hns x (by simp)), setLink_seg_notin fun y hy => hns y (by simp [hy])]
    exact hc2.2
  · intro y hy _ h2
    show (s.setLink _ _ _).acc y = true ↔ _
    rw [setLink_acc]; exact flag_same h hp rfl y hy h2
  · show (s.setLink _ _ _).numKeys + _ + _ = _
    rw [setLink_num]; rfl

theorem sim_bNext {t : Fin n} {o : Op K} {old x : P} (h : Sim c s L a) (hp : s.pc t = .bNext o old x) :
    Next c a .tau { s.setPc t (.fin o .threw) with next := upd s.next old (s.next x) } := by
  obtain ⟨nd, pre, post, h1, h2, h3, h5, h6, h7⟩ := h.loc hp
  subst h3
  have ho : o.newNode = some x := by rw [h1]; rfl
  have hl : x ∉ L (c.bkt x) := h.late hp ho
  have hg := h5 ▸ h.inv.good (c.opBucket o)
  have hnd := good_nodup hg
  have hgp := good_parts hg
  have hbx := new_bkt (c := c) ho
  obtain ⟨-, hne, hmx, -⟩ := replace_facts h hbx h2 h5 hl
  rw [List.nodup_append, List.nodup_cons] at hnd
  have hop : old ∉ pre := fun hy1 => hnd.2.2 old hy1 old (by simp) rfl
  refine effect h hp (fun _ e => setPc_other _ _ e) (setPc_self _ _ _) rfl rfl
    (m := a.map) ?_ h.map ?_
  · rw [h1]; exact .putThrow x old _ hmx (Ne.symm hne)
  refine frameX h.inv hp rfl rfl (new_excl ho) (fun _ e => setPc_other _ _ e) (setPc_self _ _ _) rfl
      (fun _ _ => rfl) ?_ (fun _ _ => rfl) (fun _ _ => rfl) (op_lt (new_excl ho)) (h.inv.good _)
      trivial (Or.inr ?_) (fun _ hx => Or.inl hx) (fun nd hn => by cases hn) ?_ rfl
  · intro y hy
    have : y ≠ old := fun e => hy (by rw [e]; exact hgp.2.1)
    simp [upd, this]
  · rw [h5]
    show Seg (upd s.next old (s.next x)) (s.heads _) (pre ++ old :: post) none
    rw [Seg.append]
    refine ⟨some old, ?_, rfl, ?_⟩
    · rw [Seg.upd_notin hop]; exact h6
    · rw [Seg.upd_notin hnd.2.1.1]; simpa [upd] using h7
  · intro y hy _ h2; exact flag_same h hp rfl y hy h2

theorem sim_uLink {t : Fin n} {o : Op K} {nd : P} {r : Res} {prev : Option P} (h : Sim c s L a)
    (hp : s.pc t = .uLink o prev) (hr : resLocked o = some (nd, r)) :
    Next c a .tau ((s.setLink (c.opBucket o) prev (s.next nd)).setPc t (.uMark o)) := by
  have hc := h.chain hp rfl rfl rfl
  obtain ⟨nd', pre, post, h1, h2, h3, h3', h5, h6⟩ := h.loc hp
  rw [locked_target hr] at h1; cases h1
  have hx := target_excl (locked_target hr)
  have hg := h5 ▸ h.inv.good (c.opBucket o)
  have hgp := good_parts hg
  have hnd := good_nodup hg
  have hpc : ∀ t', t' ≠ t → ((s.setLink (c.opBucket o) prev (s.next nd)).setPc t (.uMark o)).pc t' = s.pc t' := by
    intro t' e; rw [setPc_other _ _ e, setLink_pc]
  have hprev : ∀ y, prev = some y → y ∈ pre := fun y hy => last_mem (h6 ▸ hy)
  have hnp := List.nodup_append.1 hnd
  have hns : ∀ y ∈ nd :: post, prev ≠ some y := by
    intro y hy e; exact hnp.2.2 y (hprev y e) y hy rfl
  rw [h5] at hc
  unfold Chain at hc
  rw [Seg.append] at hc
  obtain ⟨m, hc1, hc2⟩ := hc
  refine silent h hp hpc (setPc_self _ _ _) rfl
    (frameX h.inv hp rfl rfl hx hpc (setPc_self _ _ _) rfl
      ?_ ?_ ?_ (fun _ _ => rfl) (op_lt hx) (h.inv.good _)
      ⟨nd, pre, post, locked_target hr, h2, h3, h3', h5, ?_⟩ (Or.inl rfl) (fun _ hx => Or.inl hx)
      (fun nd hn => h.late hp hn) ?_ ?_)
  · intro b hb; exact setLink_heads hb
  · intro y hy
    exact setLink_next fun e => hy (hgp.1 y (hprev y e))
  · intro y _; show (s.setLink _ _ _).acc y = _; rw [setLink_acc]
  · show Seg (s.setLink _ _ _).next ((s.setLink _ _ _).heads _) (pre ++ post) none
    rw [Seg.append]
    refine ⟨s.next nd, ?_, ?_⟩
    · rw [h6]; exact setLink_seg hnp.1 hc1
    · rw [setLink_seg_notin fun y hy => hns y (by simp [hy])]
      exact hc2.2
  · intro y hy _ h2
    show (s.setLink _ _ _).acc y = true ↔ _
    rw [setLink_acc]; exact flag_same h hp rfl y hy h2
  · show (s.setLink _ _ _).numKeys + _ + _ = _
    rw [setLink_num]; rfl

theorem sim_uMark {t : Fin n} {o : Op K} {nd : P} {r : Res} (h : Sim c s L a)
    (hp : s.pc t = .uMark o) (hr : resLocked o = some (nd, r)) :
    Next c a .tau { s.setPc t (.uCount o) with acc := upd s.acc nd false } := by
  obtain ⟨nd', pre, post, h1, h2, h3, h3', h5, h6⟩ := h.loc hp
  rw [locked_target hr] at h1; cases h1
  have hx := target_excl (locked_target hr)
  have hb : c.bkt nd = c.opBucket o := by
    refine target_bkt (locked_target hr) ?_
    rintro old nw p rfl; cases h2
  have hg := h5 ▸ h.inv.good (c.opBucket o)
  have hnd := good_nodup hg
  have hmx : a.map (c.key nd) = some nd := by rw [mem_map h, hb, h5]; simp
  have hg' : Good c (c.opBucket o) (pre ++ post) := by
    refine ⟨?_, fun p hp1 => hg.2 p (by
      simp only [List.mem_append, List.mem_cons] at hp1 ⊢
      rcases hp1 with hp1 | hp1
      · exact Or.inl hp1
      · exact Or.inr (Or.inr hp1))⟩
    have := hg.1
    rw [List.map_append, List.map_cons] at this
    rw [List.map_append]
    exact (List.nodup_middle.1 this).of_cons
  have hout : nd ∉ pre ++ post := (List.nodup_cons.1 (List.nodup_middle.1 hnd)).1
  have hI : Inv c { s.setPc t (.uCount o) with acc := upd s.acc nd false }
      (upd L (c.opBucket o) (pre ++ post)) := by
    refine frameX h.inv hp rfl rfl hx (fun _ e => setPc_other _ _ e) (setPc_self _ _ _) rfl
      (fun _ _ => rfl) (fun _ _ => rfl) ?_ (fun b hb => by simp [upd, hb]) (op_lt hx) ?_
      ⟨nd, locked_target hr, h2, h3, h3'⟩ (Or.inr ?_) ?_ (fun nd hn => by cases hn) ?_ ?_
    · intro y hy
      have : y ≠ nd := fun e => hy (by rw [e, hb])
      simp [upd, this]
    · simp only [upd, if_pos]; exact hg'
    · simp only [upd, if_pos]; exact h6
    · simp only [upd, if_pos]
      intro y hy
      rw [h5]
      simp only [List.mem_append, List.mem_cons] at hy ⊢
      rcases hy with hy | hy
      · exact Or.inl (Or.inl hy)
      · exact Or.inl (Or.inr (Or.inr hy))
    · intro y hy hfl h2
      simp only [upd, if_pos]
      by_cases e : y = nd
      · subst e
        simp only [if_pos]
        simpa using hout
      · simp only [e, if_false]
        rw [flag_same h hp rfl y hy h2, h5]
        simp [e]
    · simp only [upd, if_pos]
      rw [h5]
      show s.numKeys + -1 + _ = s.numKeys + 0 + _
      push_cast [List.length_append, List.length_cons]
      omega
  have hmap : MapOk c (upd L (c.opBucket o) (pre ++ post)) (setKey a.map (c.key nd) none) := by
    have h5' : L (c.bkt nd) = pre ++ nd :: post := by rw [hb]; exact h5
    rw [← hb]
    refine mapOk_del h.map (fun b hb' => by simp [upd, hb']) ?_ ?_
    · intro p hpk
      have e1 : p ≠ nd := fun e => hpk (by rw [e])
      simp [upd, h5', e1]
    · intro p hpk hpm
      simp only [upd, if_pos] at hpm
      have : p = nd := good_inj hg (by
        simp only [List.mem_append, List.mem_cons] at hpm ⊢
        rcases hpm with hp1 | hp1
        · exact Or.inl hp1
        · exact Or.inr (Or.inr hp1)) (by simp) hpk
      exact hout (this ▸ hpm)
  cases o <;> simp only [resLocked, reduceCtorEq, Option.some.injEq, Prod.mk.injEq] at hr <;>
    obtain ⟨rfl, -⟩ := hr
  · cases h2
  · exact effect h hp (fun _ e => setPc_other _ _ e) (setPc_self _ _ _) rfl rfl
      (.removeYes _ _ _ hmx (setKey_self _ _ _) (setKey_other _ _ _)) hmap hI
  · simp only [predOf, throwsEarly] at h3 h3'
    subst h3 h3'
    exact effect h hp (fun _ e => setPc_other _ _ e) (setPc_self _ _ _) rfl rfl
      (.removeIfYes _ _ _ hmx (setKey_self _ _ _) (setKey_other _ _ _)) hmap hI

/-- every step is simulated. -/
theorem sim_step {l : Label K n} {s' : State K n} (h : Sim c s L a) (hs : Step c s l s') :
    Next c a l s' := by
  cases hs
  case call hp hl => exact sim_call h hp hl
  case preHit hp hr ha => exact sim_pre h hp hr ha
  case preGo hp hr ha => exact sim_preGo h hp hr ha
  case preSkip hp hr => exact sim_preSkip h hp hr
  case lock hp hf => exact sim_lock h hp hf
  case refuse hp hr ha => exact sim_refuse h hp hr ha
  case early hp hr ha hq ht => exact sim_early h hp hr ha hq ht
  case accept hp hr ha hq ht => exact sim_accept h hp hr ha hq ht
  case noTest hp hr => exact sim_noTest h hp hr
  case head hp hk => exact sim_head h hp hk
  case walk hp hk hx => exact sim_walk h hp hk hx
  case found hp hx => exact sim_found h hp hx
  case dup hp hx => exact sim_dup h hp hx
  case absent hp ho => exact sim_absent h hp ho
  case iHead hp => exact sim_iHead h hp
  case iLink hp ho => exact sim_iLink h hp ho
  case iNext hp ho => exact sim_iNext h hp ho
  case iMark hp ho => exact sim_iMark h hp ho
  case iCountIns hp =>
    exact sim_count h hp rfl rfl rfl rfl trivial rfl rfl ⟨rfl, rfl⟩ (by simp [PC.owed]) rfl
  case iCountRepl hp =>
    exact sim_count h hp rfl rfl rfl rfl trivial rfl rfl ⟨rfl, rfl⟩ (by simp [PC.owed]) rfl
  case present hp ho hi hx => exact sim_present h hp ho hi hx
  case xLink hp ho => exact sim_xLink h hp ho
  case xNext hp ho => exact sim_xNext h hp ho
  case xMark hp => exact sim_xMark h hp
  case xOld hp => exact sim_xOld h hp
  case zOld hp => exact sim_zOld h hp
  case zMark hp ho => exact sim_zMark h hp ho
  case backStart hp => exact sim_backStart h hp
  case backWalk hp hx => exact sim_backWalk h hp hx
  case backFound hp hx => exact sim_backFound h hp hx
  case bLink hp => exact sim_bLink h hp
  case bNext hp => exact sim_bNext h hp
  case prevFound hp hr ho hx => exact sim_prevFound h hp hr ho hx
  case uLink hp hr => exact sim_uLink h hp hr
  case uMark hp hr => exact sim_uMark h hp hr
  case uCountRem hp =>
    exact sim_count h hp rfl rfl rfl rfl trivial rfl rfl ⟨rfl, rfl⟩ (by simp [PC.owed]; omega) rfl
  case uCountIf hp =>
    exact sim_count h hp rfl rfl rfl rfl trivial rfl rfl ⟨rfl, rfl⟩ (by simp [PC.owed]; omega) rfl
  case scanHead hp => exact sim_scanHead h hp
  case scanNext hp => exact sim_scanNext h hp
  case scanEnd hp => exact sim_scanEnd h hp
  case unlock hp => exact sim_unlock h hp
  case ret hp => exact sim_ret h hp

end Verif.HashTable
