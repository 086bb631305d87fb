import Verif.MMWLfu.Lemmas
/-! Proofs for C55: one lemma per operation. -/
namespace Verif.MMLfu.W
open Verif MultiDList

variable {N : Type} [DecidableEq N] {e : Env} {s : State N} {u : U N}

theorem add_link (h : Link e s u) (x : N) (now : Nat) (hl : u.Legal e (.add x now)) :
    ∃ s', add e s x now = some (s', (u.step e (.add x now)).2) ∧ Link e s' (u.step e (.add x now)).1 := by
  unfold add
  simp only [U.step]
  by_cases hx : x ∈ u.items
  · rw [if_pos ((h.mem x).2 hx), if_pos hx]
    exact ⟨s, rfl, h⟩
  · rw [if_neg (by rw [h.inMM_false hx]; decide), if_neg hx]
    simp only
    obtain ⟨hseg, hmem, hout, hone, hfr, ht, hac, hh, hcf, hrf, hnx, hok⟩ := h
    have h1 := hseg.linkHead (seg' := lt (upd s.tiny x true) s.prob) (q := 2) (by decide)
      (not_seq hx) (by simp [lt]) (fun y hy => lt_congr (upd_ne _ _ hy) rfl)
    rw [seqOf_t] at h1
    have hfu : FLink e (s.freq.count (s.hash x)) (u.cnt.use (u.hash x)) := by rw [hh]; exact hfr.use _
    obtain ⟨s1, g1, g2⟩ := settle_spec (e := e)
      (s := { s.on 2 (.linkAtHead x) with tiny := upd s.tiny x true, freq := s.freq.count (s.hash x) })
      (u := { u with tiny := x :: u.tiny, cnt := u.cnt.use (u.hash x) }) h1
      (by intro y; simp only [State.on, upd]
          by_cases hy : y = x
          · rw [if_pos hy, hy]; intro _; exact (hout x hx).2
          · rw [if_neg hy]; exact hone y) (by simp) hcf
      (by intro t y; unfold State.admit U.beats U.est
          simp only [State.on]
          rw [hfu.admit, hcf, hh])
    have hg1 := g1
    simp only [State.on] at hg1 ⊢
    rw [hg1, Option.bind_some]
    obtain ⟨k1, k2, k6, k3, k4, k5⟩ := g2
    generalize hv : U.settle e { u with tiny := x :: u.tiny, cnt := u.cnt.use (u.hash x) } = v at k1 k4 k5 ⊢
    obtain ⟨m1, f1, n1, r1, c1, i1, t1, p1, a1, ti1, hs1⟩ := s1
    simp only [State.on, State.mk.injEq, true_and] at k3
    obtain ⟨rfl, rfl, rfl, rfl, rfl, rfl, rfl, rfl⟩ := k3
    simp only [U.mk.injEq, true_and] at k5
    obtain ⟨vt, vp, vm, vc, vcf, vr, vn, vti, va, vh⟩ := v
    simp only at k5
    obtain ⟨rfl, rfl, rfl, rfl, rfl, rfl, rfl, rfl⟩ := k5
    simp only at *
    have hlen : (vt ++ vp ++ u.main).length = u.items.length + 1 := by
      have := k4.length_eq
      simp only [U.items, List.cons_append, List.length_cons] at this ⊢
      exact this
    have hsz : size m1 = u.items.length + 1 := by rw [seg_size k1]; exact hlen
    have hcap : (u.cnt.use (u.hash x)).capacity = u.cnt.capacity := by unfold Counts.use; split <;> rfl
    obtain ⟨f2, q1, q2⟩ := hfu.fit (u.items.length + 1) u.cfg.windowRatio hok.window.1 (by rw [hcap]; exact hl)
    rw [hsz, hcf, q1]
    have hitems : ∀ y, y ∈ vt ++ vp ++ u.main ↔ y = x ∨ y ∈ u.items := by
      intro y
      have := k4.mem_iff (a := y)
      simp only [U.items, List.cons_append, List.mem_cons] at this
      exact this
    refine ⟨_, rfl, k1, ?_, ?_, k6, q2, by simp only [ht]; rfl, ?_, hh, rfl, hrf, hnx, hok⟩
    · intro y
      simp only [U.items, hitems, upd]
      by_cases hy : y = x
      · simp [hy]
      · rw [if_neg hy, hmem y]; simp [hy, U.items]
    · intro y hy
      simp only [U.items, hitems, not_or] at hy
      have := k2 y (by simp only [U.items, List.cons_append, List.mem_cons, not_or]; exact hy)
      show t1 y = false ∧ p1 y = false
      rw [this.1, this.2, upd_ne _ _ hy.1]; exact hout y hy.2
    · intro y hy
      simp only [U.items, hitems] at hy
      simp only [upd]
      by_cases hyx : y = x
      · rw [if_pos hyx, if_pos hyx]
      · rw [if_neg hyx, if_neg hyx]
        rcases hy with hy | hy
        · exact absurd hy hyx
        · exact hac y hy

theorem mem_without {x y : N} : y ∈ (u.without x).items ↔ y ∈ u.items ∧ y ≠ x := by
  simp only [U.without, U.items, List.mem_append, List.mem_filter, decide_eq_true_eq]
  grind

theorem evict_link (h : Link e s u) {x : N} (hx : x ∈ u.items) : Link e (removeLocked s x) (u.without x) := by
  have hx' := mem_items.1 hx
  have T := fun a => h.tiny_of (x := x) a
  have P := fun a => h.prob_of (x := x) a
  have M := fun a => h.main_of (x := x) a
  have d1 := fun a => h.not_tp (x := x) a
  have d2 := fun a => h.not_tm (x := x) a
  have d3 := fun a => h.not_pm (x := x) a
  obtain ⟨hseg, hmem, hout, hone, hfr, ht, hac, hh, hcf, hrf, hnx, hok⟩ := h
  have hm2 : ∀ y, upd s.inMM x false y = true ↔ y ∈ (u.without x).items := by
    intro y
    rw [mem_without, ← hmem y]
    simp only [upd]
    by_cases hy : y = x
    · simp [hy]
    · simp [hy]
  have ha2 : ∀ y ∈ (u.without x).items, upd s.accessed x false y = u.acc y := by
    intro y hy
    rw [mem_without] at hy
    rw [upd_ne _ _ hy.2]; exact hac y hy.1
  unfold removeLocked
  rcases hx' with hxt | hxp | hxm
  · rw [if_pos (T hxt).1]
    have h1 := hseg.remove (seg' := lt (upd s.tiny x false) s.prob) (q := 2) (x := x) hxt
      (fun y hy => lt_congr (upd_ne _ _ hy) rfl)
    rw [seqOf_t] at h1
    refine ⟨?_, hm2, ?_, ?_, hfr, ht, ha2, hh, hcf, hrf, hnx, hok⟩
    · simp only [U.without]
      rw [filter_not_mem (d1 hxt), filter_not_mem (d2 hxt)]; exact h1
    · intro y hy
      rw [mem_without] at hy
      simp only [upd, State.on]
      by_cases hyx : y = x
      · rw [hyx]; simp [(T hxt).2]
      · rw [if_neg hyx]
        exact hout y (fun h' => hy ⟨h', hyx⟩)
    · intro y
      simp only [upd, State.on]
      by_cases hyx : y = x
      · simp [hyx]
      · rw [if_neg hyx]; exact hone y
  · rw [if_neg (by rw [(P hxp).1]; decide), if_pos (P hxp).2]
    have h1 := hseg.remove (seg' := lt s.tiny (upd s.prob x false)) (q := 1) (x := x) hxp
      (fun y hy => lt_congr rfl (upd_ne _ _ hy))
    rw [seqOf_p] at h1
    refine ⟨?_, hm2, ?_, ?_, hfr, ht, ha2, hh, hcf, hrf, hnx, hok⟩
    · simp only [U.without]
      rw [filter_not_mem (fun h' => d1 h' hxp), filter_not_mem (d3 hxp)]; exact h1
    · intro y hy
      rw [mem_without] at hy
      simp only [upd, State.on]
      by_cases hyx : y = x
      · rw [hyx]; simp [(P hxp).1]
      · rw [if_neg hyx]
        exact hout y (fun h' => hy ⟨h', hyx⟩)
    · intro y hy
      simp only [upd, State.on] at hy ⊢
      by_cases hyx : y = x
      · simp [hyx]
      · rw [if_neg hyx]; exact hone y hy
  · rw [if_neg (by rw [(M hxm).1]; decide), if_neg (by rw [(M hxm).2]; decide)]
    have h1 := hseg.remove (seg' := lt s.tiny s.prob) (q := 0) (x := x) hxm (fun y hy => rfl)
    rw [seqOf_m] at h1
    refine ⟨?_, hm2, ?_, hone, hfr, ht, ha2, hh, hcf, hrf, hnx, hok⟩
    · simp only [U.without]
      rw [filter_not_mem (fun h' => d2 h' hxm), filter_not_mem (fun h' => d3 h' hxm)]; exact h1
    · intro y hy
      rw [mem_without] at hy
      by_cases hyx : y = x
      · rw [hyx]; exact M hxm
      · exact hout y (fun h' => hy ⟨h', hyx⟩)

theorem remove_link (h : Link e s u) (x : N) :
    (remove s x).2 = (u.step e (.remove x)).2 ∧ Link e (remove s x).1 (u.step e (.remove x)).1 := by
  unfold remove
  simp only [U.step]
  by_cases hx : x ∈ u.items
  · rw [if_pos ((h.mem x).2 hx), if_pos hx]
    exact ⟨rfl, evict_link h hx⟩
  · rw [if_neg (by rw [h.inMM_false hx]; decide), if_neg hx]
    exact ⟨rfl, h⟩

theorem replace_link (h : Link e s u) (o x : N) :
    (replace s o x).2 = (u.step e (.replace o x)).2 ∧ Link e (replace s o x).1 (u.step e (.replace o x)).1 := by
  unfold replace
  simp only [U.step]
  by_cases hx : o ∈ u.items ∧ x ∉ u.items
  · have hi := h.inMM_false hx.2
    have hfx := h.out x hx.2
    rw [if_pos hx, if_neg (by rw [hfx.1, hfx.2]; simp), if_neg (by
      rintro (h' | h')
      · exact h' ((h.mem o).2 hx.1)
      · rw [hi] at h'; cases h')]
    obtain ⟨ho, hx⟩ := hx
    have hne : x ≠ o := fun h' => hx (h' ▸ ho)
    have ho' := mem_items.1 ho
    have T := fun a => h.tiny_of (x := o) a
    have P := fun a => h.prob_of (x := o) a
    have M := fun a => h.main_of (x := o) a
    have d1 := fun a => h.not_tp (x := o) a
    have d2 := fun a => h.not_tm (x := o) a
    have d3 := fun a => h.not_pm (x := o) a
    obtain ⟨hseg, hmem, hout, hone, hfr, ht, hac, hh, hcf, hrf, hnx, hok⟩ := h
    have hit : ∀ y, y ∈ u.tiny.map (fun y => if y = o then x else y) ++ u.prob.map (fun y => if y = o then x else y) ++
        u.main.map (fun y => if y = o then x else y) ↔ y = x ∨ (y ∈ u.items ∧ y ≠ o) := by
      intro y
      rw [← List.map_append, ← List.map_append]
      have := mem_subst (l := u.items) (o := o) (x := x) (y := y)
      refine this.trans ?_
      simp [ho]
    have hm2 : ∀ y, upd (upd s.inMM o false) x true y = true ↔
        y ∈ u.tiny.map (fun y => if y = o then x else y) ++ u.prob.map (fun y => if y = o then x else y) ++
        u.main.map (fun y => if y = o then x else y) := by
      intro y
      rw [hit]
      have h2 := hmem y
      simp only [upd]
      grind
    have ha2 : ∀ y, y ∈ u.tiny.map (fun y => if y = o then x else y) ++ u.prob.map (fun y => if y = o then x else y) ++
        u.main.map (fun y => if y = o then x else y) →
        upd s.accessed x (s.accessed o) y = if y = x then u.acc o else u.acc y := by
      intro y hy
      rw [hit] at hy
      simp only [upd]
      by_cases hyx : y = x
      · rw [if_pos hyx, if_pos hyx]; exact hac o ho
      · rw [if_neg hyx, if_neg hyx]
        rcases hy with hy | hy
        · exact absurd hy hyx
        · exact hac y hy.1
    have em : ∀ l : List N, o ∉ l → l.map (fun y => if y = o then x else y) = l := fun l hl => subst_not_mem hl
    rcases ho' with hot | hop | hom
    · rw [if_pos (T hot).1]
      have h1 := hseg.replace (seg' := lt (upd (upd s.tiny o false) x true) s.prob) (q := 2) hot
        (not_seq hx) (by simp [lt]) (fun y hy hyo => lt_congr (by rw [upd_ne _ _ hy, upd_ne _ _ hyo]) rfl)
      rw [seqOf_t] at h1
      refine ⟨rfl, ?_, hm2, ?_, ?_, hfr, by simp only [ht, State.on]; rfl, ha2, hh, hcf, hrf, hnx, hok⟩
      · simp only
        rw [em _ (d1 hot), em _ (d2 hot)]; exact h1
      · intro y hy
        simp only [U.items, hit, not_or, not_and] at hy
        simp only [upd, State.on]
        rw [if_neg hy.1]
        by_cases hyo : y = o
        · rw [hyo]; simp [(T hot).2]
        · rw [if_neg hyo]
          exact hout y (fun h' => hy.2 h' hyo)
      · intro y
        simp only [upd, State.on]
        by_cases hyx : y = x
        · rw [hyx]; intro _; exact hfx.2
        · rw [if_neg hyx]
          by_cases hyo : y = o
          · simp [hyo]
          · rw [if_neg hyo]; exact hone y
    · rw [if_neg (by rw [(P hop).1]; decide), if_pos (P hop).2]
      have h1 := hseg.replace (seg' := lt s.tiny (upd (upd s.prob o false) x true)) (q := 1) hop
        (not_seq hx) (by simp [lt, hfx.1]) (fun y hy hyo => lt_congr rfl (by rw [upd_ne _ _ hy, upd_ne _ _ hyo]))
      rw [seqOf_p] at h1
      refine ⟨rfl, ?_, hm2, ?_, ?_, hfr, by simp only [ht, State.on]; rfl, ha2, hh, hcf, hrf, hnx, hok⟩
      · simp only
        rw [em _ (fun h' => d1 h' hop), em _ (d3 hop)]; exact h1
      · intro y hy
        simp only [U.items, hit, not_or, not_and] at hy
        simp only [upd, State.on]
        rw [if_neg hy.1]
        by_cases hyo : y = o
        · rw [hyo]; simp [(P hop).1]
        · rw [if_neg hyo]
          exact hout y (fun h' => hy.2 h' hyo)
      · intro y hy
        simp only [upd, State.on] at hy ⊢
        by_cases hyx : y = x
        · rw [hyx, hfx.1] at hy; cases hy
        · rw [if_neg hyx]
          by_cases hyo : y = o
          · simp [hyo]
          · rw [if_neg hyo]; exact hone y hy
    · rw [if_neg (by rw [(M hom).1]; decide), if_neg (by rw [(M hom).2]; decide)]
      have h1 := hseg.replace (seg' := lt s.tiny s.prob) (q := 0) hom (not_seq hx)
        (by simp [lt, hfx.1, hfx.2]) (fun y hy hyo => rfl)
      rw [seqOf_m] at h1
      refine ⟨rfl, ?_, hm2, ?_, hone, hfr, by simp only [ht, State.on]; rfl, ha2, hh, hcf, hrf, hnx, hok⟩
      · simp only
        rw [em _ (fun h' => d2 h' hom), em _ (fun h' => d3 h' hom)]; exact h1
      · intro y hy
        simp only [U.items, hit, not_or, not_and] at hy
        by_cases hyo : y = o
        · rw [hyo]; exact M hom
        · exact hout y (fun h' => hy.2 h' hyo)
  · rw [if_neg hx]
    by_cases hf : s.tiny x = true ∨ s.prob x = true
    · rw [if_pos hf]; exact ⟨rfl, h⟩
    · rw [if_neg hf, if_pos (by
        by_cases ho : o ∈ u.items
        · right
          by_cases hxx : x ∈ u.items
          · exact (h.mem x).2 hxx
          · exact absurd ⟨ho, hxx⟩ hx
        · left; rw [h.inMM_false ho]; decide)]
      exact ⟨rfl, h⟩

theorem mark_link (h : Link e s u) (x : N) : Link e (mark s x) (u.step e (.mark x)).1 := by
  obtain ⟨hseg, hmem, hout, hone, hfr, ht, hac, hh, hcf, hrf, hnx, hok⟩ := h
  refine ⟨hseg, hmem, hout, hone, hfr, ht, ?_, hh, hcf, hrf, hnx, hok⟩
  intro y hy
  simp only [mark, U.step, upd]
  split
  · rfl
  · exact hac y hy

/-- an iterator that starts at the tail. -/
theorem skip_spec {m : MState N} {seg : N → Nat} {seq : Nat → List N} (h : Seg 3 m seg seq) (q k : Nat) :
    ∀ (a b : List N), seq q = a ++ b → skip m.hooks k a.getLast? = a.reverse[k]? := by
  induction k with
  | zero => intro a b _; rw [← List.head?_eq_getElem?, List.head?_reverse]; rfl
  | succ k ih =>
    intro a b hab
    by_cases ha : a = []
    · subst ha; simp [skip]
    · obtain ⟨c, x, rfl⟩ := split_last a ha
      simp only [List.getLast?_concat, skip]
      rw [step_back h q (a := c) (b := b) (x := x) (by rw [hab]; simp)]
      rw [ih c (x :: b) (by rw [hab]; simp)]
      simp

theorem ageStat_eq (h : Link e s u) (now k : Nat) : ageStat s now k = (u.oldest now, u.main.length, u.projected k now) := by
  have hb : DList.iterBegin (s.m.lists Main) .fromTail = u.main.getLast? := h.seg.last 0
  have ho : ageAt s now u.main.getLast? = u.oldest now := by
    unfold U.oldest
    cases u.main.getLast? with
    | none => rfl
    | some x => simp only [ageAt]; rw [h.time]
  have hsk := skip_spec h.seg 0 k u.main [] (by simp [seqOf])
  unfold ageStat
  simp only
  rw [hb, ho, hsk]
  have hl : s.len Main = u.main.length := h.seg.len 0
  rw [hl]
  congr 2
  unfold U.projected
  cases u.main.reverse[k]? with
  | none => rfl
  | some x => simp only [ageAt]; rw [h.time]

theorem tune_link (h : Link e s u) (now : Nat) : Link e (reconfigure s now) (u.tune now) := by
  have hag := ageStat_eq h now 0
  unfold reconfigure U.tune
  rw [hag]
  obtain ⟨hseg, hmem, hout, hone, hfr, ht, hac, hh, hcf, hrf, hnx, hok⟩ := h
  rw [hnx]
  by_cases hn : u.next ≤ now
  · rw [if_pos hn, if_neg (by omega)]
    exact ⟨hseg, hmem, hout, hone, hfr, ht, hac, hh, hcf, by simp only [hcf], by simp only [hcf], hok⟩
  · rw [if_neg hn, if_pos (by omega)]
    exact ⟨hseg, hmem, hout, hone, hfr, ht, hac, hh, hcf, hrf, hnx, hok⟩

theorem tune_rest (u : U N) (now : Nat) : (u.tune now).tiny = u.tiny ∧ (u.tune now).prob = u.prob ∧ (u.tune now).main = u.main ∧
    (u.tune now).cnt = u.cnt ∧ (u.tune now).time = u.time ∧ (u.tune now).hash = u.hash ∧ (u.tune now).items = u.items ∧
    (u.tune now).acc = u.acc := by
  unfold U.tune
  split <;> exact ⟨rfl, rfl, rfl, rfl, rfl, rfl, rfl, rfl⟩

/-- replacing the queues by others with the same items. -/
theorem requeue (h : Link e s u) {m' : MState N} {f g : N → Bool} {t p ml : List N}
    (hs : Seg 3 m' (lt f g) (seqOf t p ml)) (hp : (t ++ p ++ ml).Perm u.items)
    (ho : ∀ x, x ∉ u.items → f x = s.tiny x ∧ g x = s.prob x) (h1 : ∀ x, f x = true → g x = false) :
    Link e { s with m := m', tiny := f, prob := g } { u with tiny := t, prob := p, main := ml } := by
  obtain ⟨hseg, hmem, hout, hone, hfr, ht, hac, hh, hcf, hrf, hnx, hok⟩ := h
  have hit : ∀ y, y ∈ ({ u with tiny := t, prob := p, main := ml } : U N).items ↔ y ∈ u.items := fun y => hp.mem_iff
  refine ⟨hs, ?_, ?_, h1, hfr, ht, ?_, hh, hcf, hrf, hnx, hok⟩
  · intro y; rw [hit]; exact hmem y
  · intro y hy; rw [hit] at hy; obtain ⟨a, b⟩ := ho y hy; exact ⟨a.trans (hout y hy).1, b.trans (hout y hy).2⟩
  · intro y hy; rw [hit] at hy; exact hac y hy

/-- setting the time and counting. -/
theorem touch (h : Link e s u) (x : N) (now : Nat) :
    Link e { s with time := upd s.time x now, freq := s.freq.count (s.hash x) }
      { u with time := fun y => if y = x then now else u.time y, cnt := u.cnt.use (u.hash x) } := by
  have hfu : FLink e (s.freq.count (s.hash x)) (u.cnt.use (u.hash x)) := by rw [h.hash]; exact h.freq.use _
  obtain ⟨hseg, hmem, hout, hone, hfr, ht, hac, hh, hcf, hrf, hnx, hok⟩ := h
  exact ⟨hseg, hmem, hout, hone, hfu, by simp only [ht]; rfl, hac, hh, hcf, hrf, hnx, hok⟩

theorem filter_perm {l : List N} (hn : l.Nodup) {x : N} (hx : x ∈ l) : (x :: l.filter (fun y => y ≠ x)).Perm l := by
  rw [List.perm_ext_iff_of_nodup (List.nodup_cons.2 ⟨by simp, hn.filter _⟩) hn]
  intro a
  simp only [List.mem_cons, List.mem_filter, decide_eq_true_eq]
  by_cases ha : a = x
  · subst ha; simp [hx]
  · simp [ha]

/-- main's last becomes the last of probation, if main is over its share. -/
def U.demoted (u : U N) : U N :=
  if u.main.length > u.cfg.protPct * (u.prob.length + u.main.length) / 100 then
    match u.main.getLast? with
    | none => u
    | some y => { u with prob := u.prob ++ [y], main := u.main.dropLast }
  else u

theorem demote_link (h : Link e s u) : Link e (demote s) u.demoted := by
  unfold demote U.demoted
  have hl1 : s.len Probation = u.prob.length := h.seg.len 1
  have hl0 : s.len Main = u.main.length := h.seg.len 0
  have ht0 : s.last Main = u.main.getLast? := h.seg.last 0
  simp only [hl1, hl0, ht0, h.cfg]
  by_cases hd : u.main.length > u.cfg.protPct * (u.prob.length + u.main.length) / 100
  · rw [if_pos hd, if_pos hd]
    by_cases hm : u.main = []
    · rw [hm]; exact h
    · obtain ⟨b, y, hb⟩ := split_last u.main hm
      have hgl : u.main.getLast? = some y := by rw [hb]; simp
      have hdl : u.main.dropLast = b := by rw [hb]; simp
      rw [hgl, hdl]
      simp only
      have hym : y ∈ u.main := by rw [hb]; simp
      have hyt := h.main_of hym
      have h3 := h.seg.toTail (q := 0) (q' := 1) (by decide) (by decide) (x := y) hym
        (seg' := lt s.tiny (upd s.prob y true)) (by simp [lt, hyt.1]) (fun z hz => lt_congr rfl (upd_ne _ _ hz))
      have e5 : seqOf u.tiny u.prob u.main 0 = u.main := rfl
      have e6 : seqOf u.tiny u.prob u.main 1 = u.prob := rfl
      have e7 : u.main.filter (· ≠ y) = b := by
        rw [hb]; exact filter_last (by rw [← hb]; exact h.seg.nodup 0)
      rw [e5, e6, e7, seqOf_m, seqOf_p] at h3
      refine requeue h h3 ?_ ?_ ?_
      · simp only [U.items, hb]
        rw [List.perm_iff_count]; intro z
        simp only [List.count_append, List.count_cons, List.count_nil]
        omega
      · intro z hz
        have hzy : z ≠ y := by rintro rfl; exact hz (mem_items.2 (Or.inr (Or.inr hym)))
        exact ⟨rfl, by rw [upd_ne _ _ hzy]; rfl⟩
      · intro z hz
        simp only [State.on] at hz ⊢
        have hzy : z ≠ y := by rintro rfl; rw [hyt.1] at hz; cases hz
        rw [upd_ne _ _ hzy]; exact h.one z hz
  · rw [if_neg hd, if_neg hd]; exact h

/-- a hit of an item of probation. -/
theorem hit_link (h : Link e s u) {x : N} (hx : x ∈ u.prob) : Link e (protect (s.on 1 (.moveToHead x)) x) (u.hit e x) := by
  have h0 := h.seg.front (q := 1) (x := x) hx
  have e1 : seqOf u.tiny u.prob u.main 1 = u.prob := rfl
  rw [e1, seqOf_p] at h0
  have hP := h.prob_of hx
  have hnp : u.prob.Nodup := h.seg.nodup 1
  have hperm : (u.tiny ++ (x :: u.prob.filter (fun y => y ≠ x)) ++ u.main).Perm u.items :=
    List.Perm.append_right _ (List.Perm.append_left _ (filter_perm hnp hx))
  have hxi : x ∈ u.items := mem_items.2 (Or.inr (Or.inl hx))
  have hf1 : (s.on 1 (.moveToHead x)).freq.get ((s.on 1 (.moveToHead x)).hash x) = u.est e x := by
    show s.freq.get (s.hash x) = _
    rw [h.freq.get, h.hash]; rfl
  have hcf : (s.on 1 (.moveToHead x)).config = u.cfg := h.cfg
  unfold protect U.hit
  rw [hf1, hcf]
  simp only
  by_cases hg : u.est e x > u.cfg.protFreq
  · rw [if_pos hg, if_pos hg]
    have h2 := h0.toHead (q := 1) (q' := 0) (by decide) (by decide) (x := x)
      (show x ∈ x :: u.prob.filter (· ≠ x) from List.mem_cons_self ..)
      (seg' := lt s.tiny (upd s.prob x false)) (by simp [lt, hP.1]) (fun y hy => lt_congr rfl (upd_ne _ _ hy))
    have e2 : seqOf u.tiny (x :: u.prob.filter (· ≠ x)) u.main 1 = x :: u.prob.filter (· ≠ x) := rfl
    have e3 : seqOf u.tiny (x :: u.prob.filter (· ≠ x)) u.main 0 = u.main := rfl
    have e4 : (x :: u.prob.filter (· ≠ x)).filter (· ≠ x) = u.prob.filter (· ≠ x) := by
      rw [List.filter_cons, if_neg (by simp), List.filter_filter]; simp
    rw [e2, e3, e4, seqOf_p, seqOf_m] at h2
    have hone2 : ∀ y, s.tiny y = true → upd s.prob x false y = false := by
      intro y hy
      simp only [upd]; split
      · rfl
      · exact h.one y hy
    have h3 := requeue h h2 (by
      refine List.Perm.trans ?_ hperm
      rw [List.perm_iff_count]; intro z
      simp only [List.count_append, List.count_cons]; omega) (by
      intro z hz
      have hzx : z ≠ x := fun e' => hz (e' ▸ hxi)
      exact ⟨rfl, upd_ne _ _ hzx⟩) hone2
    have h4 := demote_link h3
    have e5 : U.demoted { u with prob := u.prob.filter (fun y => y ≠ x), main := x :: u.main } =
        if u.main.length + 1 > u.cfg.protPct * ((u.prob.filter (fun y => y ≠ x)).length + (u.main.length + 1)) / 100 then
          { u with prob := u.prob.filter (fun y => y ≠ x) ++ [(x :: u.main).getLast (List.cons_ne_nil x u.main)],
                   main := (x :: u.main).dropLast }
        else { u with prob := u.prob.filter (fun y => y ≠ x), main := x :: u.main } := by
      unfold U.demoted
      simp only [List.length_cons]
      rw [List.getLast?_eq_some_getLast (List.cons_ne_nil x u.main)]
    rw [← e5]
    exact h4
  · rw [if_neg hg, if_neg hg]
    exact requeue h h0 hperm (fun _ _ => ⟨rfl, rfl⟩) h.one

theorem promote_link (h : Link e s u) (x : N) (now : Nat) :
    (promote s x now).2 = (u.step e (.promote x now)).2 ∧ Link e (promote s x now).1 (u.step e (.promote x now)).1 := by
  unfold promote
  simp only [U.step]
  have h0 := tune_link h now
  obtain ⟨e1, e2, e3, e4, e5, e6, e7, e8⟩ := tune_rest u now
  generalize reconfigure s now = s at h0 ⊢
  rw [← e1, ← e2, ← e3, ← e4, ← e5, ← e6, ← e7]
  clear e1 e2 e3 e4 e5 e6 e7 e8 h
  generalize u.tune now = u at h0 ⊢
  have h := h0
  by_cases hx : x ∈ u.items
  · rw [if_neg (by simp [(h.mem x).2 hx]), if_pos hx]
    have hx' := mem_items.1 hx
    refine ⟨rfl, ?_⟩
    simp only
    rcases hx' with hxt | hxp | hxm
    · rw [if_pos hxt]
      have hlt : s.lruType x = 2 := h.seg.seg 2 x hxt
      rw [hlt, if_neg (by decide)]
      have h1 := h.seg.front (q := 2) (x := x) hxt
      rw [seqOf_t] at h1
      exact touch (requeue h h1 (List.Perm.append_right _ (List.Perm.append_right _ (filter_perm (h.seg.nodup 2) hxt)))
        (fun _ _ => ⟨rfl, rfl⟩) h.one) x now
    · rw [if_neg (fun h' => h.not_tp h' hxp), if_pos hxp]
      have hlt : s.lruType x = 1 := h.seg.seg 1 x hxp
      rw [hlt, if_pos rfl]
      have h2 := touch (hit_link h hxp) x now
      have er : (u.hit e x).time = u.time ∧ (u.hit e x).cnt = u.cnt ∧ (u.hit e x).hash = u.hash := by
        unfold U.hit; simp only; repeat' split
        all_goals exact ⟨rfl, rfl, rfl⟩
      rw [er.1, er.2.1, er.2.2] at h2
      rw [er.2.2]
      exact h2
    · rw [if_neg (fun h' => h.not_tm h' hxm), if_neg (fun h' => h.not_pm h' hxm)]
      have hlt : s.lruType x = 0 := h.seg.seg 0 x hxm
      rw [hlt, if_neg (by decide)]
      have h1 := h.seg.front (q := 0) (x := x) hxm
      rw [seqOf_m] at h1
      exact touch (requeue h h1 (List.Perm.append_left _ (filter_perm (h.seg.nodup 0) hxm))
        (fun _ _ => ⟨rfl, rfl⟩) h.one) x now
  · rw [if_pos (by simp [h.inMM_false hx]), if_neg hx]
    exact ⟨rfl, h⟩

theorem setConfig_link (h : Link e s u) (c : Config) (now : Nat) (hl : c.Ok) :
    Link e (setConfig s c now) (u.step e (.setConfig c now)).1 := by
  obtain ⟨hseg, hmem, hout, hone, hfr, ht, hac, hh, hcf, hrf, hnx, hok⟩ := h
  exact ⟨hseg, hmem, hout, hone, hfr, ht, hac, hh, rfl, rfl, rfl, hl⟩

theorem construct_link (h : Link e s u) (x : N) (k : Nat) (hl : x ∉ u.items) :
    Link e (construct s x k) (u.step e (.construct x k)).1 := by
  have hi := h.inMM_false hl
  have hns := not_seq hl
  obtain ⟨hseg, hmem, hout, hone, hfr, ht, hac, hh, hcf, hrf, hnx, hok⟩ := h
  simp only [U.step]
  refine ⟨?_, ?_, ?_, ?_, hfr, ht, ?_, ?_, hcf, hrf, hnx, hok⟩
  · refine hseg.congr ?_
    intro q y hy
    have hne : y ≠ x := fun e' => hns q (e' ▸ hy)
    exact lt_congr (upd_ne _ _ hne) (upd_ne _ _ hne)
  · intro y
    simp only [construct, upd]
    by_cases hy : y = x
    · subst hy
      rw [if_pos rfl]
      have := hmem y
      rw [hi] at this
      exact this
    · rw [if_neg hy]; exact hmem y
  · intro y hy
    simp only [construct, upd]
    split
    · exact ⟨rfl, rfl⟩
    · exact hout y hy
  · intro y
    simp only [construct, upd]
    split
    · intro _; rfl
    · exact hone y
  · intro y hy
    have hne : y ≠ x := fun e' => hl (e' ▸ hy)
    simp only [construct, upd_ne _ _ hne]
    exact hac y hy
  · simp only [construct, hh]; rfl

theorem link_step (h : Link e s u) (o : Op N) (hl : u.Legal e o) :
    ∃ s', step e s o = some (s', (u.step e o).2) ∧ Link e s' (u.step e o).1 := by
  cases o with
  | add x now => exact add_link h x now hl
  | remove x =>
    obtain ⟨h1, h2⟩ := remove_link h x
    exact ⟨_, by simp only [step]; rw [← h1], h2⟩
  | evict x => exact ⟨_, rfl, evict_link h hl⟩
  | replace o x =>
    obtain ⟨h1, h2⟩ := replace_link h o x
    exact ⟨_, by simp only [step]; rw [← h1], h2⟩
  | mark x => exact ⟨_, rfl, mark_link h x⟩
  | promote x now =>
    obtain ⟨h1, h2⟩ := promote_link h x now
    exact ⟨_, by simp only [step]; rw [← h1], h2⟩
  | setConfig c now => exact ⟨_, rfl, setConfig_link h c now hl⟩
  | construct x k => exact ⟨_, rfl, construct_link h x k hl⟩

theorem link_run (h : Link e s u) (ops : List (Op N)) (hl : u.LegalRun e ops) :
    ∃ s', run e s ops = some (s', (u.run e ops).2) ∧ Link e s' (u.run e ops).1 := by
  induction ops generalizing s u with
  | nil => exact ⟨s, rfl, h⟩
  | cons o os ih =>
    obtain ⟨s1, h1, h2⟩ := link_step h o hl.1
    obtain ⟨s2, h3, h4⟩ := ih h2 hl.2
    refine ⟨s2, ?_, h4⟩
    simp only [run, h1, Option.bind_some, h3, Option.map_some, U.run]

theorem link_new (e : Env) (c : Config) (now : Nat) (hooks : DList.Hooks N) (hash : N → Nat) (hc : c.Ok)
    (hf : e.Fits (100 * c.windowRatio)) : ∃ s, new e c now hooks hash = some s ∧ Link e s (U.new c now hash) := by
  obtain ⟨f, h1, h2⟩ := FLink.new e 0 c.windowRatio hc.window.1 hf
  unfold new
  rw [h1]
  have hse : seqOf ([] : List N) [] [] = fun _ => [] := by funext q; simp [seqOf]
  refine ⟨_, rfl, ⟨(by show MRep (MultiDList.new 3 hooks) (seqOf [] [] []); rw [hse]; exact mrep_new _ _), rfl, ?_, ?_⟩, ?_,
    fun _ _ => ⟨rfl, rfl⟩, fun _ _ => rfl, h2, rfl, ?_, rfl, rfl, rfl, rfl, hc⟩
  · intro q _; simp [seqOf, U.new]
  · intro q x hx; simp [seqOf, U.new] at hx
  · intro x; simp [U.new, U.items]
  · intro x hx; simp [U.new, U.items] at hx

end Verif.MMLfu.W
