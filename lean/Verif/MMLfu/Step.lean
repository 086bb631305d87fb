import Verif.MMLfu.Lemmas
/-! Proofs for C54: one lemma per operation. -/
namespace Verif.MMLfu.Tiny
open Verif MultiDList

variable {N : Type} [DecidableEq N] {e : Env} {s : State N} {u : U N}

theorem add_link (h : Link e s u) (x : N) (now : Nat) (hl : u.Legal e (.add x now)) :
    ∃ s', add e s x now = some (s', (u.step e (.add x now)).2) ∧ Link e s' (u.step e (.add x now)).1 := by
  unfold add
  simp only [U.step]
  by_cases hx : x ∈ u.items
  · rw [if_pos ((h.mem x).2 hx), if_pos hx]
    exact ⟨s, rfl, h⟩
  · rw [if_neg (by rw [h.inMM_false hx]; decide), if_neg hx]
    simp only
    have hxt : x ∉ u.tiny := fun h' => hx (List.mem_append.2 (Or.inl h'))
    have hxm : x ∉ u.main := fun h' => hx (List.mem_append.2 (Or.inr h'))
    obtain ⟨hseg, hmem, hout, hfr, ht, hac, hh, hcf, hrf, hnx, hok⟩ := h
    have h1 := hseg.linkHead (seg' := fun y => if upd s.tiny x true y then 1 else 0) (q := 1) (by decide)
      (not_seq hxt hxm) (by simp) (fun y hy => by simp only [upd_ne _ _ hy]; rfl)
    rw [seqOf_t] at h1
    have hfu : FLink e (s.freq.count (s.hash x)) (u.cnt.use (u.hash x)) := by rw [hh]; exact hfr.use _
    obtain ⟨s1, g1, g2⟩ := settle_spec (e := e)
      (s := { s.on 1 (.linkAtHead x) with tiny := upd s.tiny x true, freq := s.freq.count (s.hash x) })
      (u := { u with tiny := x :: u.tiny, cnt := u.cnt.use (u.hash x) }) h1 (by simp) hcf
      (by intro t y; unfold State.admit U.beats U.est
          simp only [State.on]
          rw [hfu.admit, hcf, hh])
    have hg1 := g1
    simp only [State.on] at hg1 ⊢
    rw [hg1, Option.bind_some]
    obtain ⟨k1, k2, k3, k4, k5⟩ := g2
    generalize hv : U.settle e { u with tiny := x :: u.tiny, cnt := u.cnt.use (u.hash x) } = v at k1 k4 k5 ⊢
    obtain ⟨m1, f1, n1, r1, c1, i1, t1, a1, ti1, hs1⟩ := s1
    simp only [State.on, State.mk.injEq, true_and] at k3
    obtain ⟨rfl, rfl, rfl, rfl, rfl, rfl, rfl, rfl⟩ := k3
    simp only [U.mk.injEq, true_and] at k5
    obtain ⟨vt, vm, vc, vcf, vr, vn, vti, va, vh⟩ := v
    simp only at k5
    obtain ⟨rfl, rfl, rfl, rfl, rfl, rfl, rfl⟩ := k5
    simp only at *
    have hlen : (vt ++ vm).length = u.items.length + 1 := by
      have := k4.length_eq
      simp only [U.items, List.cons_append, List.length_cons] at this ⊢
      exact this
    have hsz : size m1 = u.items.length + 1 := by
      rw [MultiDList.size, size_eq k1.rep, k1.num]
      simp only [total, seqOf]
      simp only [List.length_append] at hlen
      simp; omega
    have hcap : (u.cnt.use (u.hash x)).capacity = u.cnt.capacity := by unfold Counts.use; split <;> rfl
    obtain ⟨f2, q1, q2⟩ := hfu.fit (u.items.length + 1) u.cfg.windowRatio hok.window.1 (by rw [hcap]; exact hl)
    rw [hsz, hcf, q1]
    have hitems : ∀ y, y ∈ vt ++ vm ↔ y = x ∨ y ∈ u.items := by
      intro y
      have := k4.mem_iff (a := y)
      simp only [U.items, List.cons_append, List.mem_cons] at this
      exact this
    refine ⟨_, rfl, k1, ?_, ?_, q2, by simp only [ht]; rfl, ?_, hh, rfl, hrf, hnx, hok⟩
    · intro y
      simp only [U.items, hitems, upd]
      by_cases hy : y = x
      · simp [hy]
      · rw [if_neg hy, hmem y]; simp [hy, U.items]
    · intro y hy
      simp only [U.items, hitems, not_or] at hy
      show t1 y = false
      rw [k2 y (by simp only [U.items, List.cons_append, List.mem_cons, not_or]; exact hy)]
      rw [upd_ne _ _ hy.1]; exact hout y hy.2
    · intro y hy
      simp only [U.items, hitems] at hy
      simp only [upd]
      by_cases hyx : y = x
      · rw [if_pos hyx, if_pos hyx]
      · rw [if_neg hyx, if_neg hyx]
        rcases hy with hy | hy
        · exact absurd hy hyx
        · exact hac y hy

theorem mem_without {x y : N} : y ∈ (u.without x).items ↔ y ∈ u.items ∧ y ≠ x := by
  simp only [U.without, U.items, List.mem_append, List.mem_filter, decide_eq_true_eq]
  grind

theorem evict_link (h : Link e s u) {x : N} (hx : x ∈ u.items) : Link e (removeLocked s x) (u.without x) := by
  have hti := h.tiny_iff x
  have hdj := fun a b => h.disj (x := x) a b
  obtain ⟨hseg, hmem, hout, hfr, ht, hac, hh, hcf, hrf, hnx, hok⟩ := h
  have hm2 : ∀ y, upd s.inMM x false y = true ↔ y ∈ (u.without x).items := by
    intro y
    rw [mem_without, ← hmem y]
    simp only [upd]
    by_cases hy : y = x
    · simp [hy]
    · simp [hy]
  have ha2 : ∀ y ∈ (u.without x).items, upd s.accessed x false y = u.acc y := by
    intro y hy
    rw [mem_without] at hy
    rw [upd_ne _ _ hy.2]; exact hac y hy.1
  unfold removeLocked
  rcases List.mem_append.1 hx with hxt | hxm
  · have hxm : x ∉ u.main := fun h' => hdj hxt h'
    rw [if_pos (hti.2 hxt)]
    have h1 := hseg.remove (seg' := fun y => if upd s.tiny x false y then 1 else 0) (q := 1) (x := x) hxt
      (fun y hy => by simp only [upd_ne _ _ hy]; rfl)
    rw [seqOf_t] at h1
    refine ⟨?_, hm2, ?_, hfr, ht, ha2, hh, hcf, hrf, hnx, hok⟩
    · simp only [U.without]
      rw [filter_not_mem hxm]; exact h1
    · intro y hy
      rw [mem_without] at hy
      simp only [upd]
      by_cases hyx : y = x
      · simp [hyx]
      · rw [if_neg hyx]
        exact hout y (fun h' => hy ⟨h', hyx⟩)
  · have hxt : x ∉ u.tiny := fun h' => hdj h' hxm
    have hf : s.tiny x = false := by
      cases hq : s.tiny x with
      | true => exact absurd (hti.1 hq) hxt
      | false => rfl
    rw [if_neg (by rw [hf]; decide)]
    have h1 := hseg.remove (seg' := s.lruType) (q := 0) (x := x) hxm (fun y hy => rfl)
    rw [seqOf_m] at h1
    refine ⟨?_, hm2, ?_, hfr, ht, ha2, hh, hcf, hrf, hnx, hok⟩
    · simp only [U.without]
      rw [filter_not_mem hxt]; exact h1
    · intro y hy
      rw [mem_without] at hy
      by_cases hyx : y = x
      · rw [hyx]; exact hf
      · exact hout y (fun h' => hy ⟨h', hyx⟩)

theorem remove_link (h : Link e s u) (x : N) :
    (remove s x).2 = (u.step e (.remove x)).2 ∧ Link e (remove s x).1 (u.step e (.remove x)).1 := by
  unfold remove
  simp only [U.step]
  by_cases hx : x ∈ u.items
  · rw [if_pos ((h.mem x).2 hx), if_pos hx]
    exact ⟨rfl, evict_link h hx⟩
  · rw [if_neg (by rw [h.inMM_false hx]; decide), if_neg hx]
    exact ⟨rfl, h⟩

theorem replace_link (h : Link e s u) (o x : N) :
    (replace s o x).2 = (u.step e (.replace o x)).2 ∧ Link e (replace s o x).1 (u.step e (.replace o x)).1 := by
  unfold replace
  simp only [U.step]
  by_cases hx : o ∈ u.items ∧ x ∉ u.items
  · have hi := h.inMM_false hx.2
    rw [if_pos hx, if_neg (by
      rintro (h' | h')
      · exact h' ((h.mem o).2 hx.1)
      · rw [hi] at h'; cases h')]
    obtain ⟨ho, hx⟩ := hx
    have hxt : x ∉ u.tiny := fun h' => hx (List.mem_append.2 (Or.inl h'))
    have hxm : x ∉ u.main := fun h' => hx (List.mem_append.2 (Or.inr h'))
    have hne : x ≠ o := fun h' => hx (h' ▸ ho)
    have hti := h.tiny_iff o
    have hfx := h.out x hx
    have hdj := fun a b => h.disj (x := o) a b
    obtain ⟨hseg, hmem, hout, hfr, ht, hac, hh, hcf, hrf, hnx, hok⟩ := h
    have hit : ∀ y, y ∈ u.tiny.map (fun y => if y = o then x else y) ++ u.main.map (fun y => if y = o then x else y) ↔
        y = x ∨ (y ∈ u.items ∧ y ≠ o) := by
      intro y
      rw [← List.map_append]
      have := mem_subst (l := u.items) (o := o) (x := x) (y := y)
      refine this.trans ?_
      simp [ho]
    have hm2 : ∀ y, upd (upd s.inMM o false) x true y = true ↔
        y ∈ u.tiny.map (fun y => if y = o then x else y) ++ u.main.map (fun y => if y = o then x else y) := by
      intro y
      rw [hit]
      have h2 := hmem y
      simp only [upd]
      grind
    have ha2 : ∀ y, y ∈ u.tiny.map (fun y => if y = o then x else y) ++ u.main.map (fun y => if y = o then x else y) →
        upd s.accessed x (s.accessed o) y = if y = x then u.acc o else u.acc y := by
      intro y hy
      rw [hit] at hy
      simp only [upd]
      by_cases hyx : y = x
      · rw [if_pos hyx, if_pos hyx]; exact hac o ho
      · rw [if_neg hyx, if_neg hyx]
        rcases hy with hy | hy
        · exact absurd hy hyx
        · exact hac y hy.1
    rcases List.mem_append.1 ho with hot | hom
    · have hom : o ∉ u.main := fun h' => hdj hot h'
      rw [if_pos (hti.2 hot)]
      have h1 := hseg.replace (seg' := fun y => if upd (upd s.tiny o false) x true y then 1 else 0) (q := 1) hot
        (not_seq hxt hxm) (by simp) (fun y hy hyo => by simp only [upd_ne _ _ hy, upd_ne _ _ hyo]; rfl)
      rw [seqOf_t] at h1
      refine ⟨rfl, ?_, hm2, ?_, hfr, by simp only [ht, State.on]; rfl, ha2, hh, hcf, hrf, hnx, hok⟩
      · simp only
        have em : u.main.map (fun y => if y = o then x else y) = u.main := subst_not_mem hom
        rw [em]; exact h1
      · intro y hy
        simp only [U.items, hit, not_or, not_and] at hy
        simp only [upd]
        rw [if_neg hy.1]
        by_cases hyo : y = o
        · simp [hyo]
        · rw [if_neg hyo]
          exact hout y (fun h' => hy.2 h' hyo)
    · have hot : o ∉ u.tiny := fun h' => hdj h' hom
      have hf : s.tiny o = false := by
        cases hq : s.tiny o with
        | true => exact absurd (hti.1 hq) hot
        | false => rfl
      rw [if_neg (by rw [hf]; decide)]
      have h1 := hseg.replace (seg' := s.lruType) (q := 0) hom (not_seq hxt hxm)
        (by unfold State.lruType; rw [hfx]; rfl) (fun y hy hyo => rfl)
      rw [seqOf_m] at h1
      refine ⟨rfl, ?_, hm2, ?_, hfr, by simp only [ht, State.on]; rfl, ha2, hh, hcf, hrf, hnx, hok⟩
      · simp only
        have em : u.tiny.map (fun y => if y = o then x else y) = u.tiny := subst_not_mem hot
        rw [em]; exact h1
      · intro y hy
        simp only [U.items, hit, not_or, not_and] at hy
        by_cases hyo : y = o
        · rw [hyo]; exact hf
        · exact hout y (fun h' => hy.2 h' hyo)
  · rw [if_neg hx, if_pos (by
      by_cases ho : o ∈ u.items
      · right
        by_cases hxx : x ∈ u.items
        · exact (h.mem x).2 hxx
        · exact absurd ⟨ho, hxx⟩ hx
      · left; rw [h.inMM_false ho]; decide)]
    exact ⟨rfl, h⟩

theorem mark_link (h : Link e s u) (x : N) : Link e (mark s x) (u.step e (.mark x)).1 := by
  obtain ⟨hseg, hmem, hout, hfr, ht, hac, hh, hcf, hrf, hnx, hok⟩ := h
  refine ⟨hseg, hmem, hout, hfr, ht, ?_, hh, hcf, hrf, hnx, hok⟩
  intro y hy
  simp only [mark, U.step, upd]
  split
  · rfl
  · exact hac y hy

/-- an iterator that starts at the tail. -/
theorem skip_spec {m : MState N} {seg : N → Nat} {seq : Nat → List N} (h : Seg 2 m seg seq) (q k : Nat) :
    ∀ (a b : List N), seq q = a ++ b → skip m.hooks k a.getLast? = a.reverse[k]? := by
  induction k with
  | zero => intro a b _; rw [← List.head?_eq_getElem?, List.head?_reverse]; rfl
  | succ k ih =>
    intro a b hab
    by_cases ha : a = []
    · subst ha; simp [skip]
    · obtain ⟨c, x, rfl⟩ := split_last a ha
      simp only [List.getLast?_concat, skip]
      rw [step_back h q (a := c) (b := b) (x := x) (by rw [hab]; simp)]
      rw [ih c (x :: b) (by rw [hab]; simp)]
      simp

theorem ageStat_eq (h : Link e s u) (now k : Nat) : ageStat s now k = (u.oldest now, u.main.length, u.projected k now) := by
  have hb : DList.iterBegin (s.m.lists Main) .fromTail = u.main.getLast? := h.seg.last 0
  have ho : ageAt s now u.main.getLast? = u.oldest now := by
    unfold U.oldest
    cases u.main.getLast? with
    | none => rfl
    | some x => simp only [ageAt]; rw [h.time]
  have hsk := skip_spec h.seg 0 k u.main [] (by simp [seqOf])
  unfold ageStat
  simp only
  rw [hb, ho, hsk]
  have hl : s.len Main = u.main.length := h.seg.len 0
  rw [hl]
  congr 2
  unfold U.projected
  cases u.main.reverse[k]? with
  | none => rfl
  | some x => simp only [ageAt]; rw [h.time]

theorem tune_link (h : Link e s u) (now : Nat) : Link e (reconfigure s now) (u.tune now) := by
  have hag := ageStat_eq h now 0
  unfold reconfigure U.tune
  rw [hag]
  obtain ⟨hseg, hmem, hout, hfr, ht, hac, hh, hcf, hrf, hnx, hok⟩ := h
  rw [hnx]
  by_cases hn : u.next ≤ now
  · rw [if_pos hn, if_neg (by omega)]
    exact ⟨hseg, hmem, hout, hfr, ht, hac, hh, hcf, by simp only [hcf], by simp only [hcf], hok⟩
  · rw [if_neg hn, if_pos (by omega)]
    exact ⟨hseg, hmem, hout, hfr, ht, hac, hh, hcf, hrf, hnx, hok⟩

theorem tune_rest (u : U N) (now : Nat) : (u.tune now).tiny = u.tiny ∧ (u.tune now).main = u.main ∧
    (u.tune now).cnt = u.cnt ∧ (u.tune now).time = u.time ∧ (u.tune now).hash = u.hash ∧ (u.tune now).items = u.items ∧
    (u.tune now).acc = u.acc := by
  unfold U.tune
  split <;> exact ⟨rfl, rfl, rfl, rfl, rfl, rfl, rfl⟩

theorem promote_link (h : Link e s u) (x : N) (now : Nat) :
    (promote s x now).2 = (u.step e (.promote x now)).2 ∧ Link e (promote s x now).1 (u.step e (.promote x now)).1 := by
  unfold promote
  simp only [U.step]
  have h0 := tune_link h now
  obtain ⟨e1, e2, e3, e4, e5, e6, e7⟩ := tune_rest u now
  generalize reconfigure s now = s at h0 ⊢
  rw [← e1, ← e2, ← e3, ← e4, ← e5]
  clear e1 e2 e3 e4 e5 e6 e7 h
  generalize u.tune now = u at h0 ⊢
  have h := h0
  by_cases hx : x ∈ u.items
  · rw [if_neg (by simp [(h.mem x).2 hx])]
    have hti := h.tiny_iff x
    have hdj := fun a b => h.disj (x := x) a b
    have hfu : FLink e (s.freq.count (s.hash x)) (u.cnt.use (u.hash x)) := by rw [h.hash]; exact h.freq.use _
    obtain ⟨hseg, hmem, hout, hfr, ht, hac, hh, hcf, hrf, hnx, hok⟩ := h
    rcases List.mem_append.1 hx with hxt | hxm
    · rw [if_pos hxt]
      have hlt : s.lruType x = 1 := hseg.seg 1 x hxt
      have h1 := hseg.front (q := 1) (x := x) hxt
      rw [seqOf_t] at h1
      have hit : ∀ y, y ∈ (x :: u.tiny.filter (fun y => y ≠ x)) ++ u.main ↔ y ∈ u.items := by
        intro y
        simp only [U.items, List.cons_append, List.mem_cons, List.mem_append, List.mem_filter, decide_eq_true_eq]
        grind
      refine ⟨rfl, ?_, ?_, ?_, hfu, by simp only [ht, State.on]; rfl, ?_, hh, hcf, hrf, hnx, hok⟩
      · simp only [hlt]; exact h1
      · intro y; simp only [U.items]; rw [hit]; exact hmem y
      · intro y hy; simp only [U.items] at hy; rw [hit] at hy; exact hout y hy
      · intro y hy; simp only [U.items] at hy; rw [hit] at hy; exact hac y hy
    · have hxt : x ∉ u.tiny := fun h' => hdj h' hxm
      rw [if_neg hxt, if_pos hxm]
      have hlt : s.lruType x = 0 := hseg.seg 0 x hxm
      have h1 := hseg.front (q := 0) (x := x) hxm
      rw [seqOf_m] at h1
      have hit : ∀ y, y ∈ u.tiny ++ (x :: u.main.filter (fun y => y ≠ x)) ↔ y ∈ u.items := by
        intro y
        simp only [U.items, List.mem_cons, List.mem_append, List.mem_filter, decide_eq_true_eq]
        grind
      refine ⟨rfl, ?_, ?_, ?_, hfu, by simp only [ht, State.on]; rfl, ?_, hh, hcf, hrf, hnx, hok⟩
      · simp only [hlt]; exact h1
      · intro y; simp only [U.items]; rw [hit]; exact hmem y
      · intro y hy; simp only [U.items] at hy; rw [hit] at hy; exact hout y hy
      · intro y hy; simp only [U.items] at hy; rw [hit] at hy; exact hac y hy
  · rw [if_pos (by simp [h.inMM_false hx])]
    have : x ∉ u.tiny ∧ x ∉ u.main := by
      simp only [U.items, List.mem_append, not_or] at hx; exact hx
    rw [if_neg this.1, if_neg this.2]
    exact ⟨rfl, h⟩

theorem setConfig_link (h : Link e s u) (c : Config) (now : Nat) (hl : c.Ok) :
    Link e (setConfig s c now) (u.step e (.setConfig c now)).1 := by
  obtain ⟨hseg, hmem, hout, hfr, ht, hac, hh, hcf, hrf, hnx, hok⟩ := h
  exact ⟨hseg, hmem, hout, hfr, ht, hac, hh, rfl, rfl, rfl, hl⟩

theorem construct_link (h : Link e s u) (x : N) (k : Nat) (hl : x ∉ u.items) :
    Link e (construct s x k) (u.step e (.construct x k)).1 := by
  have hi := h.inMM_false hl
  have hxt : x ∉ u.tiny := fun h' => hl (List.mem_append.2 (Or.inl h'))
  have hxm : x ∉ u.main := fun h' => hl (List.mem_append.2 (Or.inr h'))
  have hns := not_seq hxt hxm
  have hfx := h.out x hl
  obtain ⟨hseg, hmem, hout, hfr, ht, hac, hh, hcf, hrf, hnx, hok⟩ := h
  simp only [U.step]
  refine ⟨?_, ?_, ?_, hfr, ht, ?_, ?_, hcf, hrf, hnx, hok⟩
  · refine hseg.congr ?_
    intro q y hy
    have hne : y ≠ x := fun e' => hns q (e' ▸ hy)
    unfold State.lruType construct
    simp only [upd_ne _ _ hne]
  · intro y
    simp only [construct, upd]
    by_cases hy : y = x
    · subst hy
      rw [if_pos rfl]
      have := hmem y
      rw [hi] at this
      exact this
    · rw [if_neg hy]; exact hmem y
  · intro y hy
    simp only [construct, upd]
    split
    · rfl
    · exact hout y hy
  · intro y hy
    have hne : y ≠ x := fun e' => hl (e' ▸ hy)
    simp only [construct, upd_ne _ _ hne]
    exact hac y hy
  · simp only [construct, hh]; rfl

theorem link_step (h : Link e s u) (o : Op N) (hl : u.Legal e o) :
    ∃ s', step e s o = some (s', (u.step e o).2) ∧ Link e s' (u.step e o).1 := by
  cases o with
  | add x now => exact add_link h x now hl
  | remove x =>
    obtain ⟨h1, h2⟩ := remove_link h x
    exact ⟨_, by simp only [step]; rw [← h1], h2⟩
  | evict x => exact ⟨_, rfl, evict_link h hl⟩
  | replace o x =>
    obtain ⟨h1, h2⟩ := replace_link h o x
    exact ⟨_, by simp only [step]; rw [← h1], h2⟩
  | mark x => exact ⟨_, rfl, mark_link h x⟩
  | promote x now =>
    obtain ⟨h1, h2⟩ := promote_link h x now
    exact ⟨_, by simp only [step]; rw [← h1], h2⟩
  | setConfig c now => exact ⟨_, rfl, setConfig_link h c now hl⟩
  | construct x k => exact ⟨_, rfl, construct_link h x k hl⟩

theorem link_run (h : Link e s u) (ops : List (Op N)) (hl : u.LegalRun e ops) :
    ∃ s', run e s ops = some (s', (u.run e ops).2) ∧ Link e s' (u.run e ops).1 := by
  induction ops generalizing s u with
  | nil => exact ⟨s, rfl, h⟩
  | cons o os ih =>
    obtain ⟨s1, h1, h2⟩ := link_step h o hl.1
    obtain ⟨s2, h3, h4⟩ := ih h2 hl.2
    refine ⟨s2, ?_, h4⟩
    simp only [run, h1, Option.bind_some, h3, Option.map_some, U.run]

theorem link_new (e : Env) (c : Config) (now : Nat) (hooks : DList.Hooks N) (hash : N → Nat) (hc : c.Ok)
    (hf : e.Fits (100 * c.windowRatio)) : ∃ s, new e c now hooks hash = some s ∧ Link e s (U.new c now hash) := by
  obtain ⟨f, h1, h2⟩ := FLink.new e 0 c.windowRatio hc.window.1 hf
  unfold new
  rw [h1]
  have hse : seqOf ([] : List N) [] = fun _ => [] := by funext q; simp [seqOf]
  refine ⟨_, rfl, ⟨(by show MRep (MultiDList.new 2 hooks) (seqOf [] []); rw [hse]; exact mrep_new _ _), rfl, ?_, ?_⟩, ?_, fun _ _ => rfl, h2, rfl, ?_, rfl, rfl, rfl, rfl, hc⟩
  · intro q _; simp [seqOf, U.new]
  · intro q x hx; simp [seqOf, U.new] at hx
  · intro x; simp [U.new, U.items]
  · intro x hx; simp [U.new, U.items] at hx

end Verif.MMLfu.Tiny
