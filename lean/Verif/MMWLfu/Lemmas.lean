import Verif.MMWLfu.Spec
import Verif.MMLfu.Seg
/-! Proofs for C55: the container refines its specification. -/
namespace Verif.MMLfu.W
open Verif MultiDList

variable {N : Type} [DecidableEq N]

/-- an item goes from one list to the head of another. -/
theorem _root_.Verif.MMLfu.Seg.toHead {k : Nat} {m : MState N} {seg seg' : N → Nat} {seq : Nat → List N} (h : Seg k m seg seq)
    {q q' : Nat} (hq : q' < k) (hne : q' ≠ q) {x : N} (hx : x ∈ seq q) (hsx : seg' x = q') (hs : ∀ y, y ≠ x → seg' y = seg y) :
    Seg k (onList (onList m q (.remove x)) q' (.linkAtHead x)) seg' (upd (upd seq q ((seq q).filter (· ≠ x))) q' (x :: seq q')) := by
  have h1 := h.remove hx (seg' := seg) (fun _ _ => rfl)
  have hn : ∀ p, x ∉ upd seq q ((seq q).filter (· ≠ x)) p := by
    intro p hp
    by_cases e : p = q
    · subst e; rw [upd_same] at hp; simp at hp
    · rw [upd_ne _ _ e] at hp; exact e (h.uniq hp hx)
  have h2 := h1.linkHead (seg' := seg') hq hn hsx hs
  rwa [upd_ne _ _ hne] at h2

/-- an item goes from one list to the tail of another. -/
theorem _root_.Verif.MMLfu.Seg.toTail {k : Nat} {m : MState N} {seg seg' : N → Nat} {seq : Nat → List N} (h : Seg k m seg seq)
    {q q' : Nat} (hq : q' < k) (hne : q' ≠ q) {x : N} (hx : x ∈ seq q) (hsx : seg' x = q') (hs : ∀ y, y ≠ x → seg' y = seg y) :
    Seg k (onList (onList m q (.remove x)) q' (.linkAtTail x)) seg' (upd (upd seq q ((seq q).filter (· ≠ x))) q' (seq q' ++ [x])) := by
  have h1 := h.remove hx (seg' := seg) (fun _ _ => rfl)
  have hn : ∀ p, x ∉ upd seq q ((seq q).filter (· ≠ x)) p := by
    intro p hp
    by_cases e : p = q
    · subst e; rw [upd_same] at hp; simp at hp
    · rw [upd_ne _ _ e] at hp; exact e (h.uniq hp hx)
  have h2 := h1.linkTail (seg' := seg') hq hn hsx hs
  rwa [upd_ne _ _ hne] at h2

/-- the three lists. -/
def seqOf (t p m : List N) : Nat → List N := fun q => if q = 0 then m else if q = 1 then p else if q = 2 then t else []

theorem seqOf_t (t p m l : List N) : upd (seqOf t p m) 2 l = seqOf l p m := by
  funext q; unfold upd seqOf; split <;> simp_all
theorem seqOf_p (t p m l : List N) : upd (seqOf t p m) 1 l = seqOf t l m := by
  funext q; unfold upd seqOf; split <;> simp_all
theorem seqOf_m (t p m l : List N) : upd (seqOf t p m) 0 l = seqOf t p l := by
  funext q; unfold upd seqOf; split <;> simp_all

/-- the list that the flags say. -/
def lt (f g : N → Bool) (y : N) : Nat := if f y then 2 else if g y then 1 else 0

theorem lt_eq (s : State N) : s.lruType = lt s.tiny s.prob := rfl

theorem lt_congr {f g f' g' : N → Bool} {y : N} (h1 : f' y = f y) (h2 : g' y = g y) : lt f' g' y = lt f g y := by
  unfold lt; rw [h1, h2]

/-- link between code and specification. -/
structure Link (e : Env) (s : State N) (u : U N) : Prop where
  seg : Seg 3 s.m (lt s.tiny s.prob) (seqOf u.tiny u.prob u.main)
  mem : ∀ x, s.inMM x = true ↔ x ∈ u.items
  out : ∀ x, x ∉ u.items → s.tiny x = false ∧ s.prob x = false
  one : ∀ x, s.tiny x = true → s.prob x = false
  freq : FLink e s.freq u.cnt
  time : s.time = u.time
  acc : ∀ x ∈ u.items, s.accessed x = u.acc x
  hash : s.hash = u.hash
  cfg : s.config = u.cfg
  refresh : s.refreshTime = u.refresh
  next : s.nextReconf = u.next
  ok : u.cfg.Ok

variable {e : Env} {s : State N} {u : U N}

omit [DecidableEq N] in
theorem mem_items {u : U N} {x : N} : x ∈ u.items ↔ x ∈ u.tiny ∨ x ∈ u.prob ∨ x ∈ u.main := by
  simp [U.items, or_assoc]

omit [DecidableEq N] in
theorem mem_seq (t p m : List N) (x : N) : (∃ q, x ∈ seqOf t p m q) ↔ x ∈ t ∨ x ∈ p ∨ x ∈ m := by
  constructor
  · rintro ⟨q, hq⟩
    unfold seqOf at hq
    repeat' split at hq
    · exact Or.inr (Or.inr hq)
    · exact Or.inr (Or.inl hq)
    · exact Or.inl hq
    · cases hq
  · rintro (h | h | h)
    · exact ⟨2, h⟩
    · exact ⟨1, h⟩
    · exact ⟨0, h⟩

omit [DecidableEq N] in
theorem not_seq {u : U N} {x : N} (h : x ∉ u.items) : ∀ p, x ∉ seqOf u.tiny u.prob u.main p := by
  intro p hp
  exact h (mem_items.2 ((mem_seq _ _ _ x).1 ⟨p, hp⟩))

theorem seg_size {t p ml : List N} {m : MState N} {seg : N → Nat} (h : Seg 3 m seg (seqOf t p ml)) :
    MultiDList.size m = (t ++ p ++ ml).length := by
  rw [MultiDList.size, size_eq h.rep, h.num]
  simp [total, seqOf]; omega

theorem Link.size (h : Link e s u) : size s.m = u.items.length := seg_size h.seg

theorem seg_nodup {t p ml : List N} {m : MState N} {seg : N → Nat} (h : Seg 3 m seg (seqOf t p ml)) :
    (t ++ p ++ ml).Nodup := by
  rw [List.nodup_append, List.nodup_append]
  refine ⟨⟨h.nodup 2, h.nodup 1, ?_⟩, h.nodup 0, ?_⟩
  · rintro a ha b hb rfl
    exact absurd (h.uniq (p := 2) (q := 1) ha hb) (by decide)
  · rintro a ha b hb rfl
    rcases List.mem_append.1 ha with ha | ha
    · exact absurd (h.uniq (p := 2) (q := 0) ha hb) (by decide)
    · exact absurd (h.uniq (p := 1) (q := 0) ha hb) (by decide)

theorem Link.nodup (h : Link e s u) : u.items.Nodup := seg_nodup h.seg

theorem Link.tiny_of (h : Link e s u) {x : N} (hx : x ∈ u.tiny) : s.tiny x = true ∧ s.prob x = false := by
  have := h.seg.seg 2 x hx
  unfold lt at this
  by_cases ht : s.tiny x = true
  · exact ⟨ht, h.one x ht⟩
  · rw [if_neg ht] at this; split at this <;> cases this

theorem Link.prob_of (h : Link e s u) {x : N} (hx : x ∈ u.prob) : s.tiny x = false ∧ s.prob x = true := by
  have := h.seg.seg 1 x hx
  unfold lt at this
  by_cases ht : s.tiny x = true
  · rw [if_pos ht] at this; cases this
  · rw [if_neg ht] at this
    by_cases hp : s.prob x = true
    · exact ⟨by simpa using ht, hp⟩
    · rw [if_neg hp] at this; cases this

theorem Link.main_of (h : Link e s u) {x : N} (hx : x ∈ u.main) : s.tiny x = false ∧ s.prob x = false := by
  have := h.seg.seg 0 x hx
  unfold lt at this
  by_cases ht : s.tiny x = true
  · rw [if_pos ht] at this; cases this
  · rw [if_neg ht] at this
    by_cases hp : s.prob x = true
    · rw [if_pos hp] at this; cases this
    · exact ⟨by simpa using ht, by simpa using hp⟩

theorem Link.not_tp (h : Link e s u) {x : N} (ht : x ∈ u.tiny) : x ∉ u.prob := fun hp =>
  absurd (h.seg.uniq (p := 2) (q := 1) ht hp) (by decide)
theorem Link.not_tm (h : Link e s u) {x : N} (ht : x ∈ u.tiny) : x ∉ u.main := fun hp =>
  absurd (h.seg.uniq (p := 2) (q := 0) ht hp) (by decide)
theorem Link.not_pm (h : Link e s u) {x : N} (ht : x ∈ u.prob) : x ∉ u.main := fun hp =>
  absurd (h.seg.uniq (p := 1) (q := 0) ht hp) (by decide)

theorem Link.admit (h : Link e s u) (t x : N) : s.admit t x = u.beats e t x := by
  unfold State.admit U.beats U.est
  rw [h.freq.admit, h.cfg, h.hash]

theorem Link.inMM_false (h : Link e s u) {x : N} (hx : x ∉ u.items) : s.inMM x = false := by
  cases hi : s.inMM x with
  | true => exact absurd ((h.mem x).1 hi) hx
  | false => rfl

/-! ### Settling -/

/-- what settling does. -/
structure Settled (e : Env) (s s' : State N) (u : U N) : Prop where
  seg : Seg 3 s'.m (lt s'.tiny s'.prob) (seqOf (u.settle e).tiny (u.settle e).prob (u.settle e).main)
  flags : ∀ x, x ∉ u.items → s'.tiny x = s.tiny x ∧ s'.prob x = s.prob x
  one : ∀ x, s'.tiny x = true → s'.prob x = false
  rest : s' = { s with m := s'.m, tiny := s'.tiny, prob := s'.prob }
  items : (u.settle e).items.Perm u.items
  urest : u.settle e = { u with tiny := (u.settle e).tiny, prob := (u.settle e).prob }

theorem settle_spec (hs : Seg 3 s.m (lt s.tiny s.prob) (seqOf u.tiny u.prob u.main)) (h1 : ∀ x, s.tiny x = true → s.prob x = false)
    (hne : u.tiny ≠ []) (hc : s.config = u.cfg)
    (ha : ∀ t x, s.admit t x = u.beats e t x) : ∃ s', settle s = some s' ∧ Settled e s s' u := by
  obtain ⟨a, t, ht⟩ := split_last u.tiny hne
  have hsize : size s.m = u.items.length := seg_size hs
  have hlen : s.len Tiny = u.tiny.length := hs.len 2
  have hlast : s.last Tiny = some t := by
    have : s.last Tiny = u.tiny.getLast? := hs.last 2
    rw [this, ht]; simp
  unfold settle
  rw [hc, hsize, hlen]
  simp only
  have hu : u.settle e = match u.tiny.getLast? with
    | none => u
    | some t =>
      if u.tiny.length > u.cfg.tinyPct * u.items.length / 100 then
        { u with tiny := u.tiny.dropLast, prob := t :: u.prob }
      else
        match u.prob.getLast? with
        | none => u
        | some x =>
          if u.beats e t x then { u with tiny := u.tiny.dropLast ++ [x], prob := t :: u.prob.dropLast }
          else { u with prob := x :: u.prob.dropLast } := rfl
  have hgl : u.tiny.getLast? = some t := by rw [ht]; simp
  have hdl : u.tiny.dropLast = a := by rw [ht]; simp
  have htt : t ∈ u.tiny := by rw [ht]; simp
  have hft : u.tiny.filter (· ≠ t) = a := by
    rw [ht]; exact filter_last (by have := hs.nodup 2; rw [← ht]; exact this)
  rw [hgl] at hu
  simp only [hdl] at hu
  have hpush : Seg 3 (onList (onList s.m 2 (.remove t)) 1 (.linkAtHead t)) (lt (upd s.tiny t false) (upd s.prob t true))
      (seqOf a (t :: u.prob) u.main) := by
    have h2 := hs.toHead (q := 2) (q' := 1) (by decide) (by decide) (x := t) htt
      (seg' := lt (upd s.tiny t false) (upd s.prob t true)) (by simp [lt])
      (fun y hy => lt_congr (upd_ne _ _ hy) (upd_ne _ _ hy))
    have e1 : seqOf u.tiny u.prob u.main 2 = u.tiny := rfl
    have e2 : seqOf u.tiny u.prob u.main 1 = u.prob := rfl
    rw [e1, e2, hft, seqOf_t, seqOf_p] at h2
    exact h2
  by_cases hgt : u.tiny.length > u.cfg.tinyPct * u.items.length / 100
  · rw [if_pos hgt] at hu ⊢
    rw [hlast]
    refine ⟨_, rfl, ?_, ?_, ?_, rfl, ?_, ?_⟩
    · rw [hu]; exact hpush
    · intro x hx
      have hxt : x ≠ t := fun e' => hx (by rw [e']; simp [U.items, ht])
      simp only [upd_ne _ _ hxt, State.on, and_self]
    · intro x
      simp only [State.on, upd]
      by_cases hxt : x = t
      · simp [hxt]
      · rw [if_neg hxt, if_neg hxt]; exact h1 x
    · rw [hu]
      simp only [U.items, ht]
      rw [List.perm_iff_count]; intro z
      simp only [List.count_append, List.count_cons, List.count_nil]; omega
    · rw [hu]
  · rw [if_neg hgt] at hu ⊢
    have hlm : s.last Probation = u.prob.getLast? := hs.last 1
    unfold maybePromoteTail
    by_cases hm : u.prob = []
    · rw [hm] at hlm hu
      simp only [List.getLast?_nil] at hlm hu
      rw [hlm]
      exact ⟨s, rfl, by rw [hu]; exact hs, fun _ _ => ⟨rfl, rfl⟩, h1, rfl, by rw [hu], by rw [hu]⟩
    · obtain ⟨b, x, hb⟩ := split_last u.prob hm
      have hglm : u.prob.getLast? = some x := by rw [hb]; simp
      have hdlm : u.prob.dropLast = b := by rw [hb]; simp
      rw [hglm] at hlm hu
      simp only [hdlm] at hu
      rw [hlm, hlast]
      simp only [ha]
      have hxm : x ∈ u.prob := by rw [hb]; simp
      have hxt : x ≠ t := fun e' => absurd (hs.uniq (p := 2) (q := 1) (x := x) (by rw [e']; exact htt) hxm) (by decide)
      have hfx : u.prob.filter (· ≠ x) = b := by
        rw [hb]; exact filter_last (by have := hs.nodup 1; rw [← hb]; exact this)
      by_cases hbt : u.beats e t x = true
      · rw [if_pos hbt] at hu ⊢
        refine ⟨_, rfl, ?_, ?_, ?_, rfl, ?_, ?_⟩
        · rw [hu]
          have h2 := hpush.toTail (q := 1) (q' := 2) (by decide) (by decide) (x := x)
            (show x ∈ t :: u.prob from List.mem_cons_of_mem _ hxm)
            (seg' := lt (upd (upd s.tiny t false) x true) (upd (upd s.prob x false) t true)) (by simp [lt])
            (fun y hy => lt_congr (upd_ne _ _ hy) (by simp only [upd]; rw [if_neg hy]))
          have e1 : seqOf a (t :: u.prob) u.main 1 = t :: u.prob := rfl
          have e2 : seqOf a (t :: u.prob) u.main 2 = a := rfl
          have e3 : (t :: u.prob).filter (· ≠ x) = t :: b := by
            rw [List.filter_cons, if_pos (by simpa using fun e' => hxt e'.symm), hfx]
          rw [e1, e2, e3, seqOf_p, seqOf_t] at h2
          exact h2
        · intro y hy
          have hyt : y ≠ t := fun e' => hy (by rw [e']; simp [U.items, ht])
          have hyx : y ≠ x := fun e' => hy (by rw [e']; simp [U.items, hb])
          simp only [swapTails, State.on, upd_ne _ _ hyt, upd_ne _ _ hyx, and_self]
        · intro y
          simp only [swapTails, State.on, upd]
          by_cases hyx : y = x
          · subst hyx; simp [hxt]
          · by_cases hyt : y = t
            · subst hyt; simp [hyx]
            · simp only [if_neg hyx, if_neg hyt]; exact h1 y
        · rw [hu]
          simp only [U.items, ht, hb]
          rw [List.perm_iff_count]
          intro z
          simp only [List.count_append, List.count_cons, List.count_nil]
          omega
        · rw [hu]
      · rw [if_neg hbt] at hu ⊢
        refine ⟨_, rfl, ?_, fun _ _ => ⟨rfl, rfl⟩, h1, rfl, ?_, ?_⟩
        · have h1 := hs.front (q := 1) (x := x) hxm
          have e2 : (seqOf u.tiny u.prob u.main 1).filter (· ≠ x) = b := hfx
          rw [e2, seqOf_p] at h1
          rw [hu]; exact h1
        · rw [hu]
          simp only [U.items, hb]
          rw [List.perm_iff_count]; intro z
          simp only [List.count_append, List.count_cons, List.count_nil]; omega
        · rw [hu]

end Verif.MMLfu.W
