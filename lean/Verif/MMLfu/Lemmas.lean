import Verif.MMLfu.Spec
import Verif.MMLfu.Seg
/-! Proofs for C54: the container refines its specification. -/
namespace Verif.MMLfu.Tiny
open Verif MultiDList

variable {N : Type} [DecidableEq N]

/-- the two lists. -/
def seqOf (t m : List N) : Nat → List N := fun q => if q = 0 then m else if q = 1 then t else []

theorem seqOf_t (t m l : List N) : upd (seqOf t m) 1 l = seqOf l m := by
  funext q; unfold upd seqOf; split <;> simp_all
theorem seqOf_m (t m l : List N) : upd (seqOf t m) 0 l = seqOf t l := by
  funext q; unfold upd seqOf; split <;> simp_all

/-- link between code and specification. -/
structure Link (e : Env) (s : State N) (u : U N) : Prop where
  seg : Seg 2 s.m s.lruType (seqOf u.tiny u.main)
  mem : ∀ x, s.inMM x = true ↔ x ∈ u.items
  out : ∀ x, x ∉ u.items → s.tiny x = false
  freq : FLink e s.freq u.cnt
  time : s.time = u.time
  acc : ∀ x ∈ u.items, s.accessed x = u.acc x
  hash : s.hash = u.hash
  cfg : s.config = u.cfg
  refresh : s.refreshTime = u.refresh
  next : s.nextReconf = u.next
  ok : u.cfg.Ok

variable {e : Env} {s : State N} {u : U N}

theorem mem_seq (t m : List N) (x : N) : (∃ q, x ∈ seqOf t m q) ↔ x ∈ t ∨ x ∈ m := by
  constructor
  · rintro ⟨q, hq⟩
    unfold seqOf at hq
    split at hq
    · exact Or.inr hq
    · split at hq
      · exact Or.inl hq
      · cases hq
  · rintro (h | h)
    · exact ⟨1, h⟩
    · exact ⟨0, h⟩

theorem not_seq {t m : List N} {x : N} (h1 : x ∉ t) (h2 : x ∉ m) : ∀ p, x ∉ seqOf t m p := by
  intro p hp
  rcases (mem_seq t m x).1 ⟨p, hp⟩ with h | h
  · exact h1 h
  · exact h2 h

theorem Link.disj (h : Link e s u) {x : N} (ht : x ∈ u.tiny) (hm : x ∈ u.main) : False := by
  have := h.seg.uniq (p := 1) (q := 0) (x := x) ht hm
  cases this

theorem Link.tiny_of (h : Link e s u) {x : N} (hx : x ∈ u.tiny) : s.tiny x = true := by
  have := h.seg.seg 1 x hx
  unfold State.lruType at this
  by_cases ht : s.tiny x = true
  · exact ht
  · rw [if_neg ht] at this; cases this

theorem Link.main_of (h : Link e s u) {x : N} (hx : x ∈ u.main) : s.tiny x = false := by
  have := h.seg.seg 0 x hx
  unfold State.lruType at this
  by_cases ht : s.tiny x = true
  · rw [if_pos ht] at this; cases this
  · simpa using ht

theorem Link.tiny_iff (h : Link e s u) (x : N) : s.tiny x = true ↔ x ∈ u.tiny := by
  constructor
  · intro ht
    by_cases hx : x ∈ u.items
    · rcases List.mem_append.1 hx with h' | h'
      · exact h'
      · rw [h.main_of h'] at ht; cases ht
    · rw [h.out x hx] at ht; cases ht
  · exact h.tiny_of

theorem Link.size (h : Link e s u) : size s.m = u.items.length := by
  rw [MultiDList.size, size_eq h.seg.rep, h.seg.num]
  simp [total, seqOf, U.items]; omega

theorem Link.nodup (h : Link e s u) : u.items.Nodup := by
  unfold U.items
  rw [List.nodup_append]
  refine ⟨h.seg.nodup 1, h.seg.nodup 0, ?_⟩
  rintro a ha b hb rfl
  exact h.disj ha hb

theorem Link.admit (h : Link e s u) (t x : N) : s.admit t x = u.beats e t x := by
  unfold State.admit U.beats U.est
  rw [h.freq.admit, h.cfg, h.hash]

theorem Link.inMM_false (h : Link e s u) {x : N} (hx : x ∉ u.items) : s.inMM x = false := by
  cases hi : s.inMM x with
  | true => exact absurd ((h.mem x).1 hi) hx
  | false => rfl

/-! ### Moving items between the queues, at the level of lists and flags -/

theorem seg_push {m : MState N} {f : N → Bool} {t ml : List N} {x : N}
    (h : Seg 2 m (fun y => if f y then 1 else 0) (seqOf (t ++ [x]) ml)) :
    Seg 2 (onList (onList m 1 (.remove x)) 0 (.linkAtHead x)) (fun y => if upd f x false y then 1 else 0)
      (seqOf t (x :: ml)) := by
  have hx : x ∈ seqOf (t ++ [x]) ml 1 := by show x ∈ t ++ [x]; simp
  have hnd : (t ++ [x]).Nodup := h.nodup 1
  have h1 := h.remove hx (fun _ _ => rfl)
  have e1 : (seqOf (t ++ [x]) ml 1).filter (· ≠ x) = t := filter_last hnd
  rw [e1, seqOf_t] at h1
  have hxt : x ∉ t := (DList.nodup_mid (b := []) hnd).1
  have hxm : x ∉ ml := fun h' => absurd (h.uniq (p := 1) (q := 0) hx h') (by decide)
  have h2 := h1.linkHead (seg' := fun y => if upd f x false y then 1 else 0) (q := 0) (by decide) (x := x)
    (not_seq hxt hxm) (by simp) (fun y hy => by simp only [upd_ne _ _ hy])
  rwa [seqOf_m] at h2

theorem seg_demote {m : MState N} {f : N → Bool} {t ml : List N} {x : N}
    (h : Seg 2 m (fun y => if f y then 1 else 0) (seqOf t (ml ++ [x]))) :
    Seg 2 (onList (onList m 0 (.remove x)) 1 (.linkAtTail x)) (fun y => if upd f x true y then 1 else 0)
      (seqOf (t ++ [x]) ml) := by
  have hx : x ∈ seqOf t (ml ++ [x]) 0 := by show x ∈ ml ++ [x]; simp
  have hnd : (ml ++ [x]).Nodup := h.nodup 0
  have h1 := h.remove hx (fun _ _ => rfl)
  have e1 : (seqOf t (ml ++ [x]) 0).filter (· ≠ x) = ml := filter_last hnd
  rw [e1, seqOf_m] at h1
  have hxt : x ∉ ml := (DList.nodup_mid (b := []) hnd).1
  have hxm : x ∉ t := fun h' => absurd (h.uniq (p := 0) (q := 1) hx h') (by decide)
  have h2 := h1.linkTail (seg' := fun y => if upd f x true y then 1 else 0) (q := 1) (by decide) (x := x)
    (not_seq hxm hxt) (by simp) (fun y hy => by simp only [upd_ne _ _ hy])
  rwa [seqOf_t] at h2

/-- what settling does. -/
structure Settled (e : Env) (s s' : State N) (u : U N) : Prop where
  seg : Seg 2 s'.m s'.lruType (seqOf (u.settle e).tiny (u.settle e).main)
  tiny : ∀ x, x ∉ u.items → s'.tiny x = s.tiny x
  rest : s' = { s with m := s'.m, tiny := s'.tiny }
  items : (u.settle e).items.Perm u.items
  urest : u.settle e = { u with tiny := (u.settle e).tiny, main := (u.settle e).main }

theorem settle_spec (hs : Seg 2 s.m s.lruType (seqOf u.tiny u.main)) (hne : u.tiny ≠ []) (hc : s.config = u.cfg)
    (ha : ∀ t x, s.admit t x = u.beats e t x) : ∃ s', settle s = some s' ∧ Settled e s s' u := by
  obtain ⟨a, t, ht⟩ := split_last u.tiny hne
  have hsize : size s.m = u.items.length := by
    rw [MultiDList.size, size_eq hs.rep, hs.num]
    simp [total, seqOf, U.items]; omega
  have hlen : s.len Tiny = u.tiny.length := hs.len 1
  have hlast : s.last Tiny = some t := by
    have : s.last Tiny = u.tiny.getLast? := hs.last 1
    rw [this, ht]; simp
  unfold settle
  rw [hc, hsize, hlen]
  simp only
  have hu : u.settle e = match u.tiny.getLast? with
    | none => u
    | some t =>
      if u.tiny.length > u.cfg.tinyPct * u.items.length / 100 then
        { u with tiny := u.tiny.dropLast, main := t :: u.main }
      else
        match u.main.getLast? with
        | none => u
        | some x =>
          if u.beats e t x then { u with tiny := u.tiny.dropLast ++ [x], main := t :: u.main.dropLast }
          else { u with main := x :: u.main.dropLast } := rfl
  have hgl : u.tiny.getLast? = some t := by rw [ht]; simp
  have hdl : u.tiny.dropLast = a := by rw [ht]; simp
  rw [hgl] at hu
  simp only [hdl] at hu
  by_cases hgt : u.tiny.length > u.cfg.tinyPct * u.items.length / 100
  · rw [if_pos hgt] at hu ⊢
    rw [hlast]
    refine ⟨_, rfl, ?_, ?_, rfl, ?_, ?_⟩
    · rw [hu]; rw [ht] at hs; exact seg_push hs
    · intro x hx
      have hxt : x ≠ t := fun e' => hx (by rw [e']; simp [U.items, ht])
      simp only [upd_ne _ _ hxt, State.on]
    · rw [hu]
      simp only [U.items, ht]
      rw [List.append_assoc]
      exact List.Perm.refl _
    · rw [hu]
  · rw [if_neg hgt] at hu ⊢
    have hlm : s.last Main = u.main.getLast? := hs.last 0
    unfold maybePromoteTail
    by_cases hm : u.main = []
    · rw [hm] at hlm hu
      simp only [List.getLast?_nil] at hlm hu
      rw [hlm]
      exact ⟨s, rfl, by rw [hu]; exact hs, fun _ _ => rfl, rfl, by rw [hu], by rw [hu]⟩
    · obtain ⟨b, x, hb⟩ := split_last u.main hm
      have hglm : u.main.getLast? = some x := by rw [hb]; simp
      have hdlm : u.main.dropLast = b := by rw [hb]; simp
      rw [hglm] at hlm hu
      simp only [hdlm] at hu
      rw [hlm, hlast]
      simp only [ha]
      have hxm : x ∈ u.main := by rw [hb]; simp
      have htt : t ∈ u.tiny := by rw [ht]; simp
      by_cases hbt : u.beats e t x = true
      · rw [if_pos hbt] at hu ⊢
        refine ⟨_, rfl, ?_, ?_, rfl, ?_, ?_⟩
        · rw [hu]
          rw [ht] at hs
          have h1 := seg_push (f := s.tiny) hs
          rw [hb] at h1
          have h2 := seg_demote (ml := t :: b) (t := a) (x := x) h1
          exact h2
        · intro y hy
          have hyt : y ≠ t := fun e' => hy (by rw [e']; simp [U.items, ht])
          have hyx : y ≠ x := fun e' => hy (by rw [e']; simp [U.items, hb])
          simp only [swapTails, State.on, upd_ne _ _ hyt, upd_ne _ _ hyx]
        · rw [hu]
          simp only [U.items, ht, hb]
          rw [List.perm_iff_count]
          intro z
          simp only [List.count_append, List.count_cons, List.count_nil]
          omega
        · rw [hu]
      · rw [if_neg hbt] at hu ⊢
        refine ⟨_, rfl, ?_, fun _ _ => rfl, rfl, ?_, ?_⟩
        · have h1 := hs.front (q := 0) (x := x) hxm
          have e2 : (seqOf u.tiny u.main 0).filter (· ≠ x) = b := by
            show u.main.filter (· ≠ x) = b
            rw [hb]; exact filter_last (by have := hs.nodup 0; rw [← hb]; exact this)
          rw [e2, seqOf_m] at h1
          rw [hu]; exact h1
        · rw [hu]
          simp only [U.items, hb]
          exact List.Perm.append_left _ (by
            rw [List.perm_iff_count]; intro z
            simp only [List.count_append, List.count_cons, List.count_nil]; omega)
        · rw [hu]

end Verif.MMLfu.Tiny
