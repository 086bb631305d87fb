import Verif.MemPool.Model
import Verif.AllocClass.OpPrune
/-
How a step of one allocation class looks to the rest of the allocator.
-/
namespace Verif.MemPool
open Verif AllocClass

/-- What a critical section of a class leaves alone. -/
structure Frame (s s' : CS) (c c' : Client) (rel : Option Nat) : Prop where
  next : s'.next = s.next
  hdr : ∀ sl, sl ∉ c.slabs → s'.hdr sl = s.hdr sl
  pool : ∀ sl, (s'.hdr sl).pool = (s.hdr sl).pool
  slabs : c'.slabs = match rel with | none => c.slabs | some sl => c.slabs.erase sl
  rel : ∀ sl, rel = some sl → sl ∈ c.slabs ∧ (s'.hdr sl).cls = -1 ∧ (s'.hdr sl).marked = false

theorem hdr_upd_ne {f : Nat → Hdr} {x y : Nat} {v : Hdr} (h : y ≠ x) : upd f x v y = f y := upd_ne _ _ h

theorem runCls_frame {cls pool size s c o s' c' rel} (h : Inv cls pool size s c) (he : runCls s c o = some (s', c', rel)) :
    Frame s s' c c' rel := by
  cases o with
  | alloc =>
    simp only [runCls, Option.map_eq_some_iff, Prod.mk.injEq] at he
    obtain ⟨r, _, rfl, rfl, rfl⟩ := he
    exact ⟨rfl, fun _ _ => rfl, fun _ => rfl, rfl, by simp⟩
  | free a =>
    simp only [runCls] at he
    split at he
    · rename_i ha
      split at he
      · rename_i s1 hf
        simp only [Option.some.injEq, Prod.mk.injEq] at he
        obtain ⟨rfl, rfl, rfl⟩ := he
        unfold AllocClass.free at hf
        split at hf
        · simp at hf
        split at hf
        · simp at hf
        split at hf
        · split at hf
          · simp at hf
          split at hf
          · simp at hf
          simp only [Except.ok.injEq] at hf; subst hf
          exact ⟨rfl, fun _ _ => rfl, fun _ => rfl, rfl, by simp⟩
        · simp only [Except.ok.injEq] at hf; subst hf
          exact ⟨rfl, fun _ _ => rfl, fun _ => rfl, rfl, by simp⟩
      · simp at he
    · simp at he
  | relStart hint r =>
    simp only [runCls] at he
    split at he
    · rename_i s1 o1 hf
      simp only [Option.some.injEq, Prod.mk.injEq] at he
      obtain ⟨rfl, rfl, rfl⟩ := he
      unfold AllocClass.relStart at hf
      split at hf
      · simp at hf
      split at hf
      · simp at hf
      split at hf
      · simp at hf
      rename_i sl hsl
      split at hf
      · simp at hf
      rename_i hd hhd
      have hh : s.hdr sl = hd ∧ sl < s.next := by
        unfold CS.header at hhd; split at hhd <;> simp at hhd; exact ⟨hhd, by assumption⟩
      split at hf
      · simp at hf
      rename_i hc
      have hin : sl ∈ c.slabs := by
        by_contra hn
        apply h.foreign sl hn
        rw [hh.1, ← h.hcls, ← h.hpool]
        simp only [ne_eq, not_or, not_not] at hc
        exact ⟨hc.1, hc.2.1⟩
      split at hf
      · simp only [Except.ok.injEq, Prod.mk.injEq] at hf
        obtain ⟨rfl, rfl⟩ := hf
        refine ⟨rfl, ?_, ?_, rfl, ?_⟩
        · intro x hx
          exact hdr_upd_ne (by rintro rfl; exact hx hin)
        · intro x
          by_cases hx : x = sl
          · subst hx; simp [Hdr.assign, hh.1]
          · exact congrArg Hdr.pool (hdr_upd_ne hx)
        · intro x hx
          obtain rfl := Option.some.inj hx
          refine ⟨hin, by simp [Hdr.assign], ?_⟩
          simp only [upd_same, Hdr.assign]
          simp only [ne_eq, not_or, not_not] at hc
          simpa using hc.2.2
      split at hf
      · simp at hf
      split at hf
      · simp at hf
      simp only [Except.ok.injEq, Prod.mk.injEq] at hf
      obtain ⟨rfl, rfl⟩ := hf
      refine ⟨rfl, ?_, ?_, rfl, by simp⟩
      · intro x hx
        exact hdr_upd_ne (by rintro rfl; exact hx hin)
      · intro x
        by_cases hx : x = sl
        · subst hx; simp [hh.1]
        · exact congrArg Hdr.pool (hdr_upd_ne hx)
    · simp at he
  | relStep ab =>
    have key : ∀ s1 r, relStep s ab = .ok (s1, r) →
        Frame s s1 c (c.afterStep ab r) (match r with | .released sl => some sl | _ => none) := by
      intro s1 r hf
      unfold relStep at hf
      split at hf
      · simp at hf
      rename_i p hp
      have hpr : c.pruning = some p.slab := by rw [h.pruning, hp]; rfl
      have hms : (s.ac.map p.slab).isSome := (h.maps _).2 (Or.inr hpr)
      have hin : p.slab ∈ c.slabs := (h.slabs _).2 (Or.inr (Or.inr hms))
      split at hf
      · simp only [Except.ok.injEq, Prod.mk.injEq] at hf
        obtain ⟨rfl, rfl⟩ := hf
        exact ⟨rfl, fun _ _ => rfl, fun _ => rfl, rfl, by simp⟩
      · split at hf
        · simp only [Except.ok.injEq, Prod.mk.injEq] at hf
          obtain ⟨rfl, rfl⟩ := hf
          exact ⟨rfl, fun _ _ => rfl, fun _ => rfl, rfl, by simp⟩
        · split at hf
          · simp at hf
          simp only [Except.ok.injEq, Prod.mk.injEq] at hf
          obtain ⟨rfl, rfl⟩ := hf
          exact ⟨rfl, fun _ _ => rfl, fun _ => rfl, rfl, by simp⟩
      · split at hf <;>
        · simp only [Except.ok.injEq, Prod.mk.injEq] at hf
          obtain ⟨rfl, rfl⟩ := hf
          exact ⟨rfl, fun _ _ => rfl, fun _ => rfl, rfl, by simp⟩
      · simp only [Except.ok.injEq, Prod.mk.injEq] at hf
        obtain ⟨rfl, rfl⟩ := hf
        exact ⟨rfl, fun _ _ => rfl, fun _ => rfl, rfl, by simp⟩
      · split at hf
        · simp at hf
        simp only [Except.ok.injEq, Prod.mk.injEq] at hf
        obtain ⟨rfl, rfl⟩ := hf
        refine ⟨rfl, ?_, ?_, rfl, by simp⟩
        · intro x hx
          exact hdr_upd_ne (by rintro rfl; exact hx hin)
        · intro x
          by_cases hx : x = p.slab
          · subst hx; simp
          · exact congrArg Hdr.pool (hdr_upd_ne hx)
      · split at hf
        · simp at hf
        simp only [Except.ok.injEq, Prod.mk.injEq] at hf
        obtain ⟨rfl, rfl⟩ := hf
        exact ⟨rfl, fun _ _ => rfl, fun _ => rfl, rfl, by simp⟩
      · split at hf
        · simp only [Except.ok.injEq, Prod.mk.injEq] at hf
          obtain ⟨rfl, rfl⟩ := hf
          refine ⟨rfl, ?_, ?_, rfl, ?_⟩
          · intro x hx
            exact hdr_upd_ne (by rintro rfl; exact hx hin)
          · intro x
            by_cases hx : x = p.slab
            · subst hx; simp [Hdr.clear]
            · exact congrArg Hdr.pool (hdr_upd_ne hx)
          · intro x hx
            obtain rfl := Option.some.inj hx
            exact ⟨hin, by simp [Hdr.clear], by simp [Hdr.clear]⟩
        · simp only [Except.ok.injEq, Prod.mk.injEq] at hf
          obtain ⟨rfl, rfl⟩ := hf
          exact ⟨rfl, fun _ _ => rfl, fun _ => rfl, rfl, by simp⟩
    simp only [runCls] at he
    split at he
    · rename_i s1 sl hf
      simp only [Option.some.injEq, Prod.mk.injEq] at he
      obtain ⟨rfl, rfl, rfl⟩ := he
      exact key _ _ hf
    · rename_i s1 o1 hne hf
      simp only [Option.some.injEq, Prod.mk.injEq] at he
      obtain ⟨rfl, rfl, rfl⟩ := he
      have := key _ _ hf
      cases o1 <;> first | exact this | exact (hne _ rfl).elim | exact (hne _ _ rfl).elim | exact (hne _ rfl rfl).elim
    · simp at he
  | abort sl =>
    simp only [runCls] at he
    split at he
    · rename_i ho
      have hin : sl ∈ c.slabs := (h.slabs _).2 (Or.inr (Or.inr ((h.maps _).2 (Or.inl ho))))
      split at he
      · rename_i s1 hf
        simp only [Option.some.injEq, Prod.mk.injEq] at he
        obtain ⟨rfl, rfl, rfl⟩ := he
        unfold abortRelease at hf
        split at hf
        · simp at hf
        simp only [Except.ok.injEq] at hf; subst hf
        refine ⟨rfl, ?_, ?_, rfl, by simp⟩
        · intro x hx
          exact hdr_upd_ne (by rintro rfl; exact hx hin)
        · intro x
          by_cases hx : x = sl
          · subst hx; simp [Hdr.assign]
          · exact congrArg Hdr.pool (hdr_upd_ne hx)
      · simp at he
    · simp at he
  | complete sl =>
    simp only [runCls] at he
    split at he
    · rename_i ho
      have hin : sl ∈ c.slabs := (h.slabs _).2 (Or.inr (Or.inr ((h.maps _).2 (Or.inl ho))))
      split at he
      · rename_i s1 hf
        simp only [Option.some.injEq, Prod.mk.injEq] at he
        obtain ⟨rfl, rfl, rfl⟩ := he
        unfold completeRelease at hf
        split at hf
        · simp at hf
        split at hf
        · simp at hf
        split at hf
        · simp at hf
        · simp at hf
        simp only [Except.ok.injEq] at hf; subst hf
        refine ⟨rfl, ?_, ?_, rfl, ?_⟩
        · intro x hx
          exact hdr_upd_ne (by rintro rfl; exact hx hin)
        · intro x
          by_cases hx : x = sl
          · subst hx; simp [Hdr.clear]
          · exact congrArg Hdr.pool (hdr_upd_ne hx)
        · intro x hx
          obtain rfl := Option.some.inj hx
          exact ⟨hin, by simp [Hdr.clear], by simp [Hdr.clear]⟩
      · simp at he
    · simp at he

/-- A step of the model is one of the class's legal calls. -/
theorem runCls_call {s c o s' c' rel} (he : runCls s c o = some (s', c', rel)) : Call (s, c) (s', c') := by
  cases o with
  | alloc =>
    simp only [runCls, Option.map_eq_some_iff, Prod.mk.injEq] at he
    obtain ⟨r, hr, rfl, rfl, rfl⟩ := he
    exact Call.alloc s c r.1 r.2 hr
  | free a =>
    simp only [runCls] at he
    split at he
    · split at he
      · simp only [Option.some.injEq, Prod.mk.injEq] at he
        obtain ⟨rfl, rfl, rfl⟩ := he
        exact Call.free _ _ _ _ (by assumption) (by assumption)
      · simp at he
    · simp at he
  | relStart hint r =>
    simp only [runCls] at he
    split at he
    · simp only [Option.some.injEq, Prod.mk.injEq] at he
      obtain ⟨rfl, rfl, rfl⟩ := he
      exact Call.relStart _ _ _ _ _ _ (by assumption)
    · simp at he
  | relStep ab =>
    simp only [runCls] at he
    split at he
    · simp only [Option.some.injEq, Prod.mk.injEq] at he
      obtain ⟨rfl, rfl, rfl⟩ := he
      exact Call.relStep _ _ _ _ _ (by assumption)
    · simp only [Option.some.injEq, Prod.mk.injEq] at he
      obtain ⟨rfl, rfl, rfl⟩ := he
      exact Call.relStep _ _ _ _ _ (by assumption)
    · simp at he
  | abort sl =>
    simp only [runCls] at he
    split at he
    · split at he
      · simp only [Option.some.injEq, Prod.mk.injEq] at he
        obtain ⟨rfl, rfl, rfl⟩ := he
        exact Call.abort _ _ _ _ (by assumption) (by assumption)
      · simp at he
    · simp at he
  | complete sl =>
    simp only [runCls] at he
    split at he
    · split at he
      · simp only [Option.some.injEq, Prod.mk.injEq] at he
        obtain ⟨rfl, rfl, rfl⟩ := he
        exact Call.complete _ _ _ _ (by assumption) (by assumption)
      · simp at he
    · simp at he

end Verif.MemPool
