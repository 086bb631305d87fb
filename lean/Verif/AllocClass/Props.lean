import Verif.AllocClass.OpPrune
/-
Properties C14, C16 and part of C45 for one allocation class.

`Reach cls pool size (s, c)`: some legal history of calls, from any number of threads and cut at critical sections, leads the
class to `s`, and a client who followed it knows `c`: the slabs it gave, the allocations it holds, the releases it began.
Everything below speaks of `c` and of the answers to the next call.
-/
namespace Verif.AllocClass
open Verif

/-- the bytes `[a, a + n)` of two allocations do not meet -/
def Disjoint (n : Nat) (a b : Addr) : Prop := a.1 ≠ b.1 ∨ a.2 + n ≤ b.2 ∨ b.2 + n ≤ a.2

theorem live_nodup {cls pool size s c} (h : Inv cls pool size s c) : c.live.Nodup :=
  List.nodup_iff_count_le_one.2 fun a => by have := h.bit_le a; omega

/-- C14: live allocations lie inside slabs of the class, and any two of them are disjoint. -/
theorem live_disjoint {cls pool size s c} (h : Reach cls pool size (s, c)) :
    c.live.Nodup ∧ (∀ a ∈ c.live, a.1 ∈ c.slabs ∧ a.2 + size ≤ 4194304) ∧
    ∀ a ∈ c.live, ∀ b ∈ c.live, a ≠ b → Disjoint size a b := by
  have h := reach_inv h
  refine ⟨live_nodup h, fun a ha => ⟨h.live_slab ha, chunk_le (h.live_facts ha).2.2.2.2.2.1⟩, ?_⟩
  intro a ha b hb hab
  have ca := (h.live_facts ha).2.2.2.2.2.1
  have cb := (h.live_facts hb).2.2.2.2.2.1
  by_cases h1 : a.1 = b.1
  · right
    rcases Nat.lt_trichotomy a.2 b.2 with h2 | h2 | h2
    · exact Or.inl (mul_gap ca.1 cb.1 h2)
    · exact absurd (Prod.ext h1 h2) hab
    · exact Or.inr (mul_gap cb.1 ca.1 h2)
  · exact Or.inl h1

/-- C14: what allocate returns is inside a slab of the class that is not under an open release, and disjoint from everything
that is live. -/
theorem alloc_fresh {cls pool size s c ac a} (h : Reach cls pool size (s, c)) (he : s.ac.allocate = some (ac, some a)) :
    a.1 ∈ c.slabs ∧ a.1 ∉ c.opens ∧ a.2 + size ≤ 4194304 ∧ ∀ b ∈ c.live, Disjoint size a b := by
  have h' := live_disjoint (Reach.step _ _ h (Step.call _ _ (Call.alloc s c ac (some a) he)))
  have hi := reach_inv h
  have hi' := reach_inv (Reach.step _ _ h (Step.call _ _ (Call.alloc s c ac (some a) he)))
  obtain ⟨g1, g2, g3⟩ := h'
  simp only [Option.toList_some, List.singleton_append, List.nodup_cons, List.mem_cons] at g1 g2 g3
  refine ⟨(g2 a (Or.inl rfl)).1, ?_, (g2 a (Or.inl rfl)).2, ?_⟩
  · -- the allocation came from the free list or from the current slab
    intro ho
    have e := hi'.cnt a
    have e0 := hi.cnt a
    have hf := hi.openFree a ho
    have hm := (hi.maps a.1).2 (Or.inl ho)
    have hx := hi.excl a.1 hm
    simp only [] at hf
    have hal : a ∈ ({ c with live := a :: c.live } : Client).live := by simp
    have lf := hi'.live_facts (a := a) (by simp)
    have hm' : (ac.map a.1) = s.ac.map a.1 := by
      have : ac.map = s.ac.map := by
        unfold AC.allocate at he
        split at he
        · simp at he
        · split at he
          · simp at he; rw [← he.1]
          · split at he
            · unfold AC.carve at he
              cases hc : s.ac.cur <;> simp [hc] at he
              rw [← he.1]
            · cases hs : s.ac.setup with
              | none => simp [hs] at he
              | some ac1 =>
                have h1 : ac1.map = s.ac.map := by
                  unfold AC.setup at hs
                  cases hg : s.ac.freeSlabs.getLast? <;> simp [hg] at hs
                  rw [← hs]
                unfold AC.carve at he
                cases hc : ac1.cur <;> simp [hs, hc] at he
                rw [← he.1]; exact h1
      rw [this]
    have hb : bit size ac.map a = bit size s.ac.map a := by unfold bit; rw [hm']
    have hu : unc size s.ac.off s.ac.cur a = 0 := by
      unfold unc; rw [if_neg]; rintro ⟨g, _⟩; exact hx.2 (hi.cur _ g)
    have hc := lf.2.2.2.2.2.1
    have ho1 : own size s.ac.allocated s.ac.map a = 1 := by simp [own, hc, hm]
    have hlc : c.live.count a = 0 := List.count_eq_zero.2 g1.1
    have hb0 := lf.2.2.2.2.1
    simp only [] at hb0
    rw [hb] at hb0
    simp only [] at e0
    rw [ho1, hlc, hf.1, hf.2, hu, hb0] at e0
    omega
  · intro b hb
    exact g3 a (Or.inl rfl) b (Or.inr hb) (fun h => g1.1 (h ▸ hb))

/-- C14: allocate never dereferences null, and freeing what is live is never refused. -/
theorem alloc_free_total {cls pool size s c} (h : Reach cls pool size (s, c)) :
    (∃ ac r, s.ac.allocate = some (ac, r)) ∧ ∀ a ∈ c.live, ∃ s', free s a = .ok s' :=
  ⟨allocate_some (reach_inv h), fun _ ha => free_ok (reach_inv h) ha⟩

theorem full_of {cls pool size s c} (h : Inv cls pool size s c) (hp : c.pruning = none)
    (hn : s.ac.freed = [] ∧ s.ac.freeSlabs = [] ∧ s.ac.canCarve = false) :
    ∀ sl ∈ c.slabs, sl ∉ c.opens → ∀ i < 4194304 / size, (sl, i * size) ∈ c.live := by
  intro sl hsl ho i hi
  obtain ⟨h1, h2, h3⟩ := hn
  have e := h.cnt (sl, i * size)
  have hc : chunk size (sl, i * size) := (chunk_mul h.size0).2 hi
  have hnm : s.ac.map sl = none := by
    cases hm : s.ac.map sl with
    | none => rfl
    | some b =>
      have := (h.maps sl).1 (by simp [hm])
      simp [ho, hp] at this
  have hal : sl ∈ s.ac.allocated := by
    have := (h.slabs sl).1 hsl
    simpa [h2, hnm] using this
  have hpn : s.ac.prune = none := by
    have := h.pruning; rw [hp] at this
    cases hx : s.ac.prune <;> simp [hx] at this ⊢
  have hu : unc size s.ac.off s.ac.cur (sl, i * size) = 0 := by
    unfold unc; rw [if_neg]; rintro ⟨g, g2, g3⟩
    have := chunk_le g2
    simp [AC.canCarve, g, h.hsize] at h3
    simp at g3 this
    omega
  rw [h1, hpn, hu] at e
  simp [pc, bit, hnm, own, hc, hal] at e
  exact List.count_pos_iff.1 (by omega)

/-- C14: when the locked part of allocate finds nothing, and no startSlabRelease is at work, every allocation of every slab
that is not being released is live: no memory was lost. -/
theorem alloc_none_full {cls pool size s c ac} (h : Reach cls pool size (s, c)) (hp : c.pruning = none)
    (he : s.ac.allocate = some (ac, none)) :
    ∀ sl ∈ c.slabs, sl ∉ c.opens → ∀ i < 4194304 / size, (sl, i * size) ∈ c.live :=
  full_of (reach_inv h) hp (allocate_none he)

/-- C14: the same if allocate() refuses without taking the lock, provided that no startSlabRelease was ever aborted. -/
theorem fast_none_full {cls pool size s c} (h : Reach cls pool size (s, c)) (hp : c.pruning = none)
    (ha : c.aborted = false) (he : s.ac.can = false) :
    ∀ sl ∈ c.slabs, sl ∉ c.opens → ∀ i < 4194304 / size, (sl, i * size) ∈ c.live :=
  full_of (reach_inv h) hp ((reach_inv h).can ha he)

/-- C16: the context of a release lists every live allocation of the slab, each once, and nothing outside it; from then on the
release is open. -/
theorem context_covers {cls pool size s c ab s' sl act} (h : Reach cls pool size (s, c))
    (he : relStep s ab = .ok (s', .context sl act)) :
    c.pruning = some sl ∧ act ≠ [] ∧ act.Nodup ∧ (∀ a ∈ act, a.1 = sl) ∧ ∀ a ∈ c.live, a.1 = sl → a ∈ act := by
  have hi := reach_inv h
  unfold relStep at he
  split at he
  · simp at he
  rename_i p hp
  have hph := hi.phase p hp
  split at he
  · simp at he
  · split at he
    · simp at he
    · split at he <;> simp at he
  · split at he <;> simp at he
  · simp at he
  · split at he <;> simp at he
  · split at he <;> simp at he
  · rename_i act' hk
    split at he
    · simp at he
    · rename_i hne
      simp only [Except.ok.injEq, Prod.mk.injEq, Rel.context.injEq] at he
      obtain ⟨_, rfl, rfl⟩ := he
      simp only [phaseOK, hk] at hph
      obtain ⟨p1, p2, p3, p4, p5, p6, p7⟩ := hph
      refine ⟨?_, by simpa using hne, p6, fun a ha => (p7 a ha).1, p5⟩
      have := hi.pruning
      simpa [hp] using this

/-- C16: completing a release waits exactly while allocations of the slab are live; it never throws, and once it is done
the slab is not one of the class. -/
theorem complete_spec {cls pool size s c sl} (h : Reach cls pool size (s, c)) (ho : sl ∈ c.opens) :
    ((∃ s', completeRelease s sl = .ok s') ↔ ∀ a ∈ c.live, a.1 ≠ sl) ∧
    ((∃ a ∈ c.live, a.1 = sl) → completeRelease s sl = .error .disabled) :=
  complete_iff (reach_inv h) ho

/-- C16: a slab that a release hands back at once, early or at its end has no live allocation, was a slab of the class, and is not one any more
(so that, by `alloc_fresh`, nothing is allocated from it until it is added again). -/
theorem released_empty {cls pool size s c} (h : Reach cls pool size (s, c)) :
    (∀ hint r s' sl, relStart s hint r = .ok (s', some sl) → sl ∈ c.slabs ∧ (∀ a ∈ c.live, a.1 ≠ sl) ∧ sl ∉ c.slabs.erase sl ∧
        (s'.hdr sl).cls = -1 ∧ (s'.hdr sl).marked = false) ∧
    (∀ ab s' sl, relStep s ab = .ok (s', .released sl) → sl ∈ c.slabs ∧ (∀ a ∈ c.live, a.1 ≠ sl) ∧ sl ∉ c.slabs.erase sl ∧
        (s'.hdr sl).cls = -1 ∧ (s'.hdr sl).marked = false) ∧
    (∀ s' sl, sl ∈ c.opens → completeRelease s sl = .ok s' → sl ∈ c.slabs ∧ (∀ a ∈ c.live, a.1 ≠ sl) ∧ sl ∉ c.slabs.erase sl ∧
        (s'.hdr sl).cls = -1 ∧ (s'.hdr sl).marked = false) := by
  have hi := reach_inv h
  have hne : ∀ sl, sl ∉ c.slabs.erase sl := fun sl => hi.slabsNd.not_mem_erase
  refine ⟨?_, ?_, ?_⟩
  · intro hint r s' sl he
    have hi' := inv_relStart hi he
    obtain ⟨sl', hsl, _, _, _, _, hmk, hcase⟩ := relStart_cases he
    rcases hcase with ⟨hm, h1, rfl⟩ | ⟨_, _, h1, _⟩
    · cases h1
      refine ⟨(hi.slabs _).2 (Or.inl hm), ?_, hne sl, by simp [Hdr.assign], by simp [Hdr.assign, hmk]⟩
      intro a ha hasl
      have := hi'.live_slab (a := a) (by simpa [Client.afterStart] using ha)
      simp only [Client.afterStart] at this
      exact hne sl (hasl ▸ this)
    · simp at h1
  · intro ab s' sl he
    have hi' := inv_relStep hi he
    have hlv : ∀ a ∈ c.live, a.1 ≠ sl := by
      intro a ha hasl
      have := hi'.live_slab (a := a) (by simpa [Client.afterStep] using ha)
      simp only [Client.afterStep] at this
      exact hne sl (hasl ▸ this)
    unfold relStep at he
    split at he
    · simp at he
    rename_i p hp
    have hpr : c.pruning = some p.slab := by rw [hi.pruning]; simp only [hp]; rfl
    split at he
    · simp at he
    · split at he
      · simp at he
      · split at he <;> simp at he
    · split at he <;> simp at he
    · simp at he
    · split at he <;> simp at he
    · split at he <;> simp at he
    · split at he
      · simp only [Except.ok.injEq, Prod.mk.injEq, Rel.released.injEq] at he
        obtain ⟨rfl, rfl⟩ := he
        exact ⟨(hi.slabs _).2 (Or.inr (Or.inr ((hi.maps _).2 (Or.inr hpr)))), hlv, hne _, by simp [Hdr.clear], by simp [Hdr.clear]⟩
      · simp at he
  · intro s' sl ho he
    refine ⟨(hi.slabs _).2 (Or.inr (Or.inr ((hi.maps _).2 (Or.inl ho)))), (complete_iff hi ho).1.1 ⟨_, he⟩, hne _, ?_⟩
    unfold completeRelease at he
    split at he
    · simp at he
    split at he
    · simp at he
    split at he
    · simp at he
    · simp at he
    · simp only [Except.ok.injEq] at he
      subst he
      simp [Hdr.clear]

/-- C16: aborting an open release, or a running one through shouldAbortFn, gives back to the free list exactly the allocations of the slab that are not live. -/
theorem abort_restores {cls pool size s c} (h : Reach cls pool size (s, c)) :
    (∀ sl ∈ c.opens, ∃ s', abortRelease s sl = .ok s' ∧
      ∀ i < 4194304 / size, s'.ac.freed.count (sl, i * size) = if (sl, i * size) ∈ c.live then 0 else 1) ∧
    (∀ ab s' sl, relStep s ab = .ok (s', .thrown sl) →
      ∀ i < 4194304 / size, s'.ac.freed.count (sl, i * size) = if (sl, i * size) ∈ c.live then 0 else 1) := by
  have hi := reach_inv h
  have key : ∀ {s' : CS} {c' : Client} {sl : Nat}, Inv cls pool size s' c' → c'.live = c.live → s'.ac.map sl = none →
      sl ∈ s'.ac.allocated → (∀ a : Addr, a.1 = sl → pc s'.ac.prune a = 0) → s'.ac.cur ≠ some sl →
      ∀ i < 4194304 / size, s'.ac.freed.count (sl, i * size) = if (sl, i * size) ∈ c.live then 0 else 1 := by
    intro s' c' sl hi' hl hm hal hpc hcur i hilt
    have e := hi'.cnt (sl, i * size)
    have hc : chunk size (sl, i * size) := (chunk_mul hi.size0).2 hilt
    rw [hpc _ rfl, hl] at e
    simp [unc, hcur, bit, hm, own, hc, hal] at e
    have hnd := live_nodup hi
    rw [hnd.count] at e
    split at e <;> simp_all
  constructor
  · intro sl ho
    obtain ⟨s', he⟩ := abort_ok hi ho
    refine ⟨s', he, ?_⟩
    have hi' := inv_abort hi ho he
    have hms := (hi.maps sl).2 (Or.inl ho)
    have hop := hi.openFree
    have hx := (hi.excl sl hms).2
    have hcur : s.ac.cur ≠ some sl := fun g => hx (hi.cur _ g)
    unfold abortRelease at he
    split at he
    · simp at he
    simp only [Except.ok.injEq] at he
    subst he
    exact key hi' rfl (by simp) (by simp) (fun a ha => (hop a (ha ▸ ho)).2) hcur
  · intro ab s' sl he
    have hi' := inv_relStep hi he
    unfold relStep at he
    split at he
    · simp at he
    rename_i p hp
    have hpr : c.pruning = some p.slab := by rw [hi.pruning]; simp only [hp]; rfl
    split at he
    · simp at he
    · split at he
      · simp at he
      · split at he <;> simp at he
    · split at he <;> simp at he
    · simp at he
    · split at he
      · simp at he
      · simp only [Except.ok.injEq, Prod.mk.injEq, Rel.thrown.injEq] at he
        obtain ⟨rfl, rfl⟩ := he
        have hx := (hi.excl p.slab ((hi.maps _).2 (Or.inr hpr))).2
        exact key hi' rfl (by simp) (by simp) (fun a _ => rfl) (fun g => hx (hi.cur _ g))
    · split at he <;> simp at he
    · split at he <;> simp at he

/-- C16: none of the checks that the code says cannot fail ever fails. -/
theorem never_corrupt {cls pool size s c} (h : Reach cls pool size (s, c)) :
    (∀ hint r, relStart s hint r ≠ .error .corrupt) ∧ (∀ ab, relStep s ab ≠ .error .corrupt) ∧
    (∀ sl ∈ c.opens, abortRelease s sl ≠ .error .corrupt ∧ completeRelease s sl ≠ .error .corrupt ∧
      allFreed s sl ≠ .error .corrupt) ∧
    (∀ a ∈ c.live, free s a ≠ .error .corrupt) := by
  have hi := reach_inv h
  refine ⟨fun hint r => relStart_corrupt hi hint r, ?_, ?_, ?_⟩
  · intro ab he
    cases hp : c.pruning with
    | none =>
      have hpn : s.ac.prune = none := by
        have := hi.pruning; simp only [hp] at this
        cases hx : s.ac.prune <;> simp [hx] at this ⊢
      simp [relStep, hpn] at he
    | some sl =>
      obtain ⟨s', o, g⟩ := relStep_ok hi hp ab
      simp only at g
      rw [g] at he; cases he
  · intro sl ho
    obtain ⟨bits, hm⟩ := Option.isSome_iff_exists.1 ((hi.maps sl).2 (Or.inl ho))
    simp only at hm
    refine ⟨?_, ?_, ?_⟩
    · simp [abortRelease, hm]
    · have hc := complete_iff hi ho
      intro he
      by_cases hl : ∀ a ∈ c.live, a.1 ≠ sl
      · obtain ⟨s', g⟩ := hc.1.2 hl
        simp only at g
        rw [g] at he; cases he
      · have g := hc.2 (by simpa using hl)
        simp only at g
        rw [g] at he; cases he
    · simp [allFreed, hm]
  · intro a ha he
    obtain ⟨s', g⟩ := free_ok hi ha
    simp only at g
    rw [g] at he; cases he

theorem bit_chunk {cls pool size s c sl bits} (h : Inv cls pool size s c) (ho : sl ∈ c.opens) (hm : s.ac.map sl = some bits)
    {i : Nat} (hi : i < KS / size) : bits[i]? = some true ↔ (sl, i * size) ∉ c.live := by
  have hc : chunk size (sl, i * size) := (chunk_mul h.size0).2 hi
  have e := h.cnt (sl, i * size)
  have h2 := h.openFree (sl, i * size) ho
  have h4 := (h.excl sl (by simp [hm])).2
  have h5 : unc size s.ac.off s.ac.cur (sl, i * size) = 0 := by
    unfold unc; rw [if_neg]; rintro ⟨g, _⟩; exact h4 (h.cur _ g)
  rw [h2.1, h2.2, h5, (live_nodup h).count] at e
  simp only [own, hc, hm, bit, Nat.mul_div_cancel _ h.size0] at e
  simp at e
  split at e <;> split at e <;> simp_all

/-- C16: during an open release, an allocation of the slab counts as freed exactly if it is not live; everything counts as
freed exactly if nothing of the slab is live. -/
theorem freed_iff {cls pool size s c sl} (h : Reach cls pool size (s, c)) (ho : sl ∈ c.opens) :
    (∀ i < 4194304 / size, isAllocFreed s sl (sl, i * size) = .ok (decide ((sl, i * size) ∉ c.live))) ∧
    allFreed s sl = .ok (decide (∀ a ∈ c.live, a.1 ≠ sl)) := by
  have hi := reach_inv h
  obtain ⟨bits, hm⟩ := Option.isSome_iff_exists.1 ((hi.maps sl).2 (Or.inl ho))
  simp only at hm
  have hd := hi.hdrs sl ((hi.slabs sl).2 (by simp [hm]))
  constructor
  · intro i hlt
    have hb := bit_chunk hi ho hm hlt
    have hmk : (s.hdr sl).marked = true := by have := hd.2.2.2.2; simp only [hm] at this; exact this
    have hc1 := hi.hcls; have hs1 := hi.hsize
    simp only at hc1 hs1 hd
    unfold isAllocFreed
    simp only [CS.header, hd.1, if_true, hd.2.2.1, hc1, hmk, hm, ne_eq, not_true, if_false, hs1, Nat.mul_div_cancel _ hi.size0]
    congr 1
    have hlen := hi.bits _ _ hm
    have hlt' : i < bits.length := by omega
    rw [List.getD_eq_getElem?_getD]
    rw [List.getElem?_eq_getElem hlt'] at hb ⊢
    simp at hb ⊢
    by_cases hl : (sl, i * size) ∈ c.live
    · simp [hl] at hb ⊢; exact hb
    · simp [hl] at hb ⊢; exact hb
  · have hal := all_iff hi ho hm
    unfold allFreed
    simp only [hm]
    congr 1
    by_cases hl : ∀ a ∈ c.live, a.1 ≠ sl
    · rw [hal.2 hl, decide_eq_true hl]
    · rw [decide_eq_false hl]
      cases hb : bits.all id
      · rfl
      · exact absurd (hal.1 hb) hl

/-- C16: iterating over a slab of the class, unless it is skipped, visits every live allocation of it, and only positions of it. -/
theorem forEach_covers {cls pool size s c sl} (h : Reach cls pool size (s, c)) :
    forEachAlloc s sl = [] ∨
    (sl ∈ c.slabs ∧ sl ∉ c.opens ∧ c.pruning = none ∧ (∀ a ∈ c.live, a.1 = sl → a ∈ forEachAlloc s sl) ∧ ∀ a ∈ forEachAlloc s sl, a.1 = sl ∧ a.2 + size ≤ 4194304) := by
  have hi := reach_inv h
  unfold forEachAlloc
  split
  · exact Or.inl rfl
  rename_i hpr
  split
  · exact Or.inl rfl
  rename_i hd hh
  split
  · exact Or.inl rfl
  right
  have hs := hi.hsize
  simp only at hs
  unfold CS.header at hh
  split at hh
  swap
  · simp at hh
  cases hh
  rename_i hcond
  have hmem : sl ∈ c.slabs := by
    by_contra hns
    apply hi.foreign sl hns
    rw [← hi.hcls, ← hi.hpool]
    simp only
    tauto
  refine ⟨hmem, ?_, ?_, ?_, ?_⟩
  · intro ho
    have h1 := (hi.hdrs sl hmem).2.2.2.2
    rw [(hi.maps sl).2 (Or.inl ho)] at h1
    simp only at h1
    tauto
  · have := hi.pruning
    simp only at this
    rw [this]
    cases hx : s.ac.prune <;> simp [hx] at hpr ⊢
  · intro a ha hsl
    have hc := (hi.live_facts ha).2.2.2.2.2.1
    simp only [List.mem_map, List.mem_range, AC.per, hs]
    exact ⟨a.2 / size, hc.2, by rw [← hsl]; exact (chunk_eq hc).symm⟩
  · intro a ha
    simp only [List.mem_map, List.mem_range, AC.per, hs] at ha
    obtain ⟨i, hlt, rfl⟩ := ha
    exact ⟨rfl, chunk_le ((chunk_mul (sl := sl) hi.size0).2 hlt)⟩

/-! ### how long a release runs -/

/-- how many more steps the running release makes if it is not aborted -/
def left (p : Prune) : Nat :=
  match p.phase with
  | .take => 3
  | .loop => 2 * p.freeAllocs.length + 4
  | .scan => 2 * p.freeAllocs.length + 3
  | .back => 2
  | .aborted => 1
  | .collect => 2
  | .finish _ => 1

theorem partitionFree_lt (sl : Nat) : ∀ (k : Nat) (f i n : List Addr),
    (partitionFree sl k f i n).1.length = f.length - k
  | 0, f, i, n => by simp [partitionFree]
  | _ + 1, [], i, n => by simp [partitionFree]
  | k + 1, b :: f, i, n => by
    unfold partitionFree
    split <;> rw [partitionFree_lt] <;> simp

/-- C16: a release ends after at most two steps for each entry of the free list it took, and four more: every step after the first either ends it or brings it nearer to its end, whatever
other threads do in between (they do not touch it). -/
theorem release_ends {s s' : CS} {ab o} {p : Prune} (hp : s.ac.prune = some p) (he : relStep s ab = .ok (s', o)) :
    (∃ p', s'.ac.prune = some p' ∧ (left p' < left p ∨ (p.phase = .take ∧ left p' ≤ 2 * s.ac.freed.length + 4))) ∨
    s'.ac.prune = none := by
  unfold relStep at he
  simp only [hp] at he
  split at he
  · rename_i hk
    simp only [Except.ok.injEq, Prod.mk.injEq] at he
    obtain ⟨rfl, _⟩ := he
    refine Or.inl ⟨_, rfl, Or.inr ⟨hk, ?_⟩⟩
    simp only [left, Prune.scan, partitionFree_lt]; omega
  · rename_i hk
    split at he
    · simp only [Except.ok.injEq, Prod.mk.injEq] at he
      obtain ⟨rfl, _⟩ := he
      refine Or.inl ⟨_, rfl, Or.inl ?_⟩
      simp only [left, hk]; omega
    · split at he
      · simp at he
      · simp only [Except.ok.injEq, Prod.mk.injEq] at he
        obtain ⟨rfl, _⟩ := he
        refine Or.inl ⟨_, rfl, Or.inl ?_⟩
        simp only [left, hk]; omega
  · rename_i hk
    split at he
    · simp only [Except.ok.injEq, Prod.mk.injEq] at he
      obtain ⟨rfl, _⟩ := he
      refine Or.inl ⟨_, rfl, Or.inl ?_⟩
      simp only [left, hk]; omega
    · rename_i hne
      simp only [Except.ok.injEq, Prod.mk.injEq] at he
      obtain ⟨rfl, _⟩ := he
      refine Or.inl ⟨_, rfl, Or.inl ?_⟩
      have : 0 < p.freeAllocs.length := List.length_pos_iff.2 (by simpa using hne)
      simp only [left, hk, Prune.scan, partitionFree_lt, limit]; omega
  · rename_i hk
    simp only [Except.ok.injEq, Prod.mk.injEq] at he
    obtain ⟨rfl, _⟩ := he
    refine Or.inl ⟨_, rfl, Or.inl ?_⟩
    simp [left, hk]
  · split at he
    · simp at he
    · simp only [Except.ok.injEq, Prod.mk.injEq] at he
      obtain ⟨rfl, _⟩ := he
      exact Or.inr rfl
  · rename_i hk
    split at he
    · simp at he
    · simp only [Except.ok.injEq, Prod.mk.injEq] at he
      obtain ⟨rfl, _⟩ := he
      refine Or.inl ⟨_, rfl, Or.inl ?_⟩
      simp [left, hk]
  · split at he <;> simp only [Except.ok.injEq, Prod.mk.injEq] at he <;> obtain ⟨rfl, _⟩ := he <;> exact Or.inr rfl

/-- C45: a class without releases is saved, and restoring it gives the same class (the size is at least that of a free-list
hook, as the constructor demands). -/
theorem save_load {cls pool size s c} (h : Reach cls pool size (s, c)) (h5 : 5 ≤ size) (hc : 0 ≤ cls)
    (ho : c.opens = []) (hp : c.pruning = none) :
    ∃ v, s.ac.save = .ok v ∧ AC.load v pool (fun o => o.bind s.header) = .ok s.ac := by
  have hi := reach_inv h
  have hact := hi.active
  simp only [ho] at hact
  refine ⟨_, by unfold AC.save; rw [if_neg (by simp at hact; omega)], ?_⟩
  have hmap : s.ac.map = fun _ => none := by
    funext x
    cases hm : s.ac.map x with
    | none => rfl
    | some b =>
      have := (hi.maps x).1 (by simp [hm])
      simp [ho, hp] at this
  have hpn : s.ac.prune = none := by
    have := hi.pruning; simp only [hp] at this
    cases hx : s.ac.prune <;> simp [hx] at this ⊢
  have hsz := hi.hsize; have hcl := hi.hcls; have hpo := hi.hpool; have hks := hi.sizeKS
  simp only at hsz hcl hpo
  have hcur := hi.cur; have hhd := hi.hdrs; have hsl := hi.slabs
  simp only at hcur hhd hsl
  have : ({ cls := s.ac.cls, pool := pool, size := s.ac.size, off := s.ac.off, cur := s.ac.cur, allocated := s.ac.allocated,
            freeSlabs := s.ac.freeSlabs, freed := s.ac.freed, can := s.ac.can, active := 0, map := fun _ => none, prune := none } : AC) = s.ac := by
    have ha : s.ac.active = 0 := by simpa using hact
    generalize s.ac = ac at *
    cases ac
    simp_all
  unfold AC.load
  simp only
  rw [this, if_pos]
  unfold AC.check
  cases hcu : s.ac.cur with
  | none => simp [hsz, hcl]; omega
  | some x =>
    have h1 := hcur x hcu
    have h2 := hhd x ((hsl x).2 (Or.inr (Or.inl h1)))
    simp [hsz, hcl, CS.header, h2.1, h2.2.2.1, h1]; omega

end Verif.AllocClass
