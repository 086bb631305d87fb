import Verif.AllocClass.OpStep
namespace Verif.AllocClass
open Verif

/-- A step of a running release keeps the invariant. -/
theorem inv_relStep {cls pool size s c ab s' o} (h : Inv cls pool size s c) (he : relStep s ab = .ok (s', o)) :
    Inv cls pool size s' (c.afterStep ab o) := by
  unfold relStep at he
  split at he
  · simp at he
  rename_i p hp
  have hpr : c.pruning = some p.slab := by rw [h.pruning, hp]; rfl
  have hms : (s.ac.map p.slab).isSome := (h.maps _).2 (Or.inr hpr)
  have hno : p.slab ∉ c.opens := h.pruneNot _ hpr
  have hph := h.phase p hp
  split at he
  · -- take
    rename_i hk
    simp only [phaseOK, hk] at hph
    obtain ⟨p1, p2, p3⟩ := hph
    simp only [Except.ok.injEq, Prod.mk.injEq] at he
    obtain ⟨rfl, rfl⟩ := he
    refine inv_prune (can' := s.ac.can) h hp rfl ?_ ?_ (by simp +contextual) (by simp) (by simp)
    · intro a
      rw [scan_pc]
      simp [pc, p1, p2, p3]
    · have := partitionFree_mem p.slab limit s.ac.freed p.inSlab p.notInSlab (by simp [p2]) (by simp [p3])
      simpa [phaseOK, Prune.scan] using this
  · -- loop
    rename_i hk
    simp only [phaseOK, hk] at hph
    obtain ⟨p1, p2, p3⟩ := hph
    split at he
    · rename_i hab
      simp only [Except.ok.injEq, Prod.mk.injEq] at he
      obtain ⟨rfl, rfl⟩ := he
      exact inv_prune (freed' := s.ac.freed) (can' := s.ac.can) h hp rfl (fun a => rfl) (by simp [phaseOK]) (by simp [hab])
        (by simp [hab]) (by simp [hab])
    · rename_i hab
      split at he
      · simp at he
      rename_i bs hm
      simp only [Except.ok.injEq, Prod.mk.injEq] at he
      obtain ⟨rfl, rfl⟩ := he
      have hle := h.bit_le
      have hcp := fun a => h.chunk_of_pos (a := a)
      obtain ⟨hcls, hpool, hsize, size0, sizeKS, nodup, slabsNd, slabs, excl, hdrs, clsNe, foreign, bits, cur, off, cnt, maps,
        opensNd, pruneNot, pruning, openFree, phase, backAb, active, can⟩ := h
      have hsome : ∀ y, (upd s.ac.map p.slab (some (markFreed size bs p.inSlab)) y).isSome = (s.ac.map y).isSome :=
        fun y => isSome_upd_some hm
      have hab' : (c.aborted || ab) = c.aborted := by simp at hab; simp [hab]
      constructor <;> (try simp only [hsize, hsome, hab', Client.afterStep]) <;> try assumption
      · intro x l hl
        by_cases hxs : x = p.slab
        · subst hxs
          simp at hl
          rw [← hl, markFreed_length]; exact bits _ _ hm
        · rw [upd_ne _ _ hxs] at hl; exact bits _ _ hl
      · intro a
        have e := cnt a
        have l1 := hle a
        rw [hp] at e l1
        simp only [pc] at e l1
        rw [own_upd_some hm, bit_markFreed hm (bits _ _ hm) ?_ (by omega), ← e]
        · simp only [pc, List.count_append, List.count_nil]; omega
        · intro x hx
          refine ⟨p1 x hx, hcp x ?_⟩
          have : 0 < pc s.ac.prune x := by
            rw [hp]; simp only [pc]
            have := List.count_pos_iff.2 hx; omega
          omega
      · intro a ha
        have := openFree a ha
        rw [hp] at this
        simp only [pc, List.count_append, List.count_nil] at this ⊢
        omega
      · intro q hq
        cases hq
        simp only [phaseOK]
        refine ⟨trivial, trivial, ?_⟩
        intro a ha
        rcases List.mem_append.1 ha with ha | ha
        · exact p2 a ha
        · exact p3 a ha
      · intro q hq; cases hq; simp
      · intro h1 h2
        simp only [Bool.or_eq_false_iff, Bool.not_eq_false', List.isEmpty_iff] at h2
        obtain ⟨g1, g2, g3⟩ := can h1 h2.1
        refine ⟨by simp [h2.2, g1], g2, ?_⟩
        simpa [AC.canCarve, hsize] using g3
  · -- scan
    rename_i hk
    simp only [phaseOK, hk] at hph
    obtain ⟨p1, p2, p3⟩ := hph
    split at he
    · rename_i hf
      simp only [Except.ok.injEq, Prod.mk.injEq] at he
      obtain ⟨rfl, rfl⟩ := he
      refine inv_prune (freed' := s.ac.freed) (can' := s.ac.can) h hp rfl (fun a => rfl) ?_ (by simp +contextual) (by simp) ?_
      · simp only [phaseOK]
        exact ⟨by simpa using hf, p1, p2, p3⟩
      · intro _ g1 g2; exact ⟨g2, (h.can g1 g2).1⟩
    · simp only [Except.ok.injEq, Prod.mk.injEq] at he
      obtain ⟨rfl, rfl⟩ := he
      refine inv_prune (freed' := s.ac.freed) (can' := s.ac.can) h hp rfl ?_ ?_ (by simp +contextual) (by simp) ?_
      · intro a; rw [scan_pc]
      · have := partitionFree_mem p.slab limit p.freeAllocs p.inSlab p.notInSlab (by simp [p1]) (by simp [p2])
        simp only [phaseOK, Prune.scan]
        exact ⟨this.1, this.2, p3⟩
      · intro _ g1 g2; exact ⟨g2, (h.can g1 g2).1⟩
  · -- back
    rename_i hk
    have hba := h.backAb p hp (Or.inl hk)
    simp only [Except.ok.injEq, Prod.mk.injEq] at he
    obtain ⟨rfl, rfl⟩ := he
    refine inv_prune (can' := s.ac.can) h hp rfl ?_ ?_ (by simp +contextual) (by simp [hba]) (by simp [hba])
    · intro a; simp only [pc, List.count_append, List.count_nil]; omega
    · simp [phaseOK]
  · -- aborted
    rename_i hk
    simp only [phaseOK, hk] at hph
    split at he
    · simp at he
    rename_i bs hm
    simp only [Except.ok.injEq, Prod.mk.injEq] at he
    obtain ⟨rfl, rfl⟩ := he
    have := inv_restore (pr := none) (op := c.opens) (active' := s.ac.active) h hm rfl
      (Or.inr ⟨rfl, rfl, hno, hpr, rfl, fun a => by rw [hp]; simp [pc, hph.1, hph.2.1, hph.2.2]⟩)
    exact this
  · -- collect
    rename_i hk
    simp only [phaseOK, hk] at hph
    obtain ⟨p1, p2, p3, p4⟩ := hph
    split at he
    · simp at he
    rename_i bs hm
    simp only [Except.ok.injEq, Prod.mk.injEq] at he
    obtain ⟨rfl, rfl⟩ := he
    refine inv_prune (freed' := s.ac.freed) (can' := s.ac.can) h hp rfl (fun a => rfl) ?_ (by simp +contextual) (by simp) ?_
    · have hmem := activeOf_mem (size := size) (sl := p.slab) h.size0 (h.bits _ _ hm)
      simp only [phaseOK, h.hsize]
      refine ⟨p1, p2, p3, p4, ?_, activeOf_nodup h.size0, ?_⟩
      · intro a ha hsl
        rw [hmem]
        obtain ⟨_, _, _, _, hb, hc, _⟩ := h.live_facts ha
        refine ⟨hsl, hc, ?_⟩
        intro hbt
        simp [bit, hc, hsl, hm, hbt] at hb
      · intro a ha
        rw [hmem] at ha
        exact ⟨ha.1, ha.2.1⟩
    · intro _ g1 g2; exact ⟨g2, (h.can g1 g2).1⟩
  · -- finish
    rename_i act hk
    simp only [phaseOK, hk] at hph
    obtain ⟨p1, p2, p3, p4, p5, p6, p7⟩ := hph
    obtain ⟨bs, hm⟩ := Option.isSome_iff_exists.1 hms
    have hpc0 : ∀ a, pc s.ac.prune a = 0 := fun a => by rw [hp]; simp [pc, p1, p2, p3]
    split at he
    · rename_i ha
      simp only [Except.ok.injEq, Prod.mk.injEq] at he
      obtain ⟨rfl, rfl⟩ := he
      have hact : act = [] := by simpa using ha
      have := inv_release (pr := none) (op := c.opens) (active' := s.ac.active) (h' := (s.hdr p.slab).clear) h hm p4 (fun a _ => hpc0 a)
        (fun a ha hsl => by have := p5 a ha hsl; simp [hact] at this) rfl
        (Or.inr ⟨rfl, rfl, hno, hpr, rfl, hpc0⟩)
      exact this
    · simp only [Except.ok.injEq, Prod.mk.injEq] at he
      obtain ⟨rfl, rfl⟩ := he
      obtain ⟨hcls, hpool, hsize, size0, sizeKS, nodup, slabsNd, slabs, excl, hdrs, clsNe, foreign, bits, cur, off, cnt, maps,
        opensNd, pruneNot, pruning, openFree, phase, backAb, active, can⟩ := h
      constructor <;> (try simp only [Client.afterStep]) <;> try assumption
      · intro a
        have := cnt a
        rw [hpc0] at this
        simpa [pc] using this
      · intro x
        rw [maps, hpr]; simp; tauto
      · exact List.nodup_cons.2 ⟨hno, opensNd⟩
      · simp
      · simp
      · intro a ha
        refine ⟨?_, by simp [pc]⟩
        rcases List.mem_cons.1 ha with ha | ha
        · exact count_eq_zero_ne fun x hx => by rw [ha]; exact p4 x hx
        · exact (openFree a ha).1
      · simp
      · simp
      · simp [active]

/-- A running release finds nothing it says cannot be. -/
theorem relStep_ok {cls pool size s c sl} (h : Inv cls pool size s c) (hp : c.pruning = some sl) (ab : Bool) :
    ∃ s' o, relStep s ab = .ok (s', o) := by
  have hms : (s.ac.map sl).isSome := (h.maps _).2 (Or.inr hp)
  obtain ⟨bs, hm⟩ := Option.isSome_iff_exists.1 hms
  rw [h.pruning] at hp
  cases hpr : s.ac.prune with
  | none => simp [hpr] at hp
  | some p =>
    simp [hpr] at hp
    subst hp
    unfold relStep
    simp only [hpr, hm]
    split
    · exact ⟨_, _, rfl⟩
    · split
      · exact ⟨_, _, rfl⟩
      · exact ⟨_, _, rfl⟩
    · split
      · exact ⟨_, _, rfl⟩
      · exact ⟨_, _, rfl⟩
    · exact ⟨_, _, rfl⟩
    · exact ⟨_, _, rfl⟩
    · exact ⟨_, _, rfl⟩
    · split
      · exact ⟨_, _, rfl⟩
      · exact ⟨_, _, rfl⟩

theorem inv_env {cls pool size s c hdr next} (h : Inv cls pool size s c) (h1 : ∀ sl ∈ c.slabs, hdr sl = s.hdr sl)
    (h2 : ∀ sl, sl ∉ c.slabs → ¬ ((hdr sl).cls = s.ac.cls ∧ (hdr sl).pool = s.ac.pool)) (h3 : s.next ≤ next) :
    Inv cls pool size { s with hdr := hdr, next := next } c := by
  obtain ⟨hcls, hpool, hsize, size0, sizeKS, nodup, slabsNd, slabs, excl, hdrs, clsNe, foreign, bits, cur, off, cnt, maps,
    opensNd, pruneNot, pruning, openFree, phase, backAb, active, can⟩ := h
  constructor <;> (try simp only) <;> try assumption
  · intro x hx
    rw [h1 x hx]
    have := hdrs x hx
    grind
  · rw [← hcls, ← hpool]; exact h2

theorem call_inv {cls pool size} {x y : CS × Client} (ih : Inv cls pool size x.1 x.2) (h : Call x y) : Inv cls pool size y.1 y.2 := by
  cases h with
  | addSlab s c sl h1 h2 h3 h4 => exact inv_addSlab ih h1 h2 h3 h4
  | addAlloc s c sl ac r h1 h2 h3 h4 h5 =>
    exact inv_allocate (s := addSlab s sl) (inv_addSlab ih h1 h2 h3 h4) h5
  | alloc s c ac r h1 => exact inv_allocate ih h1
  | free s c a s' h1 h2 => exact inv_free ih h1 h2
  | relStart s c hint r s' o h1 => exact inv_relStart ih h1
  | relStep s c ab s' o h1 => exact inv_relStep ih h1
  | abort s c sl s' h1 h2 => exact inv_abort ih h1 h2
  | complete s c sl s' h1 h2 => exact inv_complete ih h1 h2

theorem reach_inv {cls pool size} {x : CS × Client} (h : Reach cls pool size x) : Inv cls pool size x.1 x.2 := by
  induction h with
  | init hdr next h1 h2 h3 h4 => exact inv_init h1 h2 h3 h4
  | step x y hr hs ih =>
    cases hs with
    | call x y hc => exact call_inv ih hc
    | env s c hdr next h1 h2 h3 => exact inv_env ih h1 h2 h3

end Verif.AllocClass
