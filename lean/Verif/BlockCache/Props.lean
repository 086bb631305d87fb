import Verif.BlockCache.Inv4
import Mathlib.Data.List.Induction
/-
Properties C26 (regions) and C27 (lookups) of the large-object flash engine.

Specification: `Holds`, `Value` (the value of a key after a prefix of the updates), both independent of the model's steps.
Hypotheses: regions of at most 2^30 bytes (BlockCache.cpp:75-79 rejects larger ones) and, except for `slots_disjoint`, no fault: no flush given up, no reclaim that could not read its region or
met a bad header or an exception.  `Faults.lean` shows that with a fault the claims are false of the code as written.
-/
set_option linter.unusedSectionVars false
namespace Verif.BlockCache
open Verif

section
variable {K V H : Type} [DecidableEq K] [DecidableEq V] [DecidableEq H]

/-- The thread has region `r` open for reading. -/
def Holds (x : Rd K V) (r : Nat) : Prop :=
  (∃ q e p t, x.pc = .opened q r e p t) ∨ (∃ e p t, x.pc = .valid r e p t) ∨ (∃ p, x.pc = .failed r p) ∨
  (∃ e p t res, x.pc = .read r e p t res) ∨ (∃ p t res, x.pc = .close r p t res)

theorem holds_iff (x : Rd K V) (r : Nat) : Holds x r ↔ openOn r true x = true ∨ openOn r false x = true := by
  obtain ⟨k, t0, pc⟩ := x
  cases pc <;> simp only [Holds, openOn, reduceCtorEq, exists_const, false_or, or_false, RPc.opened.injEq, RPc.valid.injEq,
    RPc.failed.injEq, RPc.read.injEq, RPc.close.injEq, Bool.and_eq_true, beq_iff_eq, Bool.false_eq_true] <;> grind

theorem contig_pairwise {sz : K → V → Nat} {l : List (Alloc K V)} {n : Nat} (h : Contig sz l n) :
    l.Pairwise (fun newer older => older.stop ≤ newer.start) := by
  induction l generalizing n with
  | nil => exact .nil
  | cons a l ih =>
    obtain ⟨h1, h2, h3, h4⟩ := h
    refine List.pairwise_cons.2 ⟨fun b hb => (contig_stop_le h4 hb).2.1, ih h4⟩

/-- C26: the slots a region has handed out since its last reset are within the region, not empty, have the size of their
entries, and each starts where or after the one before stops — in every state, whatever failed. -/
theorem slots_disjoint {c : Cfg K V H} {s : St K V H} (hRS : c.RS ≤ 2 ^ 30) (h : Reach c s) (r : Nat) :
    (s.reg r).alloc.Pairwise (fun newer older => older.stop ≤ newer.start) ∧
    ∀ x ∈ (s.reg r).alloc, x.start < x.stop ∧ x.stop ≤ c.RS ∧ x.stop - x.start = c.sz x.slot.key x.slot.val := by
  have i := inv0_reach hRS h
  refine ⟨contig_pairwise (i.contig r), fun x hx => ?_⟩
  have := contig_stop_le (i.contig r) hx
  have := i.bound r
  omega

/-! ### Writers -/

theorem w_distinct {c : Cfg K V H} {s : St K V H} (hRS : c.RS ≤ 2 ^ 30) (h : Reach c s) (hf : s.fault = false) :
    s.ws.Pairwise (fun w w' => w.rid = w'.rid → w.stop ≠ w'.stop) := by
  induction h with
  | init dev => exact .nil
  | @step s s' a hr he ih =>
    have hf' := fault_mono he hf
    have ih := ih hf'
    have ⟨i0, i⟩ := inv_reach hRS hr
    have ⟨i1, i2⟩ := i hf'
    have sym : ∀ {x y : W K V}, (x.rid = y.rid → x.stop ≠ y.stop) → (y.rid = x.rid → y.stop ≠ x.stop) := by
      intro x y h e; exact fun e' => h e.symm e'.symm
    have hup : ∀ {w w' : W K V}, w ∈ s.ws → w'.rid = w.rid → w'.stop = w.stop →
        (w' :: s.ws.erase w).Pairwise (fun w w' => w.rid = w'.rid → w.stop ≠ w'.stop) := by
      intro w w' hw h1 h2
      have := ((List.perm_cons_erase hw).pairwise_iff (R := fun w w' : W K V => w.rid = w'.rid → w.stop ≠ w'.stop) sym).1 ih
      rw [List.pairwise_cons] at this ⊢
      rw [h1, h2]; exact this
    have hal : ∀ {r k v g st old}, allocate c (s.reg r) k v = some (g, st) →
        ((⟨k, v, r, st, g.last, .alloc, old⟩ : W K V) :: s.ws).Pairwise (fun w w' => w.rid = w'.rid → w.stop ≠ w'.stop) := by
      intro r k v g st old hg
      refine List.pairwise_cons.2 ⟨fun w hw e e' => ?_, ih⟩
      obtain ⟨a1, a2, a3, rfl, rfl⟩ := allocate_spec hg
      simp only at e e'
      have := contig_stop_le (i0.contig w.rid) (i2.wIn w hw)
      have hb := i0.bound r
      rw [Nat.mod_eq_of_lt (by omega)] at e'
      simp only [W.al] at this
      rw [← e] at this
      omega
    have hers : ∀ w, (s.ws.erase w).Pairwise (fun w w' => w.rid = w'.rid → w.stop ≠ w'.stop) :=
      fun w => ih.sublist List.erase_sublist
    exec_cases a he <;> (try simp only [setPlace, setReg, setRd, startW]) <;>
      first
      | exact ih
      | exact hers _
      | exact hal (by assumption)
      | (simp only [setW, writeW]; exact hup (by simp_all) rfl rfl)
  | restart _ hq hr _ => rw [hr.ws, hq.ws]; exact .nil
  | wipe _ hq hr _ => rw [hr.ws, hq.ws]; exact .nil

/-- C26: two threads that are writing to the same region at the same time write to disjoint ranges of it, inside the region. -/
theorem writers_disjoint {c : Cfg K V H} {s : St K V H} (hRS : c.RS ≤ 2 ^ 30) (h : Reach c s) (hf : s.fault = false) :
    s.ws.Pairwise (fun w w' => w.rid = w'.rid → w.stop ≤ w'.start ∨ w'.stop ≤ w.start) ∧
    ∀ w ∈ s.ws, w.start < w.stop ∧ w.stop ≤ c.RS ∧ w.stop - w.start = c.sz w.key w.val := by
  have ⟨i0, i⟩ := inv_reach hRS h
  have ⟨i1, i2⟩ := i hf
  constructor
  · refine (w_distinct hRS h hf).imp_of_mem ?_
    intro w w' hw hw' hd e
    have h1 := i2.wIn w hw
    have h2 := i2.wIn w' hw'
    rw [← e] at h2
    rcases contig_disj (i0.contig w.rid) h1 h2 with he | hd' | hd'
    · exact absurd (congrArg Alloc.stop he) (hd e)
    · exact .inl hd'
    · exact .inr hd'
  · intro w hw
    have := (slots_disjoint hRS h w.rid).2 _ (i2.wIn w hw)
    exact this

/-! ### Regions in use -/

theorem no_reader {s : St K V H} (i1 : Inv1 s) {r : Nat} (hp : (s.reg r).phys = 0) (hm : (s.reg r).inmem = 0) :
    ∀ x ∈ s.rds, ¬ Holds x r := by
  intro x hx hh
  rw [i1.cP, List.countP_eq_zero] at hp
  rw [i1.cM, List.countP_eq_zero] at hm
  rcases (holds_iff x r).1 hh with h | h
  · exact hp x hx h
  · exact hm x hx h

/-- C26: a region becomes free, or forgets one of its slots, only when no thread is writing to it and no thread has it open for
reading. -/
theorem reset_exclusive {c : Cfg K V H} {s s' : St K V H} {a : Act K V} (hRS : c.RS ≤ 2 ^ 30) (h : Reach c s)
    (he : exec c s a = some s') (hf : s'.fault = false) (r : Nat)
    (hr : (s.place r ≠ .clean ∧ s'.place r = .clean) ∨ ∃ x ∈ (s.reg r).alloc, x ∉ (s'.reg r).alloc) :
    (∀ w ∈ s.ws, w.rid ≠ r) ∧ ∀ x ∈ s.rds, ¬ Holds x r := by
  have ⟨i0, i⟩ := inv_reach hRS h
  have ⟨i1, i2⟩ := i (fault_mono he hf)
  have hc : s.place r ≠ .clean ∧ s'.place r = .clean := by
    rcases hr with hr | ⟨x, hx, hx'⟩
    · exact hr
    · constructor
      · intro hc
        rw [i2.cln r hc] at hx
        simp at hx
      · exact Decidable.byContradiction fun hc => hx' (alloc_mono he i1 hc hx)
  have ⟨h1, h2, h3⟩ := fr_cln he i1 r hc.1 hc.2
  refine ⟨?_, no_reader i1 h2 h3⟩
  rintro w hw rfl
  have := i1.wPl w hw
  rw [h1] at this
  simp [Place.wr] at this

/-- C26: a region handed to an allocator has no slots, no writers and no readers, and its readers and writers are not blocked. -/
theorem clean_fresh {c : Cfg K V H} {s : St K V H} (hRS : c.RS ≤ 2 ^ 30) (h : Reach c s) (hf : s.fault = false) (r : Nat)
    (hr : s.place r = .clean) :
    (s.reg r).alloc = [] ∧ (s.reg r).last = 0 ∧ (∀ w ∈ s.ws, w.rid ≠ r) ∧ (s.reg r).block = false ∧
    (∀ h e, s.index h ≠ some (r, e)) := by
  have ⟨i0, i⟩ := inv_reach hRS h
  have ⟨i1, i2⟩ := i hf
  have ha := i2.cln r hr
  refine ⟨ha, ?_, ?_, (i1.flg2 r (.inr hr)).1, ?_⟩
  · have := i0.contig r
    rw [ha] at this
    exact this
  · rintro w hw rfl
    have := i1.wPl w hw
    rw [hr] at this
    simp [Place.wr] at this
  · intro h e hi
    have := (i2.ix h r e hi).1
    rw [hr] at this
    simp [Place.live] at this

/-- C26: the counters of a region count the threads that use it, so closing never takes one below zero. -/
theorem counters_exact {c : Cfg K V H} {s : St K V H} (hRS : c.RS ≤ 2 ^ 30) (h : Reach c s) (hf : s.fault = false) (r : Nat) :
    (s.reg r).writers = (s.ws.filter (fun w => w.rid = r)).length ∧
    ((s.reg r).phys + (s.reg r).inmem = 0 ↔ ∀ x ∈ s.rds, ¬ Holds x r) := by
  have ⟨i0, i⟩ := inv_reach hRS h
  have ⟨i1, i2⟩ := i hf
  refine ⟨?_, ?_, ?_⟩
  · rw [i1.cW, List.countP_eq_length_filter]
    congr 1
  · intro h0
    exact no_reader i1 (by omega) (by omega)
  · intro hn
    have h1 : (s.reg r).phys = 0 := by
      rw [i1.cP, List.countP_eq_zero]
      intro x hx ho
      exact hn x hx ((holds_iff x r).2 (.inl ho))
    have h2 : (s.reg r).inmem = 0 := by
      rw [i1.cM, List.countP_eq_zero]
      intro x hx ho
      exact hn x hx ((holds_iff x r).2 (.inr ho))
    omega

/-- C26: a thread that has allocated a slot finds the buffer of its region attached, until it is done; a reader whose region
was validated finds what it needs to read. -/
theorem buffers_attached {c : Cfg K V H} {s : St K V H} (hRS : c.RS ≤ 2 ^ 30) (h : Reach c s) (hf : s.fault = false) :
    (∀ w ∈ s.ws, (s.reg w.rid).buf ≠ none) ∧
    (∀ x ∈ s.rds, ∀ r e t, x.pc = .valid r e false t → (s.reg r).buf ≠ none) ∧
    (∀ x ∈ s.rds, ∀ r e p t, x.pc = .valid r e p t → ∃ s', exec c s (.rdRead x) = some s') := by
  have ⟨i0, i⟩ := inv_reach hRS h
  have ⟨i1, i2⟩ := i hf
  have hb : ∀ x ∈ s.rds, ∀ r e t, x.pc = .valid r e false t → (s.reg r).buf ≠ none := by
    intro x hx r e t hpc hn
    have h1 := i1.mPl x hx r (by simp [openOn, hpc])
    have := i1.bufP r
    rw [hn, h1] at this
    simp at this
  refine ⟨?_, hb, ?_⟩
  · intro w hw hn
    have h1 := i1.wPl w hw
    have := i1.bufP w.rid
    rw [hn] at this
    revert h1 this
    cases s.place w.rid <;> simp [Place.wr, Place.hasBuf]
  · intro x hx r e p t hpc
    simp only [exec, if_pos hx, hpc]
    have : ∃ res, readEntry (s.reg r) p e x.key = some res := by
      unfold readEntry
      cases p with
      | true =>
        simp only [if_true]
        cases (s.reg r).dev e with
        | none => exact ⟨_, rfl⟩
        | some sl => simp only; split <;> exact ⟨_, rfl⟩
      | false =>
        have := hb x hx r e t hpc
        simp only [Bool.false_eq_true, if_false]
        cases hbuf : (s.reg r).buf with
        | none => exact absurd hbuf this
        | some b =>
          simp only
          cases b e with
          | none => exact ⟨_, rfl⟩
          | some sl => simp only; split <;> exact ⟨_, rfl⟩
    obtain ⟨res, hres⟩ := this
    rw [hres]
    exact ⟨_, rfl⟩

/-- C26: a region is written to the device only when no thread is writing to it, and the device then holds the entry of every
slot of the region. -/
theorem flush_complete {c : Cfg K V H} {s s' : St K V H} (hRS : c.RS ≤ 2 ^ 30) (h : Reach c s) (hf : s'.fault = false) (r : Nat)
    (he : exec c s (.flOk r) = some s') :
    (∀ w ∈ s.ws, w.rid ≠ r) ∧ (s'.reg r).alloc = (s.reg r).alloc ∧
    ∀ x ∈ (s'.reg r).alloc, (s'.reg r).dev x.stop = some x.slot := by
  have ⟨i0, i⟩ := inv_reach hRS h
  have ⟨i1, i2⟩ := i (fault_mono he hf)
  have ⟨j0, j⟩ := inv_reach hRS (.step _ h he)
  have ⟨j1, j2⟩ := j hf
  simp only [exec] at he
  split at he
  · rename_i hp
    split at he
    · simp at he
    · simp only [Option.some.injEq] at he
      refine ⟨?_, ?_, ?_⟩
      · rintro w hw rfl
        have := i1.wPl w hw
        rw [hp] at this
        simp [Place.wr] at this
      · subst he; simp [setPlace, setReg]
      · intro x hx
        exact complete j1 j2.pen (by subst he; simp [setPlace, setReg, Place.onDev]) hx
  · simp at he

/-! ### Lookups -/

/-- The value of `k` after the updates `l`, oldest first. -/
inductive Value : List (K × Option V) → K → Option V → Prop
  | nil (k) : Value [] k none
  | hit (l k v) : Value (l ++ [(k, v)]) k v
  | other (l k k' v w) : k' ≠ k → Value l k w → Value (l ++ [(k', v)]) k w

theorem value_valAt (l : List (K × Option V)) (k : K) : Value l k (valAt l l.length k) := by
  induction l using List.reverseRecOn with
  | nil => exact .nil k
  | append_singleton l u ih =>
    rw [valAt_snoc]
    split
    · rename_i h; subst h; exact .hit l u.1 u.2
    · rename_i h; exact .other l k u.1 u.2 _ h ih

theorem value_unique {l : List (K × Option V)} {k : K} {v w : Option V} (h : Value l k v) (h' : Value l k w) : v = w := by
  induction h with
  | nil k => 
    generalize hl : ([] : List (K × Option V)) = l' at h'
    cases h' <;> simp_all
  | hit l k v =>
    generalize hl : l ++ [(k, v)] = l' at h'
    cases h' with
    | nil => simp at hl
    | hit l2 k v2 => have := List.append_inj' hl rfl; simp_all
    | other l2 k k' v2 w hne h => have := List.append_inj' hl rfl; simp_all
  | other l k k' v w hne h ih =>
    generalize hl : l ++ [(k', v)] = l' at h'
    cases h' with
    | nil => simp at hl
    | hit l2 k v2 => have := List.append_inj' hl rfl; simp_all
    | other l2 k k2 v2 w hne h => have := List.append_inj' hl rfl; simp_all

theorem value_take {l : List (K × Option V)} {n : Nat} {k : K} (h : n ≤ l.length) : Value (l.take n) k (valAt l n k) := by
  have := value_valAt (l.take n) k
  rwa [show valAt (l.take n) (l.take n).length k = valAt l n k by
    rw [valAt, List.take_length, valAt]] at this

/-- C27: a lookup that returns `v` for `k` returns the value that `k` had — by the inserts and removes of exactly that key —
at a moment between the beginning and the end of the lookup. -/
theorem lookup_linearizable {c : Cfg K V H} {s : St K V H} (hRS : c.RS ≤ 2 ^ 30) (h : Reach c s) (hf : s.fault = false)
    {x : Rd K V} (hx : x ∈ s.rds) {t1 t2 : Nat} {v : V} (hd : x.pc = .done t1 t2 (.ok v)) :
    ∃ n, x.t0 ≤ n ∧ n ≤ t2 ∧ t2 ≤ s.log.length ∧ Value (s.log.take n) x.key (some v) := by
  have ⟨i0, i⟩ := inv_reach hRS h
  have ⟨i1, i2⟩ := i hf
  have := i2.rd x hx
  simp only [RdOk, hd] at this
  obtain ⟨h1, h2, h3, h4⟩ := this
  refine ⟨t1, h1, h2, h3, ?_⟩
  have := value_take (k := x.key) (show t1 ≤ s.log.length by omega)
  rwa [h4 v rfl] at this

theorem value_mid {l m : List (K × Option V)} {k : K} {v : V} (h : Value (l ++ m) k (some v)) :
    Value l k (some v) ∨ (k, some v) ∈ m := by
  induction m using List.reverseRecOn with
  | nil => left; simpa using h
  | append_singleton m u ih =>
    rw [← List.append_assoc] at h
    generalize hl : l ++ m ++ [u] = l' at h
    cases h with
    | hit l2 k v2 => have := List.append_inj' hl rfl; simp_all
    | other l2 k k2 v2 w hne h =>
      have := List.append_inj' hl rfl
      obtain ⟨e1, e2⟩ := this
      subst e1
      rcases ih h with h | h
      · exact .inl h
      · right; simp [h]

/-- C27: a lookup returns the value its key had when it began, or one that was inserted for its key while it ran. -/
theorem lookup_last_or_concurrent {c : Cfg K V H} {s : St K V H} (hRS : c.RS ≤ 2 ^ 30) (h : Reach c s) (hf : s.fault = false)
    {x : Rd K V} (hx : x ∈ s.rds) {t1 t2 : Nat} {v : V} (hd : x.pc = .done t1 t2 (.ok v)) :
    Value (s.log.take x.t0) x.key (some v) ∨ (x.key, some v) ∈ (s.log.take t2).drop x.t0 := by
  obtain ⟨n, h1, h2, h3, h4⟩ := lookup_linearizable hRS h hf hx hd
  have e : s.log.take n = s.log.take x.t0 ++ (s.log.take n).drop x.t0 := by
    have := List.take_append_drop x.t0 (s.log.take n)
    rw [List.take_take, Nat.min_eq_left h1] at this
    exact this.symm
  rw [e] at h4
  rcases value_mid h4 with h | h
  · exact .inl h
  · right
    rw [List.drop_take] at h ⊢
    exact List.take_subset_take_left _ (by omega) h

/-- C27: if nobody updates `k` while a lookup of it runs, the lookup returns the last value inserted, or no value; and nothing
after a remove. -/
theorem lookup_quiet {c : Cfg K V H} {s : St K V H} (hRS : c.RS ≤ 2 ^ 30) (h : Reach c s) (hf : s.fault = false)
    {x : Rd K V} (hx : x ∈ s.rds) {t1 t2 : Nat} {v : V} (hd : x.pc = .done t1 t2 (.ok v))
    (hq : ∀ u ∈ (s.log.take t2).drop x.t0, u.1 ≠ x.key) {w : Option V} (hw : Value (s.log.take x.t0) x.key w) : w = some v := by
  rcases lookup_last_or_concurrent hRS h hf hx hd with h' | h'
  · exact value_unique hw h'
  · exact absurd rfl (hq _ h')

end
end Verif.BlockCache
