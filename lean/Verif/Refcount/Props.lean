import Verif.Refcount.Lemmas
/-!
Properties C01-C04: reference counting of cache items.

Specification.  `Sys` pairs the packed word (the only thing the code has) with what an outside
observer knows: the multiset of outstanding handles (one list entry, naming the holding thread, per
handle), who currently holds the exclusive right and for what purpose, and the membership/flag
switches as last set.  The observer's part is updated only from the *results the code
returns* (`incRef` said ok, `markMoving` said true, ...), so the theorems relate observable history to
the word.  An execution is an arbitrary list of (thread, operation) pairs: every interleaving.
-/
namespace Verif.Refcount

variable {T : Type} [DecidableEq T]

/-- Why the exclusive right is held. -/
inductive Kind where
  | evicting | moving
  deriving DecidableEq, Repr

/-- Operations on one item's `RefcountWithFlags`. -/
inductive Op where
  | inc | dec
  | link | unlink | access | unaccess
  | markEvict | unmarkEvict | markMove | unmarkMove | moveToEvict
  | setFlag (f : Flag) | unsetFlag (f : Flag)
  deriving DecidableEq, Repr

/-- What the caller gets back. -/
inductive Out where
  | throws (e : Err)
  | inc (r : IncResult)
  | ref (v : Word)          -- remaining reference word (decRef / unmark*)
  | mark (r : MarkRes)
  | moved (b : Bool)
  | done
  deriving DecidableEq, Repr

/-- The word together with the observer's knowledge. -/
structure Sys (T : Type) where
  word : Word
  handles : List T
  owner : Option (T × Kind)
  linked : Bool
  accessible : Bool
  flags : Flag → Bool

/-- A freshly constructed item: Refcount.h:553 `refCount_{0}`. -/
def Sys.init : Sys T := ⟨0, [], none, false, false, fun _ => false⟩

/-- Caller obligations (the `XDCHECK`s of Refcount.h:332,387,416 and the RAII discipline of handles):
only a handle holder drops a handle; only the exclusive owner gives up the right. -/
def Legal (s : Sys T) (t : T) : Op → Prop
  | .dec => t ∈ s.handles
  | .unmarkEvict => s.owner = some (t, .evicting)
  | .unmarkMove => s.owner = some (t, .moving)
  | .moveToEvict => s.owner = some (t, .moving)
  | _ => True

/-- One atomic step: run the code on the word, record what the caller learnt. -/
def step (s : Sys T) (t : T) : Op → Sys T × Out
  | .inc => match incRef s.word with
    | .error e => (s, .throws e)
    | .ok (w, .ok) => ({ s with word := w, handles := t :: s.handles }, .inc .ok)
    | .ok (w, r) => ({ s with word := w }, .inc r)
  | .dec => match decRef s.word with
    | .error e => (s, .throws e)
    | .ok (w, v) => ({ s with word := w, handles := s.handles.erase t }, .ref v)
  | .link => ({ s with word := setBit kLinked s.word, linked := true }, .done)
  | .unlink => ({ s with word := clearBit kLinked s.word, linked := false }, .done)
  | .access => ({ s with word := setBit kAccessible s.word, accessible := true }, .done)
  | .unaccess => ({ s with word := clearBit kAccessible s.word, accessible := false }, .done)
  | .markEvict => match markForEviction s.word with
    | (w, .success) => ({ s with word := w, owner := some (t, .evicting) }, .mark .success)
    | (w, r) => ({ s with word := w }, .mark r)
  | .unmarkEvict =>
    let r := unmarkForEviction s.word
    ({ s with word := r.1, owner := none }, .ref r.2)
  | .markMove => match markMoving s.word with
    | (w, true) => ({ s with word := w, owner := some (t, .moving) }, .moved true)
    | (w, false) => ({ s with word := w }, .moved false)
  | .unmarkMove =>
    let r := unmarkMoving s.word
    ({ s with word := r.1, owner := none }, .ref r.2)
  | .moveToEvict =>
    ({ s with word := markForEvictionWhenMoving s.word, owner := s.owner.map (fun o => (o.1, .evicting)) }, .done)
  | .setFlag f => ({ s with word := setBit f.pos s.word, flags := fun g => if g = f then true else s.flags g }, .done)
  | .unsetFlag f => ({ s with word := unSetFlag f s.word, flags := fun g => if g = f then false else s.flags g }, .done)

/-- States reachable by any interleaving of legal operations of any threads. -/
inductive Reach : Sys T → Prop where
  | init : Reach Sys.init
  | step {s : Sys T} (t : T) (op : Op) : Reach s → Legal s t op → Reach (step s t op).1

/-- The moving owner holds one internal reference. -/
def extra : Option (T × Kind) → Nat
  | some (_, .moving) => 1
  | _ => 0

structure Inv (s : Sys T) : Prop where
  count : acc s.word = s.handles.length + extra s.owner
  excl : s.owner.isSome = true → s.handles = []
  bExcl : bit 20 s.word = s.owner.isSome
  bLinked : bit 18 s.word = s.linked
  bAcc : bit 19 s.word = s.accessible
  bFlags : ∀ f : Flag, bit f.pos s.word = s.flags f

theorem Flag.pos_ge (f : Flag) : 21 ≤ f.pos := by cases f <;> decide
theorem Flag.pos_lt (f : Flag) : f.pos < 32 := by cases f <;> decide
theorem Flag.pos_inj {f g : Flag} (h : f.pos = g.pos) : f = g := by
  cases f <;> cases g <;> first | rfl | (exact absurd h (by decide))

private theorem isE (w : Word) : (w &&& bitMask kExclusive != 0) = bit 20 w := isBit_bit 20 (by decide) w
private theorem isL (w : Word) : (w &&& bitMask kLinked != 0) = bit 18 w := isBit_bit 18 (by decide) w
private theorem neAcc (w : Word) : (w &&& kAccessRefMask != 0) = !decide (acc w = 0) := by
  rw [bne, and_access_eq_zero]

omit [DecidableEq T] in
theorem inv_init : Inv (Sys.init : Sys T) := by
  refine ⟨rfl, by simp [Sys.init], ?_, ?_, ?_, ?_⟩
  · show bit 20 0#32 = false; decide
  · show bit 18 0#32 = false; decide
  · show bit 19 0#32 = false; decide
  · intro f; cases f <;> (show bit _ 0#32 = false; decide)

omit [DecidableEq T] in
/-- a change of the word that keeps all high bits and the count -/
private theorem highs {s : Sys T} (hi : Inv s) {w : Word} (hw : ∀ i, 18 ≤ i → bit i w = bit i s.word) :
    bit 20 w = s.owner.isSome ∧ bit 18 w = s.linked ∧ bit 19 w = s.accessible ∧
    ∀ f : Flag, bit f.pos w = s.flags f :=
  ⟨by rw [hw 20 (by decide)]; exact hi.bExcl, by rw [hw 18 (by decide)]; exact hi.bLinked,
   by rw [hw 19 (by decide)]; exact hi.bAcc,
   fun f => by rw [hw _ (by have := f.pos_ge; omega)]; exact hi.bFlags f⟩

omit [DecidableEq T] in
private theorem owner_none {s : Sys T} (hi : Inv s) (h : s.handles ≠ []) : s.owner = none := by
  cases ho : s.owner with
  | none => rfl
  | some o => exact absurd (hi.excl (by simp [ho])) h

theorem step_inv (s : Sys T) (t : T) (op : Op) (hi : Inv s) (hl : Legal s t op) : Inv (step s t op).1 := by
  cases op with
  | inc =>
    simp only [step, incRef_eq]
    by_cases h1 : acc s.word = 2 ^ 18 - 1
    · simp [h1]; exact hi
    · by_cases h2 : bit 20 s.word = true
      · by_cases h3 : acc s.word = 0
        · simp [h2, h3]; exact ⟨hi.count, hi.excl, hi.bExcl, hi.bLinked, hi.bAcc, hi.bFlags⟩
        · simp [h1, h2, h3]; exact ⟨hi.count, hi.excl, hi.bExcl, hi.bLinked, hi.bAcc, hi.bFlags⟩
      · have hlt : acc s.word < 2 ^ 18 - 1 := by have := acc_lt s.word; omega
        have ho : s.owner = none := by
          have := hi.bExcl; cases hh : s.owner with
          | none => rfl
          | some o => rw [hh] at this; simp [this] at h2
        obtain ⟨a, b, c, d⟩ := highs hi (w := s.word + 1) (fun i hi' => bit_add_one hlt hi')
        simp only [h1, h2, decide_false, Bool.false_eq_true, if_false]
        refine ⟨?_, ?_, a, b, c, d⟩
        · show acc (s.word + 1) = _
          rw [acc_add_one hlt, hi.count]; simp; omega
        · simp [ho]
  | dec =>
    have hm : t ∈ s.handles := hl
    have hne : s.handles ≠ [] := List.ne_nil_of_mem hm
    have hlen : 0 < s.handles.length := List.length_pos_of_mem hm
    have hpos : 0 < acc s.word := by rw [hi.count]; omega
    have ho := owner_none hi hne
    simp only [step, decRef_eq]
    have h0 : ¬ acc s.word = 0 := by omega
    obtain ⟨a, b, c, d⟩ := highs hi (w := s.word - 1) (fun i hi' => bit_sub_one hpos hi')
    simp only [h0, decide_false, Bool.false_eq_true, if_false]
    refine ⟨?_, ?_, a, b, c, d⟩
    · show acc (s.word - 1) = _
      rw [acc_sub_one hpos, hi.count, List.length_erase_of_mem hm]; simp only; omega
    · simp [ho]
  | link =>
    simp only [step, kLinked, kNumAccessRefBits]
    refine ⟨?_, hi.excl, ?_, ?_, ?_, ?_⟩
    · rw [acc_setBit _ (by decide) (by decide)]; exact hi.count
    · rw [bit_setBit _ _ (by decide)]; simpa using hi.bExcl
    · rw [bit_setBit _ _ (by decide)]; simp
    · rw [bit_setBit _ _ (by decide)]; simpa using hi.bAcc
    · intro f; rw [bit_setBit _ _ (by decide)]
      have := f.pos_ge
      have h : ¬ f.pos = 18 := by omega
      simpa [h] using hi.bFlags f
  | unlink =>
    simp only [step, kLinked, kNumAccessRefBits]
    refine ⟨?_, hi.excl, ?_, ?_, ?_, ?_⟩
    · rw [acc_clearBit _ (by decide) (by decide)]; exact hi.count
    · rw [bit_clearBit _ _ (by decide)]; simpa using hi.bExcl
    · rw [bit_clearBit _ _ (by decide)]; simp
    · rw [bit_clearBit _ _ (by decide)]; simpa using hi.bAcc
    · intro f; rw [bit_clearBit _ _ (by decide)]
      have := f.pos_ge
      have h : ¬ f.pos = 18 := by omega
      simpa [h] using hi.bFlags f
  | access =>
    simp only [step, kAccessible, kNumAccessRefBits]
    refine ⟨?_, hi.excl, ?_, ?_, ?_, ?_⟩
    · rw [acc_setBit _ (by decide) (by decide)]; exact hi.count
    · rw [bit_setBit _ _ (by decide)]; simpa using hi.bExcl
    · rw [bit_setBit _ _ (by decide)]; simpa using hi.bLinked
    · rw [bit_setBit _ _ (by decide)]; simp
    · intro f; rw [bit_setBit _ _ (by decide)]
      have := f.pos_ge
      have h : ¬ f.pos = 19 := by omega
      simpa [h] using hi.bFlags f
  | unaccess =>
    simp only [step, kAccessible, kNumAccessRefBits]
    refine ⟨?_, hi.excl, ?_, ?_, ?_, ?_⟩
    · rw [acc_clearBit _ (by decide) (by decide)]; exact hi.count
    · rw [bit_clearBit _ _ (by decide)]; simpa using hi.bExcl
    · rw [bit_clearBit _ _ (by decide)]; simpa using hi.bLinked
    · rw [bit_clearBit _ _ (by decide)]; simp
    · intro f; rw [bit_clearBit _ _ (by decide)]
      have := f.pos_ge
      have h : ¬ f.pos = 19 := by omega
      simpa [h] using hi.bFlags f
  | markEvict =>
    simp only [step, markForEviction_eq]
    by_cases h1 : bit 18 s.word = true
    · by_cases h2 : bit 20 s.word = true
      · simp [h1, h2]; exact ⟨hi.count, hi.excl, hi.bExcl, hi.bLinked, hi.bAcc, hi.bFlags⟩
      · by_cases h3 : acc s.word = 0
        · have hh : s.handles = [] := by
            have := hi.count; rw [h3] at this
            exact List.eq_nil_of_length_eq_zero (by omega)
          have hox : extra s.owner = 0 := by have := hi.count; omega
          simp only [h1, h2, h3, Bool.not_true, Bool.false_eq_true, if_false, decide_true]
          refine ⟨?_, fun _ => hh, ?_, ?_, ?_, ?_⟩
          · show acc (setBit kExclusive s.word) = _
            rw [acc_setBit _ (by decide) (by decide), hi.count, hox]; simp [extra]
          · show bit 20 (setBit kExclusive s.word) = _
            rw [bit_setBit _ _ (by decide)]; simp [kExclusive, kNumAccessRefBits]
          · show bit 18 (setBit kExclusive s.word) = _
            rw [bit_setBit _ _ (by decide)]; simpa [kExclusive, kNumAccessRefBits] using hi.bLinked
          · show bit 19 (setBit kExclusive s.word) = _
            rw [bit_setBit _ _ (by decide)]; simpa [kExclusive, kNumAccessRefBits] using hi.bAcc
          · intro f
            show bit f.pos (setBit kExclusive s.word) = _
            rw [bit_setBit _ _ (by decide)]
            have := f.pos_ge
            have h : ¬ f.pos = kExclusive := by simp only [kExclusive, kNumAccessRefBits]; omega
            simpa [h] using hi.bFlags f
        · simp [h1, h2, h3]; exact ⟨hi.count, hi.excl, hi.bExcl, hi.bLinked, hi.bAcc, hi.bFlags⟩
    · simp [h1]; exact ⟨hi.count, hi.excl, hi.bExcl, hi.bLinked, hi.bAcc, hi.bFlags⟩
  | unmarkEvict =>
    have ho : s.owner = some (t, .evicting) := hl
    have hh := hi.excl (by simp [ho])
    simp only [step, unmarkForEviction]
    refine ⟨?_, by simp, ?_, ?_, ?_, ?_⟩
    · show acc (clearBit kExclusive s.word) = _
      rw [acc_clearBit _ (by decide) (by decide), hi.count, ho]; simp [extra]
    · show bit 20 (clearBit kExclusive s.word) = _
      rw [bit_clearBit _ _ (by decide)]; simp [kExclusive, kNumAccessRefBits]
    · show bit 18 (clearBit kExclusive s.word) = _
      rw [bit_clearBit _ _ (by decide)]; simpa [kExclusive, kNumAccessRefBits] using hi.bLinked
    · show bit 19 (clearBit kExclusive s.word) = _
      rw [bit_clearBit _ _ (by decide)]; simpa [kExclusive, kNumAccessRefBits] using hi.bAcc
    · intro f
      show bit f.pos (clearBit kExclusive s.word) = _
      rw [bit_clearBit _ _ (by decide)]
      have := f.pos_ge
      have h : ¬ f.pos = kExclusive := by simp only [kExclusive, kNumAccessRefBits]; omega
      simpa [h] using hi.bFlags f
  | markMove =>
    simp only [step, markMoving_eq]
    by_cases h3 : acc s.word = 0
    · by_cases h1 : bit 18 s.word = true
      · by_cases h2 : bit 20 s.word = true
        · simp [h1, h2, h3]; exact ⟨hi.count, hi.excl, hi.bExcl, hi.bLinked, hi.bAcc, hi.bFlags⟩
        · have hh : s.handles = [] := by
            have := hi.count; rw [h3] at this
            exact List.eq_nil_of_length_eq_zero (by omega)
          have hlt : acc s.word < 2 ^ 18 - 1 := by omega
          simp only [h1, h2, h3, Nat.lt_irrefl, decide_false, Bool.not_true, Bool.or_false, Bool.false_eq_true, if_false]
          obtain ⟨a, b, c, d⟩ := highs hi (w := s.word + 1) (fun i hi' => bit_add_one hlt hi')
          refine ⟨?_, fun _ => hh, ?_, ?_, ?_, ?_⟩
          · show acc (setBit kExclusive (s.word + 1)) = _
            rw [acc_setBit _ (by decide) (by decide), acc_add_one hlt, h3, hh]; simp [extra]
          · show bit 20 (setBit kExclusive (s.word + 1)) = _
            rw [bit_setBit _ _ (by decide)]; simp [kExclusive, kNumAccessRefBits]
          · show bit 18 (setBit kExclusive (s.word + 1)) = _
            rw [bit_setBit _ _ (by decide), b]; simp [kExclusive, kNumAccessRefBits]
          · show bit 19 (setBit kExclusive (s.word + 1)) = _
            rw [bit_setBit _ _ (by decide), c]; simp [kExclusive, kNumAccessRefBits]
          · intro f
            show bit f.pos (setBit kExclusive (s.word + 1)) = _
            rw [bit_setBit _ _ (by decide), d f]
            have := f.pos_ge
            have h : ¬ f.pos = kExclusive := by simp only [kExclusive, kNumAccessRefBits]; omega
            simp [h]
      · simp [h1, h3]; exact ⟨hi.count, hi.excl, hi.bExcl, hi.bLinked, hi.bAcc, hi.bFlags⟩
    · have : 0 < acc s.word := by omega
      simp [this]; exact ⟨hi.count, hi.excl, hi.bExcl, hi.bLinked, hi.bAcc, hi.bFlags⟩
  | unmarkMove =>
    have ho : s.owner = some (t, .moving) := hl
    have hh := hi.excl (by simp [ho])
    have hacc : acc s.word = 1 := by have := hi.count; rw [hh, ho] at this; simpa [extra] using this
    have hpos : 0 < acc s.word := by omega
    obtain ⟨a, b, c, d⟩ := highs hi (w := s.word - 1) (fun i hi' => bit_sub_one hpos hi')
    simp only [step, unmarkMoving]
    refine ⟨?_, by simp, ?_, ?_, ?_, ?_⟩
    · show acc (clearBit kExclusive (s.word - 1)) = _
      rw [acc_clearBit _ (by decide) (by decide), acc_sub_one hpos, hacc, hh]; simp [extra]
    · show bit 20 (clearBit kExclusive (s.word - 1)) = _
      rw [bit_clearBit _ _ (by decide)]; simp [kExclusive, kNumAccessRefBits]
    · show bit 18 (clearBit kExclusive (s.word - 1)) = _
      rw [bit_clearBit _ _ (by decide), b]; simp [kExclusive, kNumAccessRefBits]
    · show bit 19 (clearBit kExclusive (s.word - 1)) = _
      rw [bit_clearBit _ _ (by decide), c]; simp [kExclusive, kNumAccessRefBits]
    · intro f
      show bit f.pos (clearBit kExclusive (s.word - 1)) = _
      rw [bit_clearBit _ _ (by decide), d f]
      have := f.pos_ge
      have h : ¬ f.pos = kExclusive := by simp only [kExclusive, kNumAccessRefBits]; omega
      simp [h]
  | moveToEvict =>
    have ho : s.owner = some (t, .moving) := hl
    have hh := hi.excl (by simp [ho])
    have hacc : acc s.word = 1 := by have := hi.count; rw [hh, ho] at this; simpa [extra] using this
    have hpos : 0 < acc s.word := by omega
    obtain ⟨a, b, c, d⟩ := highs hi (w := s.word - 1) (fun i hi' => bit_sub_one hpos hi')
    simp only [step, markForEvictionWhenMoving]
    refine ⟨?_, fun _ => hh, ?_, b, c, d⟩
    · show acc (s.word - 1) = _
      rw [acc_sub_one hpos, hacc, hh, ho]; simp [extra]
    · show bit 20 (s.word - 1) = _
      rw [a]; simp
  | setFlag f =>
    have hge := f.pos_ge
    have hlt := f.pos_lt
    simp only [step]
    refine ⟨?_, hi.excl, ?_, ?_, ?_, ?_⟩
    · rw [acc_setBit _ (by omega) hlt]; exact hi.count
    · rw [bit_setBit _ _ hlt]
      have h : ¬ 20 = f.pos := by omega
      simpa [h] using hi.bExcl
    · rw [bit_setBit _ _ hlt]
      have h : ¬ 18 = f.pos := by omega
      simpa [h] using hi.bLinked
    · rw [bit_setBit _ _ hlt]
      have h : ¬ 19 = f.pos := by omega
      simpa [h] using hi.bAcc
    · intro g
      show bit g.pos (setBit f.pos s.word) = if g = f then true else s.flags g
      rw [bit_setBit _ _ hlt, hi.bFlags g]
      by_cases h : g = f
      · simp [h]
      · have : ¬ g.pos = f.pos := fun e => h (Flag.pos_inj e)
        simp [h, this]
  | unsetFlag f =>
    have hge := f.pos_ge
    have hlt := f.pos_lt
    simp only [step, unSetFlag_eq]
    refine ⟨?_, hi.excl, ?_, ?_, ?_, ?_⟩
    · rw [acc_clearBit _ (by omega) hlt]; exact hi.count
    · rw [bit_clearBit _ _ hlt]
      have h : ¬ 20 = f.pos := by omega
      simpa [h] using hi.bExcl
    · rw [bit_clearBit _ _ hlt]
      have h : ¬ 18 = f.pos := by omega
      simpa [h] using hi.bLinked
    · rw [bit_clearBit _ _ hlt]
      have h : ¬ 19 = f.pos := by omega
      simpa [h] using hi.bAcc
    · intro g
      show bit g.pos (clearBit f.pos s.word) = if g = f then false else s.flags g
      rw [bit_clearBit _ _ hlt, hi.bFlags g]
      by_cases h : g = f
      · simp [h]
      · have : ¬ g.pos = f.pos := fun e => h (Flag.pos_inj e)
        simp [h, this]

theorem reach_inv {s : Sys T} (h : Reach s) : Inv s := by
  induction h with
  | init => exact inv_init
  | step t op _ hl ih => exact step_inv _ _ _ ih hl

/-! ## C01 -/

/-- C01 (a): while any handle is outstanding nobody can start an eviction or a move. -/
theorem handle_blocks_eviction {s : Sys T} (h : Reach s) (hh : s.handles ≠ []) (t : T) :
    (∃ r, r ≠ MarkRes.success ∧ (step s t .markEvict).2 = .mark r) ∧
    (step s t .markMove).2 = .moved false ∧ s.owner = none := by
  have hi := reach_inv h
  have hlen : 0 < s.handles.length := List.length_pos_iff.mpr hh
  have hpos : 0 < acc s.word := by rw [hi.count]; omega
  have hz : ¬ acc s.word = 0 := by omega
  refine ⟨?_, ?_, owner_none hi hh⟩
  · simp only [step, markForEviction_eq]
    by_cases h1 : bit 18 s.word = true
    · by_cases h2 : bit 20 s.word = true
      · exact ⟨.exclusive, by decide, by simp [h1, h2]⟩
      · exact ⟨.refHeld, by decide, by simp [h1, h2, hz]⟩
    · exact ⟨.unlinked, by decide, by simp [h1]⟩
  · simp [step, markMoving_eq, hpos]

omit [DecidableEq T] in
private theorem ref_zero_inv {s : Sys T} (hi : Inv s) :
    (s.word &&& kRefMask = 0) ↔ s.handles = [] ∧ s.owner = none ∧ s.linked = false ∧ s.accessible = false := by
  rw [refMask_zero_iff', hi.count, hi.bLinked, hi.bAcc, hi.bExcl]
  constructor
  · rintro ⟨h1, h2, h3, h4⟩
    refine ⟨List.eq_nil_of_length_eq_zero (by omega), ?_, h2, h3⟩
    cases ho : s.owner <;> simp_all
  · rintro ⟨h1, h2, h3, h4⟩
    simp [h1, h2, h3, h4, extra]

private theorem ref_out_eq {s : Sys T} {t : T} {op : Op} {v : Word} (hv : (step s t op).2 = .ref v) :
    v = (step s t op).1.word &&& kRefMask := by
  cases op with
  | dec =>
    simp only [step, decRef_eq] at *
    by_cases h : acc s.word = 0
    · simp [h] at hv
    · simp only [h, if_false] at hv ⊢
      injection hv with hv; exact hv.symm
  | unmarkEvict => simp only [step] at hv ⊢; injection hv with hv; rw [← hv]; rfl
  | unmarkMove => simp only [step] at hv ⊢; injection hv with hv; rw [← hv]; rfl
  | inc =>
    simp only [step] at hv
    split at hv <;> simp at hv
  | markEvict => simp only [step] at hv; split at hv <;> simp at hv
  | markMove => simp only [step] at hv; split at hv <;> simp at hv
  | _ => simp [step] at hv

/-- C01 (b): the "zero references left" result, on which the caller frees the memory
(CacheAllocator.h `release`/`releaseBackToAllocator`), is returned exactly when after the operation no
handle, no exclusive owner, and neither container holds the item. -/
theorem freed_iff_unreferenced {s : Sys T} (h : Reach s) (t : T) (op : Op) (hl : Legal s t op) (v : Word)
    (hv : (step s t op).2 = .ref v) :
    v = 0 ↔ ((step s t op).1.handles = [] ∧ (step s t op).1.owner = none ∧
             (step s t op).1.linked = false ∧ (step s t op).1.accessible = false) := by
  rw [ref_out_eq hv]
  exact ref_zero_inv (step_inv s t op (reach_inv h) hl)

/-- C01 (c): as long as thread `u` keeps its handle, no operation of another thread frees the item. -/
theorem pinned_not_freed_by_others {s : Sys T} (h : Reach s) {u t : T} (hu : u ∈ s.handles) (hne : t ≠ u)
    (op : Op) (hl : Legal s t op) : (step s t op).2 ≠ .ref 0 := by
  intro hv
  have hz := (freed_iff_unreferenced h t op hl 0 hv).1 rfl
  have hmem : u ∈ (step s t op).1.handles := by
    cases op with
    | dec =>
      simp only [step]
      split
      · exact hu
      · exact (List.mem_erase_of_ne (Ne.symm hne)).2 hu
    | inc => simp only [step]; split <;> simp [hu]
    | markEvict => simp only [step]; split <;> exact hu
    | markMove => simp only [step]; split <;> exact hu
    | _ => simpa [step] using hu
  rw [hz.1] at hmem; exact absurd hmem (by simp)

/-! ## C02 -/

/-- C02 (a): the reported access count is the number of outstanding handles (the mover's internal
reference is not reported). -/
theorem access_count_exact {s : Sys T} (h : Reach s) : (getAccessRef s.word).toNat = s.handles.length := by
  have hi := reach_inv h
  rw [getAccessRef_toNat, hi.bExcl, hi.count]
  cases ho : s.owner with
  | none => simp [extra]
  | some o =>
    have hh := hi.excl (by simp [ho])
    obtain ⟨t, k⟩ := o
    cases k <;> simp [extra, hh]

/-- C02 (b): obtaining a reference throws exactly when 2^18 - 1 handles are out; a legal release never throws;
a throwing operation changes nothing. -/
theorem errors_exact {s : Sys T} (h : Reach s) (t : T) :
    ((step s t .inc).2 = .throws .refcountOverflow ↔ s.handles.length = 2 ^ 18 - 1) ∧
    (Legal s t .dec → ∃ v, (step s t .dec).2 = .ref v) ∧
    (∀ op e, (step s t op).2 = .throws e → (step s t op).1 = s) := by
  have hi := reach_inv h
  refine ⟨?_, ?_, ?_⟩
  · have hcount : acc s.word = 2 ^ 18 - 1 ↔ s.handles.length = 2 ^ 18 - 1 := by
      rw [hi.count]
      cases ho : s.owner with
      | none => simp [extra]
      | some o =>
        have hh := hi.excl (by simp [ho])
        obtain ⟨u, k⟩ := o
        cases k <;> simp [hh, extra]
    rw [← hcount]
    simp only [step, incRef_eq]
    by_cases h1 : acc s.word = 2 ^ 18 - 1
    · simp [h1]
    · simp only [h1, decide_false, Bool.false_eq_true, if_false, iff_false]
      split
      · rename_i heq; split at heq <;> simp at heq
      · simp
      · simp
  · intro hm
    have hlen : 0 < s.handles.length := List.length_pos_of_mem hm
    have h0 : ¬ acc s.word = 0 := by rw [hi.count]; omega
    simp [step, decRef_eq, h0]
  · intro op e he
    cases op with
    | inc => simp only [step] at he ⊢; split at he <;> first | rfl | simp at he
    | dec => simp only [step] at he ⊢; split at he <;> first | rfl | simp at he
    | markEvict => simp only [step] at he; split at he <;> simp at he
    | markMove => simp only [step] at he; split at he <;> simp at he
    | _ => simp [step] at he

/-- C02 (c): on any word whatsoever (reachable or not), a successful increment/decrement changes the 18-bit count
by exactly one and no other bit; a decrement at zero throws. -/
theorem inc_dec_word (w : Word) :
    (∀ w', incRef w = .ok (w', .ok) →
        (w' &&& kAccessRefMask).toNat = (w &&& kAccessRefMask).toNat + 1 ∧ ∀ i, 18 ≤ i → bit i w' = bit i w) ∧
    (∀ w' v, decRef w = .ok (w', v) →
        (w' &&& kAccessRefMask).toNat + 1 = (w &&& kAccessRefMask).toNat ∧ ∀ i, 18 ≤ i → bit i w' = bit i w) ∧
    ((w &&& kAccessRefMask) = 0 → decRef w = .error .refcountUnderflow) := by
  refine ⟨?_, ?_, ?_⟩
  · intro w' hw
    simp only [incRef_eq] at hw
    split at hw
    · simp at hw
    · rename_i h1
      have hlt : acc w < 2 ^ 18 - 1 := by have := acc_lt w; omega
      split at hw
      · split at hw <;> simp at hw
      · injection hw with hw; injection hw with hw _; subst hw
        rw [and_accessMask_toNat, and_accessMask_toNat]
        exact ⟨acc_add_one hlt, fun i hi => bit_add_one hlt hi⟩
  · intro w' v hw
    simp only [decRef_eq] at hw
    split at hw
    · simp at hw
    · rename_i h1
      have hpos : 0 < acc w := by omega
      injection hw with hw; injection hw with hw _; subst hw
      rw [and_accessMask_toNat, and_accessMask_toNat]
      exact ⟨by rw [acc_sub_one hpos]; omega, fun i hi => bit_sub_one hpos hi⟩
  · intro h; simp [decRef, h]

/-! ## C03 -/

/-- C03 (a): while somebody holds the exclusive right, there is no handle, every attempt to take a reference is
refused with the kind of ownership, and every competing attempt to take the right fails. -/
theorem exclusive_excludes {s : Sys T} (h : Reach s) {o : T} {k : Kind} (ho : s.owner = some (o, k)) (t : T) :
    s.handles = [] ∧
    (step s t .inc).2 = .inc (match k with | .evicting => .failedEviction | .moving => .failedMoving) ∧
    (step s t .markMove).2 = .moved false ∧
    (∃ r, r ≠ MarkRes.success ∧ (step s t .markEvict).2 = .mark r) ∧
    (step s t .inc).1.owner = some (o, k) := by
  have hi := reach_inv h
  have hh := hi.excl (by simp [ho])
  have hb : bit 20 s.word = true := by rw [hi.bExcl, ho]; rfl
  have hc := hi.count
  refine ⟨hh, ?_, ?_, ?_, ?_⟩
  · cases k with
    | evicting =>
      have h0 : acc s.word = 0 := by rw [hc, ho, hh]; simp [extra]
      simp [step, incRef_eq, h0, hb]
    | moving =>
      have h1 : acc s.word = 1 := by rw [hc, ho, hh]; simp [extra]
      simp [step, incRef_eq, h1, hb]
  · simp [step, markMoving_eq, hb]
  · simp only [step, markForEviction_eq]
    by_cases h1 : bit 18 s.word = true
    · exact ⟨.exclusive, by decide, by simp [h1, hb]⟩
    · exact ⟨.unlinked, by decide, by simp [h1]⟩
  · cases k with
    | evicting =>
      have h0 : acc s.word = 0 := by rw [hc, ho, hh]; simp [extra]
      simp [step, incRef_eq, h0, hb, ho]
    | moving =>
      have h1 : acc s.word = 1 := by rw [hc, ho, hh]; simp [extra]
      simp [step, incRef_eq, h1, hb, ho]

/-- C03 (b): the right is granted exactly when the item is linked, unreferenced and unowned; and in that case the
predicates `isMarkedForEviction` / `isMoving` identify the owner's purpose in every reachable state. -/
theorem exclusive_granted_iff {s : Sys T} (h : Reach s) (t : T) :
    ((step s t .markEvict).2 = .mark .success ↔ s.linked = true ∧ s.handles = [] ∧ s.owner = none) ∧
    ((step s t .markMove).2 = .moved true ↔ s.linked = true ∧ s.handles = [] ∧ s.owner = none) ∧
    (isMarkedForEviction s.word = true ↔ ∃ u, s.owner = some (u, .evicting)) ∧
    (isMoving s.word = true ↔ ∃ u, s.owner = some (u, .moving)) := by
  have hi := reach_inv h
  have hcn : acc s.word = 0 → s.handles = [] := fun h0 =>
    List.eq_nil_of_length_eq_zero (by have := hi.count; omega)
  have hbn : bit 20 s.word = false ↔ s.owner = none := by
    rw [hi.bExcl]; cases s.owner <;> simp
  have hc0 : s.owner = none → s.handles = [] → acc s.word = 0 := by
    intro a b; rw [hi.count, a, b]; rfl
  refine ⟨?_, ?_, ?_, ?_⟩
  · simp only [step, markForEviction_eq, hi.bLinked]
    by_cases h1 : s.linked = true
    · by_cases h2 : bit 20 s.word = true
      · have : s.owner ≠ none := fun hn => by have := hbn.2 hn; simp [this] at h2
        simp [h1, h2, this]
      · have hn := hbn.1 (by simpa using h2)
        by_cases h3 : acc s.word = 0
        · simp [h1, h2, h3, hcn h3, hn]
        · have : s.handles ≠ [] := fun he => h3 (hc0 hn he)
          simp [h1, h2, h3, this]
    · simp [h1]
  · simp only [step, markMoving_eq, hi.bLinked]
    by_cases h1 : s.linked = true
    · by_cases h2 : bit 20 s.word = true
      · have : s.owner ≠ none := fun hn => by have := hbn.2 hn; simp [this] at h2
        simp [h1, h2, this]
      · have hn := hbn.1 (by simpa using h2)
        by_cases h3 : acc s.word = 0
        · simp [h1, h2, h3, hcn h3, hn]
        · have : s.handles ≠ [] := fun he => h3 (hc0 hn he)
          have h4 : 0 < acc s.word := by omega
          simp [h4, this]
    · simp [h1]
  · simp only [isMarkedForEviction, isE, and_access_eq_zero, hi.bExcl, hi.count]
    cases ho : s.owner with
    | none => simp
    | some o =>
      have hh := hi.excl (by simp [ho])
      obtain ⟨u, k⟩ := o
      cases k <;> simp [hh, extra]
  · simp only [isMoving, isE, neAcc, hi.bExcl, hi.count]
    cases ho : s.owner with
    | none => simp
    | some o =>
      have hh := hi.excl (by simp [ho])
      obtain ⟨u, k⟩ := o
      cases k <;> simp [hh, extra]

/-! ## C04 -/

/-- C04 (a): on every word, setting/clearing a flag changes exactly that flag: every other bit of the word
(other flags, container bits, exclusive bit, all 18 count bits) is unchanged. -/
theorem flag_independent (w : Word) (f : Flag) (i : Nat) :
    bit i (setBit f.pos w) = (if i = f.pos then true else bit i w) ∧
    bit i (unSetFlag f w) = (if i = f.pos then false else bit i w) := by
  rw [unSetFlag_eq, bit_setBit _ _ f.pos_lt, bit_clearBit _ _ f.pos_lt]
  by_cases h : i = f.pos <;> simp [h]

/-- C04 (b): in every reachable state each flag and membership query returns the value last set, independently of
everything else that happened. -/
theorem flags_track_history {s : Sys T} (h : Reach s) :
    (∀ f : Flag, isBit f.pos s.word = s.flags f) ∧ isBit kLinked s.word = s.linked ∧
    isBit kAccessible s.word = s.accessible := by
  have hi := reach_inv h
  refine ⟨fun f => by rw [isBit_bit _ f.pos_lt]; exact hi.bFlags f, ?_, ?_⟩
  · rw [isBit_bit _ (by decide)]; exact hi.bLinked
  · rw [isBit_bit _ (by decide)]; exact hi.bAcc

/-! ## CAS loop -/

/-- Refcount.h:509-533 `atomicUpdateValue` run against an arbitrary environment: `mem n` is the value other
threads left in memory at this thread's `n`-th access.  `cur` is the local `curValue`.  `fuel` bounds the number of
retries considered (a run that keeps losing the race is still going on: `none`).  The result is
the index of the access at which the call took effect, and the value written (or `none` when the predicate
rejected). -/
def casLoop (pred : Word → Bool) (f : Word → Word) (mem : Nat → Word) : (fuel n : Nat) → (cur : Word) →
    Option (Nat × Option Word)
  | 0, _, _ => none
  | fuel + 1, n, cur =>
    if pred cur = false then some (n, none)
    else if mem (n + 1) = cur then some (n + 1, some (f cur))
    else casLoop pred f mem fuel (n + 1) (mem (n + 1))

/-- The CAS loop is atomic: whatever the other threads do, a call that returns took effect at a single access
`k` of its own, acting on the value that was in memory at that access: it either rejected that value
or replaced exactly that value by `f` of it.  This justifies modelling each operation by one step. -/
theorem casLoop_linearizes (pred : Word → Bool) (f : Word → Word) (mem : Nat → Word) (fuel : Nat)
    {k : Nat} {r : Option Word} (h : casLoop pred f mem fuel 0 (mem 0) = some (k, r)) :
    (pred (mem k) = false ∧ r = none) ∨ (pred (mem k) = true ∧ r = some (f (mem k))) := by
  suffices ∀ n, casLoop pred f mem fuel n (mem n) = some (k, r) →
      (pred (mem k) = false ∧ r = none) ∨ (pred (mem k) = true ∧ r = some (f (mem k))) from this 0 h
  clear h
  induction fuel with
  | zero => intro n h; simp [casLoop] at h
  | succ fuel ih =>
    intro n h
    simp only [casLoop] at h
    split at h
    · rename_i hp
      simp only [Option.some.injEq, Prod.mk.injEq] at h
      obtain ⟨rfl, rfl⟩ := h; exact Or.inl ⟨hp, rfl⟩
    · rename_i hp
      split at h
      · rename_i hm
        simp only [Option.some.injEq, Prod.mk.injEq] at h
        obtain ⟨rfl, rfl⟩ := h
        right; rw [hm]; exact ⟨by simpa using hp, rfl⟩
      · exact ih _ h

/-! ## Non-vacuity -/

/-- run a list of operations -/
def run (s : Sys T) (l : List (T × Op)) : Sys T := l.foldl (fun s p => (step s p.1 p.2).1) s

/-- A concrete reachable state with two handles held by different threads on a linked, accessible, flagged item. -/
example : ∃ s : Sys Nat, Reach s ∧ s.handles = [2, 1] ∧ s.linked = true ∧ s.owner = none ∧
    getAccessRef s.word = 2 ∧ isBit Flag.nvmClean.pos s.word = true := by
  refine ⟨run Sys.init [(1, .inc), (1, .access), (1, .link), (1, .setFlag .nvmClean), (2, .inc)], ?_, ?_⟩
  · exact .step 2 .inc (.step 1 (.setFlag .nvmClean) (.step 1 .link (.step 1 .access (.step 1 .inc .init trivial)
      trivial) trivial) trivial) trivial
  · decide

/-- A concrete reachable state where thread 7 is moving the item and thread 1 is refused a reference. -/
example : ∃ s : Sys Nat, Reach s ∧ s.owner = some (7, .moving) ∧ (step s 1 .inc).2 = .inc .failedMoving := by
  refine ⟨run Sys.init [(1, .link), (7, .markMove)], .step 7 .markMove (.step 1 .link .init trivial) trivial, ?_⟩
  decide

/-- A concrete legal operation that frees: the last `decRef`. -/
example : ∃ s : Sys Nat, Reach s ∧ Legal s 1 .dec ∧ (step s 1 .dec).2 = .ref 0 := by
  refine ⟨run Sys.init [(1, .inc)], .step 1 .inc .init trivial, ?_, ?_⟩
  · show 1 ∈ _; decide
  · decide

/-- casLoop: lost one race, then succeeded. -/
example : casLoop (fun w => w != 0) (· + 1) (fun n => if n = 0 then 5 else 9) 5 0 5 = some (2, some 10) := by decide

end Verif.Refcount
