import Verif.BigHash.Storage
/-!
Property C21: small-object bucket storage is a byte-exact FIFO.

Specification: the storage holds a list of byte strings `l`, oldest first; on the bytes of the bucket it is the concatenation
`enc l` of (4-byte length, bytes). Allocation appends, removals delete exactly the named entries.
-/
namespace Verif.BigHash
open Verif Mem

/-- Spec: bytes of the list of entries. -/
def enc : List (List UInt8) → List UInt8
  | [] => []
  | p :: l => le 4 p.length ++ p ++ enc l

/-- Spec: the storage's bytes are exactly the encoding of `l`. -/
structure Rep (s : Store) (l : List (List UInt8)) : Prop where
  bytes : s.data.read 0 s.endOff = enc l
  num : s.num = l.length
  fits : s.endOff ≤ s.cap
  cap : s.cap < 2 ^ 32

/-- Spec: the allocation of the entry `x` that follows the entries `pre`. -/
abbrev at' (pre : List (List UInt8)) (x : List UInt8) : Alloc := ⟨(enc pre).length + 4, x.length, pre.length⟩

theorem kAO : kAllocationOverhead = 4 := by decide

theorem enc_append (a b : List (List UInt8)) : enc (a ++ b) = enc a ++ enc b := by
  induction a with
  | nil => rfl
  | cons x a ih => simp only [List.cons_append, enc, ih, List.append_assoc]

theorem enc_cons_length (x : List UInt8) (l) : (enc (x :: l)).length = 4 + x.length + (enc l).length := by
  simp [enc]; omega

theorem enc_snoc (a : List (List UInt8)) (x) : enc (a ++ [x]) = enc a ++ (le 4 x.length ++ x) := by
  rw [enc_append]; simp [enc]

theorem Rep.endEq {s l} (h : Rep s l) : s.endOff = (enc l).length := by
  have := congrArg List.length h.bytes; simpa using this

/-- Reading a middle portion of an encoded range. -/
theorem read_mid {m : Mem} {o n : Nat} {a b c : List UInt8} (h : m.read o n = a ++ b ++ c) : m.read (o + a.length) b.length = b := by
  have hl : n = a.length + b.length + c.length := by
    have := congrArg List.length h; simp at this; omega
  rw [read_sub (n := n) (by omega), h]
  simp [List.append_assoc]

theorem load_at {s : Store} {pre x post} (h : Rep s (pre ++ x :: post)) : s.data.load (enc pre).length 4 = x.length := by
  have hb := h.bytes
  rw [enc_append] at hb
  have e : enc pre ++ enc (x :: post) = enc pre ++ le 4 x.length ++ (x ++ enc post) := by simp [enc, List.append_assoc]
  rw [e] at hb
  have := read_mid hb
  rw [length_le, Nat.zero_add] at this
  have hfit := h.fits; have hc := h.cap; have he := h.endEq
  rw [enc_append, List.length_append, enc_cons_length] at he
  rw [load, this, ofLe_le]; omega

theorem payload_at {s : Store} {pre x post} (h : Rep s (pre ++ x :: post)) :
    s.data.read ((enc pre).length + 4) x.length = x := by
  have hb := h.bytes
  rw [enc_append] at hb
  have e : enc pre ++ enc (x :: post) = (enc pre ++ le 4 x.length) ++ x ++ enc post := by simp [enc, List.append_assoc]
  rw [e] at hb
  have := read_mid hb
  rw [Nat.zero_add, List.length_append, length_le] at this
  exact this

/-- **C21.** A new storage is empty. -/
theorem new_spec (cap : Nat) (d : Mem) (h : cap < 2 ^ 32) : Rep (Store.new cap d) [] :=
  ⟨by simp [Store.new, enc, Mem.read], rfl, by simp [Store.new], h⟩

/-- **C21, iteration.** The iteration visits exactly the entries, oldest first, with their bytes. -/
theorem getFirst_spec {s : Store} {l} (h : Rep s l) :
    s.getFirst = match l with | [] => none | x :: _ => some (at' [] x) := by
  have he := h.endEq
  cases l with
  | nil => simp [Store.getFirst, he, enc]
  | cons x l =>
    rw [enc_cons_length] at he
    have := load_at (pre := []) h
    simp only [Store.getFirst, at', enc, List.length_nil, Nat.zero_add] at this ⊢
    rw [if_neg (by omega), this]

theorem getNext_spec {s : Store} {pre x post} (h : Rep s (pre ++ x :: post)) :
    s.getNext (at' pre x) = match post with | [] => none | y :: _ => some (at' (pre ++ [x]) y) := by
  have he := h.endEq
  rw [enc_append, List.length_append, enc_cons_length] at he
  have hl : (enc (pre ++ [x])).length = (enc pre).length + 4 + x.length := by
    rw [enc_snoc]; simp; omega
  cases post with
  | nil =>
    simp only [enc, List.length_nil] at he
    exact if_pos (show (enc pre).length + 4 + x.length ≥ s.endOff by omega)
  | cons y post =>
    rw [enc_cons_length] at he
    have h' : Rep s ((pre ++ [x]) ++ y :: post) := by simpa using h
    have := load_at h'
    rw [hl] at this
    refine (if_neg (show ¬ ((enc pre).length + 4 + x.length ≥ s.endOff) by omega)).trans ?_
    simp only [at', hl, List.length_append, List.length_cons, List.length_nil, Nat.zero_add, this]

theorem view_spec {s : Store} {pre x post} (h : Rep s (pre ++ x :: post)) :
    s.data.read (at' pre x).off (at' pre x).size = x := payload_at h

/-- **C21, append.** Allocation succeeds exactly if the slot fits the remaining capacity. Once the allocated view has been written with
`x` the storage holds the old entries followed by `x`. -/
theorem allocate_spec {s : Store} {l} (h : Rep s l) (size : Nat) (hs : size < 2 ^ 32 - 4) :
    (s.allocate size = (s, none) ↔ s.remaining < size + 4) ∧
    (size + 4 ≤ s.remaining → ∃ s', s.allocate size = (s', some ⟨(enc l).length + 4, size, l.length⟩) ∧
      ∀ x : List UInt8, x.length = size → Rep { s' with data := s'.data.write ((enc l).length + 4) x } (l ++ [x])) := by
  have he := h.endEq; have hf := h.fits; have hc := h.cap
  have hsl : slotSize size = size + 4 := by
    simp only [slotSize, kAO]; rw [Nat.mod_eq_of_lt (by omega)]; omega
  simp only [Store.allocate, Store.canAllocate, hsl, Store.remaining]
  by_cases hfit : s.endOff + (size + 4) ≤ s.cap
  · simp only [hfit, decide_true, Bool.not_true, Bool.false_eq_true, if_false, Prod.mk.injEq, reduceCtorEq, and_false, false_iff]
    refine ⟨by omega, fun _ => ⟨_, ⟨rfl, by rw [he, h.num]⟩, fun x hx => ?_⟩⟩
    subst hx
    refine ⟨?_, by simp [h.num], by simp only; omega, hc⟩
    simp only
    rw [enc_snoc, he]
    rw [he] at hfit
    have hbb := h.bytes
    rw [he] at hbb
    rw [show (enc l).length + (x.length + 4) = (enc l).length + (4 + x.length) by omega, read_append, read_append,
      read_write_disj (by omega), read_store_disj (by omega), Nat.zero_add, read_write_disj (by omega), read_write_same, hbb]
    congr 2
    rw [store, read_write_same' (length_le ..)]
  · simp only [hfit, decide_false, Bool.not_false, if_true, true_iff]
    omega

/-- Spec of removal: delete the entries flagged for removal. -/
def dropFlagged : List (List UInt8 × Bool) → List (List UInt8)
  | [] => []
  | (x, r) :: l => if r then dropFlagged l else x :: dropFlagged l

/-- The allocations of the flagged entries, in order, for a list of entries that starts after `pre`. -/
def flaggedAllocs (pre : List (List UInt8)) : List (List UInt8 × Bool) → List Alloc
  | [] => []
  | (x, r) :: l => if r then at' pre x :: flaggedAllocs (pre ++ [x]) l else flaggedAllocs (pre ++ [x]) l

theorem dropFlagged_length (l : List (List UInt8 × Bool)) (pre) :
    (dropFlagged l).length + (flaggedAllocs pre l).length = l.length := by
  induction l generalizing pre with
  | nil => rfl
  | cons a l ih =>
    obtain ⟨x, r⟩ := a
    cases r <;> simp only [dropFlagged, flaggedAllocs, if_true, Bool.false_eq_true, if_false, List.length_cons]
    · have := ih (pre ++ [x]); omega
    · have := ih (pre ++ [x]); omega

theorem move_below {m : Mem} {dst src len : Nat} (h : dst ≤ src) {o n} (ho : dst + len ≤ o ∨ o + n ≤ dst) :
    (move m dst src len).read o n = m.read o n := by
  simp only [move]; exact read_write_disj (by simpa using (by omega))

theorem move_read {m : Mem} {dst src len : Nat} : (move m dst src len).read dst len = m.read src len := by
  simp only [move]; exact read_write_same' (by simp)

/-- Loop invariant: `kept` already compacted to `[0, dst)`, `pend` (not yet moved) then `l` at `[src, ..)`. -/
theorem removeLoop_spec (l : List (List UInt8 × Bool)) : ∀ (pre kept pend : List (List UInt8)) (m : Mem) (num src dst : Nat),
    dst ≤ src → src + (enc pend).length = (enc pre).length →
    m.read 0 dst = enc kept → dst = (enc kept).length →
    m.read src ((enc pend).length + (enc (l.map Prod.fst)).length) = enc pend ++ enc (l.map Prod.fst) →
    ∃ m' src' dst' pend', removeLoop (flaggedAllocs pre l) (m, num, src, dst) = (m', num - (flaggedAllocs pre l).length, src', dst') ∧
      dst' ≤ src' ∧ src' + (enc pend').length = (enc pre).length + (enc (l.map Prod.fst)).length ∧
      (∃ kept', m'.read 0 dst' = enc kept' ∧ dst' = (enc kept').length ∧ kept' ++ pend' = kept ++ pend ++ dropFlagged l) ∧
      m'.read src' (enc pend').length = enc pend' := by
  induction l with
  | nil =>
    intro pre kept pend m num src dst h1 h2 h3 h4 h5
    refine ⟨m, src, dst, pend, rfl, h1, by simp [enc, h2], ⟨kept, h3, h4, by simp [dropFlagged]⟩, ?_⟩
    simp only [List.map_nil, enc, List.length_nil, Nat.add_zero, List.append_nil] at h5
    exact h5
  | cons a l ih =>
    obtain ⟨x, r⟩ := a
    intro pre kept pend m num src dst h1 h2 h3 h4 h5
    simp only [List.map_cons] at h5 ⊢
    rw [enc_cons_length] at h5 ⊢
    have hpre : (enc (pre ++ [x])).length = (enc pre).length + 4 + x.length := by rw [enc_snoc]; simp; omega
    cases r with
    | false =>
      simp only [flaggedAllocs, dropFlagged, Bool.false_eq_true, if_false]
      have hpend : (enc (pend ++ [x])).length = (enc pend).length + 4 + x.length := by rw [enc_snoc]; simp; omega
      obtain ⟨m', src', dst', pend', e1, e2, e3, ⟨kept', e4, e5, e6⟩, e7⟩ :=
        ih (pre ++ [x]) kept (pend ++ [x]) m num src dst h1 (by omega) h3 h4 (by
          rw [hpend, show (enc pend).length + 4 + x.length + (enc (List.map Prod.fst l)).length =
            (enc pend).length + (4 + x.length + (enc (List.map Prod.fst l)).length) by omega, h5, enc_snoc]
          simp [enc, List.append_assoc])
      exact ⟨m', src', dst', pend', e1, e2, by omega, ⟨kept', e4, e5, by rw [e6]; simp⟩, e7⟩
    | true =>
      simp only [flaggedAllocs, dropFlagged, if_true, removeLoop, at', kAO]
      have hrem : (enc pre).length + 4 - 4 = src + (enc pend).length := by omega
      have h5a : m.read src (enc pend).length = enc pend := by
        have := h5; rw [show enc pend ++ enc (x :: List.map Prod.fst l) = [] ++ enc pend ++ enc (x :: List.map Prod.fst l) by simp] at this
        simpa using read_mid this
      have h5b : m.read (src + (enc pend).length + 4 + x.length) (enc (List.map Prod.fst l)).length = enc (List.map Prod.fst l) := by
        have := h5
        rw [show enc pend ++ enc (x :: List.map Prod.fst l) = (enc pend ++ (le 4 x.length ++ x)) ++ enc (List.map Prod.fst l) ++ [] by
          simp [enc, List.append_assoc]] at this
        have := read_mid this
        rw [List.length_append, List.length_append, length_le] at this
        rw [← this]; congr 1
        · omega
        · rw [this]
      -- state after this iteration
      have step : ∃ m2, (if src ≠ (enc pre).length + 4 - 4 then
            (if dst ≠ src then move m dst src ((enc pre).length + 4 - 4 - src) else m, dst + ((enc pre).length + 4 - 4 - src))
          else (m, dst)) = (m2, dst + (enc pend).length) ∧
          m2.read 0 (dst + (enc pend).length) = enc (kept ++ pend) ∧
          m2.read (src + (enc pend).length + 4 + x.length) (enc (List.map Prod.fst l)).length = enc (List.map Prod.fst l) := by
        by_cases hs : src ≠ (enc pre).length + 4 - 4
        · rw [if_pos hs]
          have hlen : (enc pre).length + 4 - 4 - src = (enc pend).length := by omega
          rw [hlen]
          by_cases hd : dst ≠ src
          · rw [if_pos hd]
            refine ⟨_, rfl, ?_, ?_⟩
            · rw [read_append, move_below h1 (by omega), h3, Nat.zero_add, move_read, h5a, enc_append]
            · rw [move_below h1 (by omega), h5b]
          · rw [if_neg hd]
            have hd' : dst = src := by omega
            refine ⟨_, rfl, ?_, h5b⟩
            rw [read_append, h3, Nat.zero_add, hd', h5a, enc_append]
        · rw [if_neg hs]
          have : (enc pend).length = 0 := by omega
          refine ⟨m, by rw [this, Nat.add_zero], ?_, h5b⟩
          rw [this, Nat.add_zero, h3, enc_append, List.length_eq_zero_iff.1 this, List.append_nil]
      obtain ⟨m2, s1, s2, s3⟩ := step
      rw [s1]
      simp only
      obtain ⟨m', src', dst', pend', e1, e2, e3, ⟨kept', e4, e5, e6⟩, e7⟩ :=
        ih (pre ++ [x]) (kept ++ pend) [] m2 (num - 1) ((enc pre).length + 4 + x.length) (dst + (enc pend).length) (by omega)
          (by simp only [enc, List.length_nil]; omega) s2 (by rw [enc_append, List.length_append]; omega) (by
            simp only [enc, List.length_nil, Nat.zero_add, List.nil_append]
            rw [show (enc pre).length + 4 + x.length = src + (enc pend).length + 4 + x.length by omega]; exact s3)
      refine ⟨m', src', dst', pend', ?_, e2, by omega, ⟨kept', e4, e5, by rw [e6]; simp⟩, e7⟩
      rw [e1]; simp only [List.length_cons]; rw [show num - 1 - (flaggedAllocs (pre ++ [x]) l).length = num - ((flaggedAllocs (pre ++ [x]) l).length + 1) by omega]

/-- **C21, removal.** Removing any set of entries leaves exactly the other entries, byte-identical and in order. -/
theorem removeMany_spec {s : Store} (l : List (List UInt8 × Bool)) (h : Rep s (l.map Prod.fst)) :
    Rep (s.removeMany (flaggedAllocs [] l)) (dropFlagged l) := by
  have he := h.endEq
  simp only [Store.removeMany]
  by_cases hem : (flaggedAllocs [] l).isEmpty = true
  · rw [if_pos hem]
    have h0 : (flaggedAllocs [] l).length = 0 := by
      rw [List.isEmpty_iff] at hem; rw [hem]; rfl
    have hall : ∀ (l : List (List UInt8 × Bool)) pre, (flaggedAllocs pre l).length = 0 → dropFlagged l = l.map Prod.fst := by
      intro l
      induction l with
      | nil => intro _ _; rfl
      | cons a l ih =>
        intro pre hz
        obtain ⟨x, r⟩ := a
        cases r
        · simp only [flaggedAllocs, Bool.false_eq_true, if_false] at hz
          simp only [dropFlagged, Bool.false_eq_true, if_false, List.map_cons, ih _ hz]
        · simp [flaggedAllocs] at hz
    rw [hall l [] h0]; exact h
  · rw [if_neg hem]
    obtain ⟨m', src', dst', pend', e1, e2, e3, ⟨kept', e4, e5, e6⟩, e7⟩ :=
      removeLoop_spec l [] [] [] s.data s.num 0 0 (Nat.le_refl _) rfl (by simp [Mem.read, enc]) rfl
        (by simp only [enc, List.length_nil, Nat.zero_add, List.nil_append]; rw [← he]; exact h.bytes)
    rw [e1]
    simp only [enc, List.length_nil, Nat.zero_add, List.nil_append] at e3 e6
    rw [← he] at e3
    have hn := dropFlagged_length l []
    have hnum := h.num
    rw [List.length_map] at hnum
    simp only
    have hfin : ∃ m2, (if src' ≠ s.endOff then (move m' dst' src' (s.endOff - src'), dst' + (s.endOff - src')) else (m', dst')) =
        (m2, dst' + (enc pend').length) ∧ m2.read 0 (dst' + (enc pend').length) = enc (dropFlagged l) := by
      rw [← e6]
      by_cases hs : src' ≠ s.endOff
      · rw [if_pos hs, show s.endOff - src' = (enc pend').length by omega]
        refine ⟨_, rfl, ?_⟩
        rw [read_append, move_below e2 (by omega), e4, Nat.zero_add, move_read, e7, enc_append]
      · rw [if_neg hs]
        have : (enc pend').length = 0 := by omega
        refine ⟨m', by rw [this, Nat.add_zero], ?_⟩
        rw [this, Nat.add_zero, e4, enc_append, List.length_eq_zero_iff.1 this, List.append_nil]
    obtain ⟨m2, f1, f2⟩ := hfin
    rw [f1]
    refine ⟨f2, by simp only; omega, ?_, h.cap⟩
    simp only
    have := h.fits; omega

/-- **C21, single removal.** -/
theorem remove_spec {s : Store} {pre x post} (h : Rep s (pre ++ x :: post)) : Rep (s.remove (at' pre x)) (pre ++ post) := by
  have hf : ∀ (l : List (List UInt8)) p (r : List (List UInt8 × Bool)), flaggedAllocs p (l.map (fun y => (y, false)) ++ r) = flaggedAllocs (p ++ l) r := by
    intro l
    induction l with
    | nil => intro p r; simp
    | cons y l ih => intro p r; simp only [List.map_cons, List.cons_append, flaggedAllocs, Bool.false_eq_true, if_false, ih]; simp
  have hd : ∀ (l : List (List UInt8)) (r : List (List UInt8 × Bool)), dropFlagged (l.map (fun y => (y, false)) ++ r) = l ++ dropFlagged r := by
    intro l
    induction l with
    | nil => intro r; rfl
    | cons y l ih => intro r; simp only [List.map_cons, List.cons_append, dropFlagged, Bool.false_eq_true, if_false, ih]
  have h1 := removeMany_spec (s := s) (pre.map (fun y => (y, false)) ++ (x, true) :: post.map (fun y => (y, false)))
    (by simpa [Function.comp_def] using h)
  rw [hf, hd] at h1
  have h2 := hf post (pre ++ [x]) []
  have h3 := hd post []
  simp only [List.append_nil] at h2 h3
  simp only [List.nil_append, flaggedAllocs, if_true, dropFlagged, h2, h3, List.append_nil] at h1
  exact h1

/-- **C21, prefix removal.** Removing up to and including an entry leaves exactly the later ones. -/
theorem removeUntil_spec {s : Store} {pre x post} (h : Rep s (pre ++ x :: post)) :
    Rep (s.removeUntil (some (at' pre x))) post := by
  have he := h.endEq
  rw [enc_append, List.length_append, enc_cons_length] at he
  have hb := h.bytes
  rw [enc_append, show enc pre ++ enc (x :: post) = (enc pre ++ (le 4 x.length ++ x)) ++ enc post ++ [] by simp [enc, List.append_assoc]] at hb
  have hb := read_mid hb
  rw [List.length_append, List.length_append, length_le] at hb
  have hn := h.num
  have hf := h.fits
  simp only [List.length_append, List.length_cons] at hn
  simp only [Store.removeUntil, at']
  rw [if_neg (by omega)]
  refine ⟨?_, by simp only; omega, by simp only; omega, h.cap⟩
  simp only
  rw [show s.endOff - ((enc pre).length + 4 + x.length) = (enc post).length by omega, move_read,
    show (enc pre).length + 4 + x.length = 0 + ((enc pre).length + (4 + x.length)) by omega, hb]

/-- Used space never exceeds capacity, and the remaining capacity is exact. -/
theorem space_exact {s : Store} {l} (h : Rep s l) : (enc l).length ≤ s.cap ∧ s.remaining + (enc l).length = s.cap := by
  have := h.endEq; have := h.fits; simp only [Store.remaining]; omega

/-- Non-vacuity: from an empty bucket of 64 bytes (of arbitrary contents) two appends are accepted and give a storage holding
these two entries; a third of 60 bytes is refused. -/
example (d : Mem) : ∃ s : Store, Rep s [[1, 2, 3], []] ∧ s.allocate 60 = (s, none) := by
  obtain ⟨s1, h0, h1⟩ := (allocate_spec (new_spec 64 d (by decide)) 3 (by decide)).2
    (show 3 + 4 ≤ 64 - 0 by decide)
  have hcap : s1.cap = 64 := (congrArg (fun p => p.1.cap) h0).symm
  have r1 := h1 [1, 2, 3] rfl
  have x1 := space_exact r1
  have y1 : (enc ([] ++ [[1, 2, 3]])).length = 7 := by decide
  rw [y1] at x1
  replace x1 : Store.remaining _ + 7 = 64 := x1.2.trans hcap
  obtain ⟨s2, g0, g1⟩ := (allocate_spec r1 0 (by decide)).2 (by omega)
  have hcap2 : s2.cap = 64 := by
    have := (congrArg (fun p => p.1.cap) g0).symm
    simp only [Store.allocate] at this
    rw [this]; split <;> exact hcap
  have r2 := g1 [] rfl
  have x2 := space_exact r2
  have y2 : (enc ([] ++ [[1, 2, 3]] ++ [[]])).length = 11 := by decide
  rw [y2] at x2
  replace x2 : Store.remaining _ + 11 = 64 := x2.2.trans hcap2
  exact ⟨_, r2, (allocate_spec r2 60 (by decide)).1.2 (by omega)⟩

end Verif.BigHash
