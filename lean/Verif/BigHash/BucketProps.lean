import Verif.BigHash.Bucket
import Verif.BigHash.StorageProps
/-!
Property C22: small-object bucket insert / find / remove.

Specification: a bucket is a list of entries (hashed key, value), oldest first.
-/
namespace Verif.BigHash
open Verif Mem

/-- Spec: one entry. -/
structure Entry where
  hk : HKey
  value : List UInt8
deriving DecidableEq

/-- Spec: bytes of one entry. -/
def encE (e : Entry) : List UInt8 :=
  le 4 e.hk.key.length ++ le 4 e.value.length ++ le 8 e.hk.hash ++ e.hk.key ++ e.value

/-- Spec: bytes an entry occupies in the bucket. -/
def slot (e : Entry) : Nat := 4 + (16 + e.hk.key.length + e.value.length)

/-- Spec: bytes a list of entries occupies. -/
def used (es : List Entry) : Nat := (es.map slot).sum

/-- Spec: the bucket's bytes decode to exactly `es`. -/
structure Reps (s : Store) (es : List Entry) : Prop where
  rep : Rep s (es.map encE)
  hash : ∀ e ∈ es, e.hk.hash < 2 ^ 64

theorem encE_length (e : Entry) : (encE e).length = 16 + e.hk.key.length + e.value.length := by
  simp [encE]; omega

theorem enc_used (es : List Entry) : (enc (es.map encE)).length = used es := by
  induction es with
  | nil => rfl
  | cons e es ih =>
    rw [List.map_cons, enc_cons_length, ih, encE_length]
    simp [used, slot]

theorem used_append (a b : List Entry) : used (a ++ b) = used a + used b := by simp [used]
theorem used_cons (a : Entry) (b) : used (a :: b) = slot a + used b := by simp [used]

/-- The allocation of the entry after `pre`. -/
abbrev atE (pre : List Entry) (e : Entry) : Alloc := at' (pre.map encE) (encE e)

theorem reps_used {s es} (h : Reps s es) : used es ≤ s.cap ∧ s.cap < 2 ^ 32 ∧ s.remaining = s.cap - used es ∧ s.endOff = used es := by
  have h1 := space_exact h.rep
  have h2 := h.rep.endEq
  rw [enc_used] at h1 h2
  have := h.rep.cap
  omega

theorem sizes_of {s pre e post} (h : Reps s (pre ++ e :: post)) :
    e.hk.key.length < 2 ^ 32 ∧ e.value.length < 2 ^ 32 ∧ e.hk.hash < 2 ^ 64 := by
  have := reps_used h
  rw [used_append, used_cons] at this
  simp only [slot] at this
  exact ⟨by omega, by omega, h.hash e (by simp)⟩

/-- All fields of the entry at its offset. -/
theorem fields {m : Mem} {o : Nat} {e : Entry} (h : m.read o (encE e).length = encE e)
    (hs : e.hk.key.length < 2 ^ 32 ∧ e.value.length < 2 ^ 32 ∧ e.hk.hash < 2 ^ 64) :
    entHashedKey m o = e.hk ∧ entValue m o = e.value ∧ entHash m o = e.hk.hash := by
  have h0 : entKeySize m o = e.hk.key.length := by
    have h' := h
    rw [show encE e = [] ++ le 4 e.hk.key.length ++ (le 4 e.value.length ++ le 8 e.hk.hash ++ e.hk.key ++ e.value) by
      simp [encE]] at h'
    have := read_mid h'
    rw [length_le, List.length_nil, Nat.add_zero] at this
    rw [entKeySize, load, this, ofLe_le]; omega
  have h1 : entValueSize m o = e.value.length := by
    have h' := h
    rw [show encE e = le 4 e.hk.key.length ++ le 4 e.value.length ++ (le 8 e.hk.hash ++ e.hk.key ++ e.value) by
      simp [encE]] at h'
    have := read_mid h'
    rw [length_le, length_le] at this
    rw [entValueSize, load, this, ofLe_le]; omega
  have h2 : entHash m o = e.hk.hash := by
    have h' := h
    rw [show encE e = (le 4 e.hk.key.length ++ le 4 e.value.length) ++ le 8 e.hk.hash ++ (e.hk.key ++ e.value) by
      simp [encE]] at h'
    have := read_mid h'
    rw [List.length_append, length_le, length_le, length_le] at this
    rw [entHash, load, this, ofLe_le]; omega
  have h3 : entKey m o = e.hk.key := by
    have h' := h
    rw [show encE e = (le 4 e.hk.key.length ++ le 4 e.value.length ++ le 8 e.hk.hash) ++ e.hk.key ++ e.value by
      simp [encE]] at h'
    have := read_mid h'
    rw [List.length_append, List.length_append, length_le, length_le, length_le] at this
    rw [entKey, h0, this]
  have h4 : entValue m o = e.value := by
    have h' := h
    rw [show encE e = (le 4 e.hk.key.length ++ le 4 e.value.length ++ le 8 e.hk.hash ++ e.hk.key) ++ e.value ++ [] by
      simp [encE]] at h'
    have := read_mid h'
    rw [List.length_append, List.length_append, List.length_append, length_le, length_le, length_le] at this
    rw [entValue, h0, h1, show o + 16 + e.hk.key.length = o + (4 + 4 + 8 + e.hk.key.length) by omega, this]
  exact ⟨by simp only [entHashedKey, h3, h2], h4, h2⟩

theorem at_fields {s : Store} {pre e post} (h : Reps s (pre ++ e :: post)) :
    entHashedKey s.data (atE pre e).off = e.hk ∧ entValue s.data (atE pre e).off = e.value ∧
    entHash s.data (atE pre e).off = e.hk.hash := by
  have hr := h.rep
  rw [List.map_append, List.map_cons] at hr
  exact fields (payload_at hr) (sizes_of h)

theorem hkEq_iff (a b : HKey) : hkEq a b = true ↔ a = b := by
  obtain ⟨a1, a2⟩ := a; obtain ⟨b1, b2⟩ := b
  simp only [hkEq, Bool.and_eq_true, beq_iff_eq, HKey.mk.injEq]
  constructor
  · rintro ⟨⟨h1, h2⟩, h3⟩; exact ⟨h3, h1⟩
  · rintro ⟨h1, h2⟩; subst h1; exact ⟨⟨h2, rfl⟩, rfl⟩

theorem at_eq {s : Store} {pre e post} (h : Reps s (pre ++ e :: post)) (hk : HKey) :
    entKeyEq s.data (atE pre e).off hk = decide (e.hk = hk) := by
  rw [entKeyEq, (at_fields h).1]
  cases hc : hkEq hk e.hk with
  | true => rw [hkEq_iff] at hc; simp [hc]
  | false =>
    have : ¬ hk = e.hk := fun hh => by rw [(hkEq_iff ..).2 hh] at hc; cases hc
    simp [Ne.symm this]

/-- First allocation of a list of entries (if any). -/
def firstOf (pre : List Entry) : List Entry → Option Alloc
  | [] => none
  | e :: _ => some (atE pre e)

theorem first_spec {s : Store} {es} (h : Reps s es) : s.getFirst = firstOf [] es := by
  rw [getFirst_spec h.rep]; cases es <;> rfl

theorem next_spec {s : Store} {pre e post} (h : Reps s (pre ++ e :: post)) :
    s.getNext (atE pre e) = firstOf (pre ++ [e]) post := by
  have hr := h.rep
  cases post with
  | nil =>
    rw [List.map_append, List.map_cons] at hr
    exact getNext_spec hr
  | cons y post =>
    rw [List.map_append, List.map_cons, List.map_cons] at hr
    have hg := getNext_spec hr
    simp only at hg
    rw [firstOf, hg, atE, List.map_append, List.map_cons, List.map_nil]

theorem reps_shift {s : Store} {pre e post} (h : Reps s (pre ++ e :: post)) : Reps s ((pre ++ [e]) ++ post) := by
  simpa using h

/-! Unfolding equations of the loops (the termination proof's dependent match removed). -/

theorem findLoop_some (s : Store) (hk : HKey) (a : Alloc) : findLoop s hk (some a) =
    if entKeyEq s.data a.off hk then some (entValue s.data a.off) else findLoop s hk (s.getNext a) := by
  rw [findLoop]
  congr 1
  split
  · rename_i hx; rw [hx, findLoop]
  · rename_i b hx; rw [hx]

theorem removeKeyLoop_some (s : Store) (hk : HKey) (a : Alloc) : removeKeyLoop s hk (some a) =
    if entKeyEq s.data a.off hk then
      (s.remove a, [⟨entHashedKey s.data a.off, entValue s.data a.off, .removed⟩], 1)
    else removeKeyLoop s hk (s.getNext a) := by
  rw [removeKeyLoop]
  congr 1
  split
  · rename_i hx; rw [hx, removeKeyLoop]
  · rename_i b hx; rw [hx]

theorem expiredLoop_some (s : Store) (c : List UInt8 → Bool) (a : Alloc) : expiredLoop s c (some a) =
    if !c (entValue s.data a.off) then expiredLoop s c (s.getNext a)
    else (a :: (expiredLoop s c (s.getNext a)).1,
      ⟨entHashedKey s.data a.off, entValue s.data a.off, .recycled⟩ :: (expiredLoop s c (s.getNext a)).2) := by
  rw [expiredLoop]
  split
  · rename_i hx; rw [hx, expiredLoop]
  · rename_i b hx; rw [hx]

theorem evictLoop_some (s : Store) (req free : Nat) (a : Alloc) : evictLoop s req free (some a) =
    if free + slotSize a.size ≥ req then
      some (s.removeUntil (some a), [⟨entHashedKey s.data a.off, entValue s.data a.off, .recycled⟩])
    else (evictLoop s req (free + slotSize a.size) (s.getNext a)).map
      fun r => (r.1, ⟨entHashedKey s.data a.off, entValue s.data a.off, .recycled⟩ :: r.2) := by
  rw [evictLoop]
  congr 1
  split
  · rename_i hx; rw [hx, evictLoop]; rfl
  · rename_i b hx; rw [hx]
    cases evictLoop s req (free + slotSize a.size) (some b) <;> rfl

theorem hashLoop_some (s : Store) (a : Alloc) : hashLoop s (some a) = entHash s.data a.off :: hashLoop s (s.getNext a) := by
  rw [hashLoop]
  congr 1
  split
  · rename_i hx; rw [hx, hashLoop]
  · rename_i b hx; rw [hx]

/-! ### find -/

theorem findLoop_spec {s : Store} (hk : HKey) (post : List Entry) : ∀ (pre : List Entry), Reps s (pre ++ post) →
    findLoop s hk (firstOf pre post) = (post.find? (fun e => e.hk = hk)).map (·.value) := by
  induction post with
  | nil => intro pre _; rw [firstOf, findLoop]; rfl
  | cons e post ih =>
    intro pre h
    rw [firstOf, findLoop_some, at_eq h, (at_fields h).2.1]
    by_cases he : e.hk = hk
    · rw [if_pos (by simpa using he)]; simp [he]
    · rw [if_neg (by simpa using he), next_spec h, ih (pre ++ [e]) (reps_shift h), List.find?_cons_of_neg (by simpa using he)]

/-- **C22, find.** A lookup returns the value of the oldest entry of exactly that key (key bytes and hash), or nothing. -/
theorem find_spec {s : Store} {es} (h : Reps s es) (hk : HKey) :
    bfind s hk = (es.find? (fun e => e.hk = hk)).map (·.value) := by
  rw [bfind, first_spec h]; exact findLoop_spec hk es [] h

/-! ### remove -/

theorem removeKeyLoop_spec {s : Store} (hk : HKey) (post : List Entry) : ∀ (pre : List Entry), Reps s (pre ++ post) →
    (∀ e ∈ post, e.hk ≠ hk) ∧ removeKeyLoop s hk (firstOf pre post) = (s, [], 0) ∨
    ∃ p1 e p2 s', post = p1 ++ e :: p2 ∧ (∀ x ∈ p1, x.hk ≠ hk) ∧ e.hk = hk ∧ Reps s' (pre ++ p1 ++ p2) ∧ s'.cap = s.cap ∧
      removeKeyLoop s hk (firstOf pre post) = (s', [⟨hk, e.value, .removed⟩], 1) := by
  induction post with
  | nil => intro pre _; left; refine ⟨by simp, ?_⟩; rw [firstOf, removeKeyLoop]
  | cons e post ih =>
    intro pre h
    rw [firstOf, removeKeyLoop_some, at_eq h, (at_fields h).1, (at_fields h).2.1]
    by_cases he : e.hk = hk
    · rw [if_pos (by simpa using he)]
      right
      have hr := h.rep
      rw [List.map_append, List.map_cons] at hr
      refine ⟨[], e, post, s.remove (atE pre e), rfl, by simp, he, ⟨?_, ?_⟩, ?_, ?_⟩
      · rw [List.append_nil, List.map_append]; exact remove_spec hr
      · intro x hx; apply h.hash; simp at hx ⊢; rcases hx with hx | hx <;> simp [hx]
      · simp only [Store.remove, Store.removeMany, List.isEmpty_cons, Bool.false_eq_true, if_false]
      · rw [he]
    · rw [if_neg (by simpa using he), next_spec h]
      have hi := ih (pre ++ [e]) (reps_shift h)
      rcases hi with ⟨h1, h2⟩ | ⟨p1, e', p2, s', h1, h2, h3, h4, h5, h6⟩
      · left; refine ⟨fun x hx => ?_, h2⟩
        rcases List.mem_cons.1 hx with rfl | hx
        · exact he
        · exact h1 x hx
      · right
        refine ⟨e :: p1, e', p2, s', by rw [h1]; rfl, ?_, h3, by simpa using h4, h5, h6⟩
        intro x hx; rcases List.mem_cons.1 hx with rfl | hx
        · exact he
        · exact h2 x hx

/-- **C22, remove.** If the key is absent nothing changes and 0 is returned; otherwise exactly its oldest entry goes, all other
entries stay as they were and in order, and the callback is invoked once with that key, its value and the event "removed". -/
theorem bremove_spec {s : Store} {es} (h : Reps s es) (hk : HKey) :
    ((∀ e ∈ es, e.hk ≠ hk) ∧ bremove s hk = (s, [], 0)) ∨
    ∃ p1 e p2 s', es = p1 ++ e :: p2 ∧ (∀ x ∈ p1, x.hk ≠ hk) ∧ e.hk = hk ∧ Reps s' (p1 ++ p2) ∧ s'.cap = s.cap ∧
      bremove s hk = (s', [⟨hk, e.value, .removed⟩], 1) := by
  rw [bremove, first_spec h]
  simpa using removeKeyLoop_spec hk es [] h

/-! ### insert -/

/-- Spec: callback invocation for an entry evicted for space or because it expired. -/
def recycle (e : Entry) : Call := ⟨e.hk, e.value, .recycled⟩

/-- Spec: is the entry expired according to the (optional) expiry check? -/
def expired (chk : Option (List UInt8 → Bool)) (e : Entry) : Bool :=
  match chk with
  | none => false
  | some c => c e.value

theorem expiredLoop_spec {s : Store} (c : List UInt8 → Bool) (post : List Entry) : ∀ (pre : List Entry), Reps s (pre ++ post) →
    expiredLoop s c (firstOf pre post) =
      (flaggedAllocs (pre.map encE) (post.map fun e => (encE e, c e.value)), (post.filter fun e => c e.value).map recycle) := by
  induction post with
  | nil => intro pre _; rw [firstOf, expiredLoop]; rfl
  | cons e post ih =>
    intro pre h
    have hi := ih (pre ++ [e]) (reps_shift h)
    rw [firstOf, expiredLoop_some, next_spec h, hi, (at_fields h).1, (at_fields h).2.1]
    simp only [List.map_cons, flaggedAllocs, List.map_append, List.map_nil]
    cases hc : c e.value with
    | false => simp [hc]
    | true => simp [hc, recycle]

theorem dropFlagged_map (c : List UInt8 → Bool) (es : List Entry) :
    dropFlagged (es.map fun e => (encE e, c e.value)) = (es.filter fun e => !c e.value).map encE := by
  induction es with
  | nil => rfl
  | cons e es ih =>
    simp only [List.map_cons, dropFlagged, ih]
    cases hc : c e.value <;> simp [hc]

theorem flagged_len (c : List UInt8 → Bool) (es : List Entry) (pre) :
    (flaggedAllocs pre (es.map fun e => (encE e, c e.value))).length = (es.filter fun e => c e.value).length := by
  induction es generalizing pre with
  | nil => rfl
  | cons e es ih =>
    simp only [List.map_cons, flaggedAllocs]
    cases hc : c e.value <;> simp [hc, ih]

theorem cap_removeMany (s : Store) (as) : (s.removeMany as).cap = s.cap := by
  simp only [Store.removeMany]; split <;> rfl

theorem removeExpired_spec {s : Store} {es} (h : Reps s es) (chk : Option (List UInt8 → Bool)) :
    ∃ s', removeExpired s chk = (s', (es.filter (expired chk)).map recycle, (es.filter (expired chk)).length) ∧
      Reps s' (es.filter fun e => !expired chk e) ∧ s'.cap = s.cap := by
  cases chk with
  | none =>
    refine ⟨s, ?_, ?_, rfl⟩
    · have : es.filter (expired none) = [] := by rw [List.filter_eq_nil_iff]; intro x _; simp [expired]
      rw [this]; rfl
    · have : (es.filter fun e => !expired none e) = es := by rw [List.filter_eq_self]; intro x _; simp [expired]
      rw [this]; exact h
  | some c =>
    simp only [removeExpired, first_spec h]
    rw [expiredLoop_spec c es [] h]
    refine ⟨_, Prod.ext rfl (Prod.ext rfl ?_), ⟨?_, ?_⟩, cap_removeMany ..⟩
    · exact flagged_len ..
    · have hm : Rep s ((es.map fun e => (encE e, c e.value)).map Prod.fst) := by
        simpa [Function.comp_def] using h.rep
      have := removeMany_spec _ hm
      rw [dropFlagged_map] at this
      exact this
    · intro e he; exact h.hash e ((List.mem_filter.1 he).1)

/-- Minimal prefix: `n` entries are dropped, enough for `need` more bytes, and no fewer would do. -/
structure MinDrop (cap need : Nat) (es : List Entry) (n : Nat) : Prop where
  le : n ≤ es.length
  room : used (es.drop n) + need ≤ cap
  least : ∀ m, m < n → cap < used (es.drop m) + need

theorem slotSize_of {s pre e post} (h : Reps s (pre ++ e :: post)) : slotSize (encE e).length = slot e := by
  have := reps_used h
  rw [used_append, used_cons] at this
  simp only [slot] at this
  simp only [slotSize, kAO, encE_length, slot]
  rw [Nat.mod_eq_of_lt (by omega)]

theorem evictLoop_spec {s : Store} {req : Nat} (hreq : req ≤ s.cap) (post : List Entry) : ∀ (pre : List Entry) (free : Nat),
    Reps s (pre ++ post) → free = s.cap - used post → free < req →
    ∃ n s', MinDrop s.cap req post n ∧ 0 < n ∧ Reps s' (post.drop n) ∧ s'.cap = s.cap ∧
      evictLoop s req free (firstOf pre post) = some (s', (post.take n).map recycle) := by
  induction post with
  | nil => intro pre free _ hf hlt; simp [used] at hf; omega
  | cons e post ih =>
    intro pre free h hf hlt
    have hu := reps_used h
    rw [used_append, used_cons] at hu
    rw [used_cons] at hf
    rw [firstOf, evictLoop_some, (at_fields h).1, (at_fields h).2.1, slotSize_of h]
    have hfree : free + slot e = s.cap - used post := by omega
    by_cases hge : free + slot e ≥ req
    · rw [if_pos hge]
      have hr := h.rep
      rw [List.map_append, List.map_cons] at hr
      refine ⟨1, _, ⟨by simp, by simp; omega, ?_⟩, by omega, ⟨?_, ?_⟩, ?_, rfl⟩
      · intro m hm; have : m = 0 := by omega
        subst this; rw [List.drop_zero, used_cons]; omega
      · simpa using removeUntil_spec hr
      · intro x hx; apply h.hash; simp at hx ⊢; simp [hx]
      · simp only [Store.removeUntil]; split <;> rfl
    · rw [if_neg hge]
      obtain ⟨n, s', h1, h2, h3, h4, h5⟩ := ih (pre ++ [e]) (free + slot e) (reps_shift h) hfree (by omega)
      rw [next_spec h, h5]
      refine ⟨n + 1, s', ⟨by have := h1.le; simp; omega, by simpa using h1.room, ?_⟩, by omega, by simpa using h3, h4, rfl⟩
      intro m hm
      cases m with
      | zero => rw [List.drop_zero, used_cons]; omega
      | succ m => rw [List.drop_succ_cons]; exact h1.least m (by omega)

/-- **C22, insert.** For every entry that fits an empty bucket, the insert succeeds (no undefined behaviour). If there is room
nothing leaves. Otherwise all expired entries leave first; then as few of the oldest remaining entries as needed. The others stay, in
order and byte-identical, followed by the new entry. Each entry that leaves is reported exactly once, with its key and value and the
event "recycled", expired ones first; the returned numbers are exact. -/
theorem binsert_spec {s : Store} {es} (h : Reps s es) (e : Entry) (chk : Option (List UInt8 → Bool))
    (hh : e.hk.hash < 2 ^ 64) (hfit : slot e ≤ s.cap) :
    ∃ s' calls ev ex, binsert s e.hk e.value chk = some (s', calls, ev, ex) ∧ s'.cap = s.cap ∧
      ((used es + slot e ≤ s.cap ∧ Reps s' (es ++ [e]) ∧ calls = [] ∧ ev = 0 ∧ ex = 0) ∨
       (s.cap < used es + slot e ∧ ∃ n, MinDrop s.cap (slot e) (es.filter fun x => !expired chk x) n ∧
          Reps s' ((es.filter fun x => !expired chk x).drop n ++ [e]) ∧
          calls = (es.filter (expired chk) ++ (es.filter fun x => !expired chk x).take n).map recycle ∧
          ev = calls.length ∧ ex = (es.filter (expired chk)).length)) := by
  have hu := reps_used h
  have hslot : slot e = 4 + (16 + e.hk.key.length + e.value.length) := rfl
  have hcs : computeSize e.hk.key.length e.value.length = (encE e).length := by
    rw [encE_length]; simp only [computeSize, sizeofEntry]; rw [Nat.mod_eq_of_lt (by omega)]
  have hss : slotSize (encE e).length = slot e := by
    simp only [slotSize, kAO, encE_length]; rw [Nat.mod_eq_of_lt (by omega)]; rfl
  have hel := encE_length e
  -- appending to a storage with room
  have app : ∀ (t : Store) (ts : List Entry), Reps t ts → t.cap = s.cap → used ts + slot e ≤ s.cap →
      ∃ t2 a, t.allocate (encE e).length = (t2, some a) ∧
        Reps { t2 with data := entCreate t2.data a.off e.hk e.value } (ts ++ [e]) ∧ t2.cap = s.cap := by
    intro t ts ht hcap hroom
    have htu := reps_used ht
    obtain ⟨-, h2⟩ := allocate_spec ht.rep (encE e).length (by omega)
    obtain ⟨t2, h3, h4⟩ := h2 (by omega)
    refine ⟨t2, _, h3, ⟨?_, ?_⟩, ?_⟩
    · have h5 := h4 (encE e) rfl
      rw [List.map_append, List.map_cons, List.map_nil]
      have hwr : ∀ m o, (entCreate m o e.hk e.value) = m.write o (encE e) := by
        intro m o
        have hk0 : entKeySize ((((m.store o 4 e.hk.key.length).store (o + 4) 4 e.value.length).store (o + 8) 8 e.hk.hash).write (o + 16) e.hk.key) o
            = e.hk.key.length := by
          rw [entKeySize, load_write_disj (by omega), load_store_disj (by omega), load_store_disj (by omega), load_store (by rw [show 256 ^ 4 = 2 ^ 32 by decide]; omega)]
        simp only [entCreate, hk0]
        simp only [store]
        rw [write_write_adj' (b := le 4 e.value.length) (by simp), write_write_adj' (b := le 8 e.hk.hash) (by simp),
          write_write_adj' (b := e.hk.key) (by simp), write_write_adj' (b := e.value) (by simp; omega), encE]
      rw [hwr]; exact h5
    · intro x hx
      rcases List.mem_append.1 hx with hx | hx
      · exact ht.hash x hx
      · simp at hx; subst hx; exact hh
    · have := congrArg (fun p => p.1.cap) h3
      simp only [Store.allocate] at this
      rw [← hcap, ← this]
      split <;> rfl
  simp only [binsert, hcs, makeSpace, hss]
  by_cases hroom : s.remaining ≥ slot e
  · rw [if_pos hroom]
    obtain ⟨t2, a, h1, h2, h3⟩ := app s es h rfl (by omega)
    simp only [h1]
    exact ⟨_, _, _, _, rfl, h3, Or.inl ⟨by omega, h2, rfl, rfl, rfl⟩⟩
  · rw [if_neg hroom]
    obtain ⟨s1, e1, r1, c1⟩ := removeExpired_spec h chk
    have hu1 := reps_used r1
    simp only [e1]
    by_cases hfree : (es.filter (expired chk)).length > 0 ∧ s1.remaining ≥ slot e
    · rw [if_pos hfree]
      obtain ⟨t2, a, h1, h2, h3⟩ := app s1 _ r1 c1 (by omega)
      simp only [h1]
      refine ⟨_, _, _, _, rfl, h3, Or.inr ⟨by omega, 0, ⟨by omega, by simp; omega, by intro m hm; omega⟩, by simpa using h2, by simp,
        by simp, rfl⟩⟩
    · rw [if_neg hfree]
      have hlt : s1.remaining < slot e := by
        by_cases h0 : (es.filter (expired chk)).length > 0
        · have : ¬ s1.remaining ≥ slot e := fun hc => hfree ⟨h0, hc⟩
          omega
        · have hnil : es.filter (expired chk) = [] := List.length_eq_zero_iff.1 (by omega)
          have hall : es.filter (fun x => !expired chk x) = es := by
            rw [List.filter_eq_self]
            intro x hx
            have := List.filter_eq_nil_iff.1 hnil x hx
            simpa using this
          rw [hall] at hu1; omega
      obtain ⟨n, s2, m1, m2, m3, m4, m5⟩ := evictLoop_spec (s := s1) (req := slot e) (by omega) (es.filter fun x => !expired chk x) []
        s1.remaining (by simpa using r1) (by omega) hlt
      rw [first_spec r1, m5]
      obtain ⟨t2, a, h1, h2, h3⟩ := app s2 _ m3 (by omega) (by rw [← c1]; exact m1.room)
      simp only [h1]
      refine ⟨_, _, _, _, rfl, h3, Or.inr ⟨by omega, n, by rw [← c1]; exact m1, h2, by simp, by simp, rfl⟩⟩

/-! ### Iteration of hashes (used to rebuild the membership filter) -/

theorem hashLoop_spec {s : Store} (post : List Entry) : ∀ (pre : List Entry), Reps s (pre ++ post) →
    hashLoop s (firstOf pre post) = post.map (·.hk.hash) := by
  induction post with
  | nil => intro pre _; rw [firstOf, hashLoop]; rfl
  | cons e post ih =>
    intro pre h
    rw [firstOf, hashLoop_some, next_spec h, (at_fields h).2.2, ih (pre ++ [e]) (reps_shift h), List.map_cons]

/-- Iterating a bucket yields the hashes of exactly its entries, in order. -/
theorem bhashes_spec {s : Store} {es} (h : Reps s es) : bhashes s = es.map (·.hk.hash) := by
  rw [bhashes, first_spec h]; exact hashLoop_spec es [] h

theorem new_reps (cap : Nat) (d : Mem) (h : cap < 2 ^ 32) : Reps (Store.new cap d) [] := ⟨new_spec cap d h, by simp⟩

/-! ### Histories of one bucket -/

/-- Operations on a bucket as the engine issues them: an insert is preceded by a removal of the same key
(BigHash.cpp:327-328). -/
inductive BOp
  | insert (e : Entry) (chk : Option (List UInt8 → Bool))
  | remove (hk : HKey)

/-- One operation: new storage and callback invocations; `none` models undefined behaviour. -/
def bstep (s : Store) : BOp → Option (Store × List Call)
  | .insert e chk =>
    let r := bremove s e.hk
    match binsert r.1 e.hk e.value chk with
    | none => none
    | some (s', calls, _, _) => some (s', r.2.1 ++ calls)
  | .remove hk => let r := bremove s hk; some (r.1, r.2.1)

def brun (s : Store) : List BOp → Option (Store × List Call)
  | [] => some (s, [])
  | o :: os =>
    match bstep s o with
    | none => none
    | some (s', c) =>
      match brun s' os with
      | none => none
      | some (s'', c') => some (s'', c ++ c')

/-- Spec: the value of the latest insert of `k` that no later remove of `k` follows. -/
def latest (k : HKey) : List BOp → Option (List UInt8) → Option (List UInt8)
  | [], acc => acc
  | .insert e _ :: os, acc => latest k os (if e.hk = k then some e.value else acc)
  | .remove hk :: os, acc => latest k os (if hk = k then none else acc)

/-- Spec: all inserted entries fit an empty bucket. -/
def AllFit (cap : Nat) (os : List BOp) : Prop :=
  ∀ e chk, BOp.insert e chk ∈ os → slot e ≤ cap ∧ e.hk.hash < 2 ^ 64

/-- Spec: entries inserted by a history. -/
def inserted : List BOp → List Entry
  | [] => []
  | .insert e _ :: os => e :: inserted os
  | .remove _ :: os => inserted os

theorem bremove_reps {s : Store} {es} (h : Reps s es) (hk : HKey) (hn : (es.map (·.hk)).Nodup) :
    Reps (bremove s hk).1 (es.filter fun x => decide (x.hk ≠ hk)) ∧ (bremove s hk).1.cap = s.cap ∧
    (bremove s hk).2.1 = (es.filter fun x => decide (x.hk = hk)).map (fun e => ⟨e.hk, e.value, .removed⟩) ∧
    (bremove s hk).2.2 = (es.filter fun x => decide (x.hk = hk)).length := by
  rcases bremove_spec h hk with ⟨h1, h2⟩ | ⟨p1, e, p2, s', h1, h2, h3, h4, h5, h6⟩
  · have e1 : (es.filter fun x => decide (x.hk ≠ hk)) = es := by
      rw [List.filter_eq_self]; intro x hx; simpa using h1 x hx
    have e2 : (es.filter fun x => decide (x.hk = hk)) = [] := by
      rw [List.filter_eq_nil_iff]; intro x hx; simpa using h1 x hx
    rw [e1, e2, h2]; exact ⟨h, rfl, rfl, rfl⟩
  · subst h1
    rw [List.map_append, List.map_cons] at hn
    have hp2 : ∀ x ∈ p2, x.hk ≠ hk := by
      intro x hx he
      have := (List.nodup_append.1 hn).2.1
      rw [List.nodup_cons] at this
      exact this.1 (List.mem_map.2 ⟨x, hx, by rw [he, h3]⟩)
    have f1 : (p1.filter fun x => decide (x.hk ≠ hk)) = p1 := by
      rw [List.filter_eq_self]; intro x hx; simpa using h2 x hx
    have f2 : (p2.filter fun x => decide (x.hk ≠ hk)) = p2 := by
      rw [List.filter_eq_self]; intro x hx; simpa using hp2 x hx
    have g1 : (p1.filter fun x => decide (x.hk = hk)) = [] := by
      rw [List.filter_eq_nil_iff]; intro x hx; simpa using h2 x hx
    have g2 : (p2.filter fun x => decide (x.hk = hk)) = [] := by
      rw [List.filter_eq_nil_iff]; intro x hx; simpa using hp2 x hx
    rw [h6]
    simp only [List.filter_append, List.filter_cons, h3, ne_eq, not_true_eq_false, decide_false, decide_true, Bool.false_eq_true,
      if_false, if_true, f1, f2, g1, g2, List.nil_append, List.map_cons, List.map_nil, List.length_cons, List.length_nil]
    exact ⟨h4, h5, trivial, trivial⟩

theorem nodup_sublist_map {a b : List Entry} (h : a.Sublist b) (hn : (b.map (·.hk)).Nodup) : (a.map (·.hk)).Nodup :=
  List.Nodup.sublist (h.map _) hn

/-- The entries kept by an insert: some sublist of the old ones, then the new one; the callback saw exactly the others. -/
theorem binsert_kept {s : Store} {es} (h : Reps s es) (e : Entry) (chk : Option (List UInt8 → Bool))
    (hh : e.hk.hash < 2 ^ 64) (hfit : slot e ≤ s.cap) :
    ∃ s' calls ev ex kept, binsert s e.hk e.value chk = some (s', calls, ev, ex) ∧ s'.cap = s.cap ∧ Reps s' (kept ++ [e]) ∧
      kept.Sublist es ∧ (calls ++ kept.map recycle).Perm (es.map recycle) := by
  obtain ⟨s', calls, ev, ex, h1, h2, h3⟩ := binsert_spec h e chk hh hfit
  rcases h3 with ⟨_, h4, h5, _⟩ | ⟨_, n, h4, h5, h6, _⟩
  · exact ⟨s', calls, ev, ex, es, h1, h2, h4, List.Sublist.refl _, by rw [h5]; exact List.Perm.refl _⟩
  · refine ⟨s', calls, ev, ex, _, h1, h2, h5, (List.drop_sublist ..).trans (List.filter_sublist ..), ?_⟩
    rw [h6, ← List.map_append, List.append_assoc, List.take_append_drop]
    exact (List.filter_append_perm _ es).map _

theorem find_nodup {es : List Entry} (hn : (es.map (·.hk)).Nodup) {e : Entry} (he : e ∈ es) :
    es.find? (fun x => decide (x.hk = e.hk)) = some e := by
  induction es with
  | nil => cases he
  | cons a es ih =>
    rw [List.map_cons, List.nodup_cons] at hn
    rcases List.mem_cons.1 he with rfl | he
    · simp
    · have : a.hk ≠ e.hk := fun hc => hn.1 (List.mem_map.2 ⟨e, he, hc.symm⟩)
      rw [List.find?_cons_of_neg (by simpa using this)]
      exact ih hn.2 he

theorem bstep_inv {s : Store} {es} (h : Reps s es) (hn : (es.map (·.hk)).Nodup) (o : BOp) (hf : AllFit s.cap [o])
    (acc : HKey → Option (List UInt8)) (ha : ∀ e ∈ es, acc e.hk = some e.value) :
    ∃ s' calls es', bstep s o = some (s', calls) ∧ s'.cap = s.cap ∧ Reps s' es' ∧ (es'.map (·.hk)).Nodup ∧
      (∀ e ∈ es', latest e.hk [o] (acc e.hk) = some e.value) ∧
      (∀ e chk, o = .insert e chk → e ∈ es') ∧
      (calls.map (fun c => (⟨c.hk, c.value⟩ : Entry)) ++ es').Perm (es ++ inserted [o]) := by
  cases o with
  | remove hk =>
    obtain ⟨h1, h2, h3, h4⟩ := bremove_reps h hk hn
    refine ⟨_, _, _, rfl, h2, h1, nodup_sublist_map (List.filter_sublist ..) hn, ?_, by simp, ?_⟩
    · intro e he
      obtain ⟨he1, he2⟩ := List.mem_filter.1 he
      simp only [latest]
      have : e.hk ≠ hk := by simpa using he2
      rw [if_neg (Ne.symm this)]; exact ha e he1
    · simp only [h3, inserted, List.append_nil, List.map_map, Function.comp_def]
      have hid : ∀ l : List Entry, l.map (fun x => (⟨x.hk, x.value⟩ : Entry)) = l := fun l => by simp
      rw [hid]
      have := List.filter_append_perm (fun x : Entry => decide (x.hk = hk)) es
      simpa using this
  | insert e chk =>
    obtain ⟨h1, h2, h3, h4⟩ := bremove_reps h e.hk hn
    obtain ⟨hs, hh⟩ := hf e chk (by simp)
    obtain ⟨s', calls, ev, ex, kept, k1, k2, k3, k4, k5⟩ := binsert_kept h1 e chk hh (by rw [h2]; exact hs)
    have hkept : ∀ x ∈ kept, x ∈ es ∧ x.hk ≠ e.hk := by
      intro x hx
      obtain ⟨a, b⟩ := List.mem_filter.1 (k4.subset hx)
      exact ⟨a, by simpa using b⟩
    refine ⟨s', (bremove s e.hk).2.1 ++ calls, kept ++ [e], ?_, by rw [k2, h2], k3, ?_, ?_, ?_, ?_⟩
    · simp only [bstep, k1]
    · rw [List.map_append, List.map_cons, List.map_nil, List.nodup_append]
      refine ⟨nodup_sublist_map (k4.trans (List.filter_sublist ..)) hn, by simp, ?_⟩
      intro a ha b hb
      obtain ⟨x, hx, rfl⟩ := List.mem_map.1 ha
      simp only [List.mem_singleton] at hb; subst hb
      exact (hkept x hx).2
    · intro x hx
      simp only [latest]
      rcases List.mem_append.1 hx with hx | hx
      · rw [if_neg (Ne.symm (hkept x hx).2)]; exact ha x (hkept x hx).1
      · simp only [List.mem_singleton] at hx; subst hx; simp
    · intro e' chk' he; injection he with h1 h2; subst h1; simp
    · simp only [inserted, List.map_append, h3, List.map_map, Function.comp_def]
      have hid : ∀ l : List Entry, l.map (fun x => (⟨x.hk, x.value⟩ : Entry)) = l := fun l => by simp
      rw [hid]
      have k6 := k5.map (fun c : Call => (⟨c.hk, c.value⟩ : Entry))
      simp only [List.map_append, List.map_map, Function.comp_def, recycle] at k6
      rw [hid, hid] at k6
      have := List.filter_append_perm (fun x : Entry => decide (x.hk = e.hk)) es
      rw [← List.append_assoc]
      refine List.Perm.append_right _ ?_
      rw [List.append_assoc]
      refine (List.Perm.append_left _ k6).trans ?_
      simpa using this

theorem brun_inv (os : List BOp) : ∀ {s : Store} {es}, Reps s es → (es.map (·.hk)).Nodup → AllFit s.cap os →
    ∀ acc : HKey → Option (List UInt8), (∀ e ∈ es, acc e.hk = some e.value) →
    ∃ s' calls es', brun s os = some (s', calls) ∧ s'.cap = s.cap ∧ Reps s' es' ∧ (es'.map (·.hk)).Nodup ∧
      (∀ e ∈ es', latest e.hk os (acc e.hk) = some e.value) ∧
      (calls.map (fun c => (⟨c.hk, c.value⟩ : Entry)) ++ es').Perm (es ++ inserted os) := by
  induction os with
  | nil => intro s es h hn hf acc ha; exact ⟨s, [], es, rfl, rfl, h, hn, ha, by simp [inserted]⟩
  | cons o os ih =>
    intro s es h hn hf acc ha
    obtain ⟨s1, c1, es1, a1, a2, a3, a4, a5, a6, a7⟩ := bstep_inv h hn o (fun e chk hm => hf e chk (by simp at hm; simp [hm])) acc ha
    obtain ⟨s2, c2, es2, b1, b2, b3, b4, b5, b6⟩ := ih a3 a4 (by rw [a2]; exact fun e chk hm => hf e chk (by simp [hm]))
      (fun k => latest k [o] (acc k)) a5
    refine ⟨s2, c1 ++ c2, es2, by simp only [brun, a1, b1], by rw [b2, a2], b3, b4, ?_, ?_⟩
    · intro e he
      have := b5 e he
      cases o <;> exact this
    · rw [List.map_append, List.append_assoc]
      refine (List.Perm.append_left _ b6).trans ?_
      rw [← List.append_assoc]
      refine (List.Perm.append_right _ a7).trans ?_
      rw [List.append_assoc]
      cases o <;> simp [inserted]

/-- **C22, histories.** For every history of inserts and removes of a bucket that starts empty (every inserted entry fitting an empty
bucket): no undefined behaviour; every value found is the value of the latest insert of that very key, not removed since; and every
entry ever inserted is either still in the bucket or was reported to the callback, exactly once (as multisets). -/
theorem bucket_history (cap : Nat) (hcap : cap < 2 ^ 32) (d : Mem) (os : List BOp) (hf : AllFit cap os) :
    ∃ s calls es, brun (Store.new cap d) os = some (s, calls) ∧ Reps s es ∧ used es ≤ cap ∧
      (∀ hk v, bfind s hk = some v → latest hk os none = some v) ∧
      (calls.map (fun c => (⟨c.hk, c.value⟩ : Entry)) ++ es).Perm (inserted os) := by
  obtain ⟨s, calls, es, h1, h2, h3, h4, h5, h6⟩ := brun_inv os (new_reps cap d hcap) (by simp) hf (fun _ => none) (by simp)
  refine ⟨s, calls, es, h1, h3, ?_, ?_, by simpa using h6⟩
  · have := (reps_used h3).1; rw [h2] at this; exact this
  · intro hk v hv
    rw [find_spec h3] at hv
    cases hx : es.find? (fun e => decide (e.hk = hk)) with
    | none => rw [hx] at hv; cases hv
    | some e =>
      rw [hx] at hv
      have he := List.mem_of_find?_eq_some hx
      have hk' := List.find?_some hx
      simp only [decide_eq_true_eq] at hk'
      have := h5 e he
      rw [hk'] at this
      simp at hv; rw [← hv]; exact this

/-- **C22.** Right after an insert the inserted value is found (whatever the history before). -/
theorem bucket_insert_find (cap : Nat) (hcap : cap < 2 ^ 32) (d : Mem) (os : List BOp) (e : Entry) (chk)
    (hf : AllFit cap (os ++ [.insert e chk])) :
    ∃ s calls s' calls', brun (Store.new cap d) os = some (s, calls) ∧ bstep s (.insert e chk) = some (s', calls') ∧
      bfind s' e.hk = some e.value := by
  obtain ⟨s, calls, es, h1, h2, h3, h4, h5, h6⟩ := brun_inv os (new_reps cap d hcap) (by simp)
    (fun a b hm => hf a b (by simp [hm])) (fun _ => none) (by simp)
  obtain ⟨s1, c1, es1, a1, a2, a3, a4, a5, a6, a7⟩ := bstep_inv h3 h4 (.insert e chk)
    (by rw [h2]; exact fun a b hm => hf a b (by simp at hm; simp [hm])) (fun k => latest k os none) (by intro e he; exact h5 e he)
  refine ⟨s, calls, s1, c1, h1, a1, ?_⟩
  rw [find_spec a3, find_nodup a4 (a6 e chk rfl)]; rfl

/-! ### The random sample returns a wrong key -/

/-- Negative result: Bucket::getRandomAlloc (Bucket.cpp:186) converts the key through a C string, but keys are not NUL
terminated in the bucket. For the bucket holding the single entry with key "A", value "B" it yields key "AB". -/
theorem brandom_wrong_key : ∃ s, Reps s [⟨⟨[65], 7⟩, [66]⟩] ∧ brandom s 0 80 = some ([65, 66], [66]) := by
  refine ⟨{ (Store.allocate (Store.new 100 fun _ => 0) 18).1 with
    data := entCreate (Store.allocate (Store.new 100 fun _ => 0) 18).1.data 4 ⟨[65], 7⟩ [66] }, ?_, ?_⟩
  · obtain ⟨s', calls, ev, ex, h1, h2, h3⟩ := binsert_spec (new_reps 100 (fun _ => 0) (by decide)) ⟨⟨[65], 7⟩, [66]⟩ none
      (by decide) (by decide)
    rcases h3 with ⟨_, h4, _⟩ | ⟨h4, _⟩
    · have : s' = { (Store.allocate (Store.new 100 fun _ => 0) 18).1 with
        data := entCreate (Store.allocate (Store.new 100 fun _ => 0) 18).1.data 4 ⟨[65], 7⟩ [66] } := by
        have h5 := congrArg (Option.map Prod.fst) h1
        simp only [Option.map_some, Option.some.injEq] at h5
        have h6 : (binsert (Store.new 100 fun _ => 0) ⟨[65], 7⟩ [66] none).map Prod.fst = some s' := by rw [h1]; rfl
        rw [← Option.some.injEq, ← h6]; rfl
      rw [← this]; simpa using h4
    · exact absurd h4 (by decide)
  · rw [brandom]
    show randomLoop _ 0 80 (some ⟨4, _, 0⟩) = _
    rw [randomLoop]
    simp only [show (0 : Nat) < 4 + _ from by omega, if_true]
    decide

/-! ### Non-vacuity -/

/-- A bucket of 100 bytes holding two entries. -/
example : ∃ s es, Reps s es ∧ es.length = 2 ∧ s.cap = 100 := by
  obtain ⟨s1, c1, v1, x1, h1, h2, h3⟩ := binsert_spec (new_reps 100 (fun _ => 0) (by decide)) ⟨⟨[65], 7⟩, [66, 1]⟩ none (by decide) (by decide)
  rcases h3 with ⟨_, h4, _⟩ | ⟨h4, _⟩
  · obtain ⟨s2, c2, v2, x2, g1, g2, g3⟩ := binsert_spec h4 ⟨⟨[65, 0], 7⟩, []⟩ none (by decide) (by rw [h2]; decide)
    rcases g3 with ⟨_, g4, _⟩ | ⟨g4, _⟩
    · exact ⟨s2, _, g4, rfl, by rw [g2, h2]; rfl⟩
    · rw [h2] at g4; exact absurd g4 (by decide)
  · exact absurd h4 (by decide)

/-- A history with colliding hashes, an expiry check and evictions meets the hypotheses of `bucket_history`. -/
example : AllFit 50 [.insert ⟨⟨[1], 7⟩, [2, 3]⟩ none, .insert ⟨⟨[2], 7⟩, [4]⟩ (some fun v => v.length == 2),
    .remove ⟨[1], 7⟩, .insert ⟨⟨[2], 7⟩, []⟩ none, .insert ⟨⟨[3], 9⟩, [5]⟩ none] := by
  intro e chk h
  simp at h
  rcases h with ⟨rfl, _⟩ | ⟨rfl, _⟩ | ⟨rfl, _⟩ | ⟨rfl, _⟩ <;> decide

end Verif.BigHash
