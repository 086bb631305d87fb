import Verif.Datatype.Buffer

/-! # Representation invariant of `Buffer` and its operations on the abstract list of slots -/

namespace Verif.Datatype

/-- An abstract slot: whether it was removed, and its data bytes. -/
structure ASlot where
  removed : Bool
  data : List Byte
deriving DecidableEq

/-- The bytes a list of slots occupies. -/
def tot : List ASlot → Nat
  | [] => 0
  | s :: ss => 4 + s.data.length + tot ss

/-- The bytes occupied by removed slots. -/
def wasted : List ASlot → Nat
  | [] => 0
  | s :: ss => (if s.removed then 4 + s.data.length else 0) + wasted ss

def hdr (s : ASlot) : Nat := s.data.length + (if s.removed then 2147483648 else 0)

/-- The memory from byte `o` on holds the slots `ss`. -/
def Lay (m : Mem) : Nat → List ASlot → Prop
  | _, [] => True
  | o, s :: ss => rd32 m o = hdr s ∧ rdBytes m (o + 4) s.data.length = s.data ∧
      s.data.length < 4194304 ∧ 0 < s.data.length ∧ Lay m (o + 4 + s.data.length) ss

structure BRep (b : Buffer) (ss : List ASlot) : Prop where
  lay : Lay b.data 0 ss
  next : b.next = tot ss
  cap : b.next ≤ b.cap
  capb : b.cap < 4194304
  del : b.deleted = wasted ss

/-- There is a slot `s` whose data starts at byte `off`. -/
def SlotAt (ss : List ASlot) (off : Nat) (s : ASlot) : Prop :=
  ∃ pre post, ss = pre ++ s :: post ∧ off = tot pre + 4

/-! ### memory -/

theorem rd32_congr {m m' : Mem} {o : Nat} (h : ∀ x, o ≤ x → x < o + 4 → m x = m' x) :
    rd32 m o = rd32 m' o := by
  unfold rd32
  rw [h o (by omega) (by omega), h (o+1) (by omega) (by omega), h (o+2) (by omega) (by omega),
    h (o+3) (by omega) (by omega)]

theorem rdBytes_congr {m m' : Mem} {o n : Nat} (h : ∀ x, o ≤ x → x < o + n → m x = m' x) :
    rdBytes m o n = rdBytes m' o n := by
  unfold rdBytes
  apply List.map_congr_left
  intro i hi
  rw [List.mem_range] at hi
  exact h _ (by omega) (by omega)

@[simp] theorem rdBytes_length (m : Mem) (o n : Nat) : (rdBytes m o n).length = n := by
  simp [rdBytes]

theorem rd32_wr32 (m : Mem) (o v : Nat) (h : v < 4294967296) : rd32 (wr32 m o v) o = v := by
  unfold rd32 wr32
  simp
  omega

theorem wr32_other (m : Mem) (o v x : Nat) (h : x < o ∨ o + 4 ≤ x) : wr32 m o v x = m x := by
  unfold wr32
  rw [if_neg (by omega), if_neg (by omega), if_neg (by omega), if_neg (by omega)]

theorem wrBytes_other (m : Mem) (o x : Nat) (l : List Byte) (h : x < o ∨ o + l.length ≤ x) :
    wrBytes m o l x = m x := by
  unfold wrBytes
  rw [if_neg (by omega)]

theorem rdBytes_wrBytes (m : Mem) (o : Nat) (l : List Byte) :
    rdBytes (wrBytes m o l) o l.length = l := by
  unfold rdBytes wrBytes
  apply List.ext_getElem
  · simp
  · intro i h1 h2
    have h3 : i < l.length := h2
    simp [h3]

/-! ### masks -/

theorem and_size {v : Nat} : v &&& kSizeMask = v % 4194304 := by
  show v &&& (2^22 - 1) = v % 2^22
  exact Nat.and_two_pow_sub_one_eq_mod v 22

theorem and_removal_small {v : Nat} (h : v < 2147483648) : v &&& kRemovalMask = 0 := by
  apply Nat.eq_of_testBit_eq
  intro i
  show (v &&& 2^31).testBit i = _
  rw [Nat.testBit_and, Nat.testBit_two_pow, Nat.zero_testBit]
  by_cases hi : 31 = i
  · subst hi
    rw [Nat.testBit_lt_two_pow (by simpa using h)]
    rfl
  · simp [hi]

theorem or_removal {v : Nat} (h : v < 2147483648) : v ||| kRemovalMask = v + 2147483648 := by
  have := Nat.two_pow_add_eq_or_of_lt (i := 31) (b := v) (by simpa using h) 1
  simp at this
  rw [Nat.or_comm]
  show 2147483648 ||| v = _
  omega

theorem and_removal_big {v : Nat} (h : v < 2147483648) :
    ((v + 2147483648) &&& kRemovalMask) ≠ 0 := by
  rw [← or_removal h]
  intro hc
  have h2 := congrArg (fun n => Nat.testBit n 31) hc
  simp only [Nat.testBit_and, Nat.testBit_or, Nat.zero_testBit] at h2
  have h3 : kRemovalMask.testBit 31 = true := by decide
  rw [h3] at h2
  simp at h2

theorem getAllocSize_eq {n : Nat} (h : n < 4294967292) : getAllocSize n = 4 + n := by
  unfold getAllocSize u32; omega

/-! ### layout -/

theorem Lay_congr {m m' : Mem} {ss : List ASlot} : ∀ {o : Nat},
    (∀ x, o ≤ x → x < o + tot ss → m x = m' x) → Lay m o ss → Lay m' o ss := by
  induction ss with
  | nil => intros; trivial
  | cons s ss ih =>
    intro o h hl
    simp only [tot] at h
    obtain ⟨h1, h2, h3, h3', h4⟩ := hl
    refine ⟨?_, ?_, h3, h3', ?_⟩
    · rw [← h1]; symm; apply rd32_congr; intro x hx hx2; exact h x hx (by omega)
    · rw [← h2]; simp only [rdBytes_length]; symm; apply rdBytes_congr
      intro x hx hx2; exact h x (by omega) (by omega)
    · exact ih (fun x hx hx2 => h x (by omega) (by omega)) h4

theorem Lay_append {m : Mem} {a b : List ASlot} : ∀ {o : Nat},
    Lay m o (a ++ b) ↔ Lay m o a ∧ Lay m (o + tot a) b := by
  induction a with
  | nil => intro o; simp [Lay, tot]
  | cons s a ih =>
    intro o
    simp only [List.cons_append, Lay, tot]
    rw [ih, show o + 4 + s.data.length + tot a = o + (4 + s.data.length + tot a) by omega]
    constructor
    · rintro ⟨h1, h2, h3, h3', h4, h5⟩; exact ⟨⟨h1, h2, h3, h3', h4⟩, h5⟩
    · rintro ⟨⟨h1, h2, h3, h3', h4⟩, h5⟩; exact ⟨h1, h2, h3, h3', h4, h5⟩

theorem tot_append (a b : List ASlot) : tot (a ++ b) = tot a + tot b := by
  induction a with
  | nil => simp [tot]
  | cons s a ih => simp only [List.cons_append, tot, ih]; omega

theorem wasted_append (a b : List ASlot) : wasted (a ++ b) = wasted a + wasted b := by
  induction a with
  | nil => simp [wasted]
  | cons s a ih => simp only [List.cons_append, wasted, ih]; omega

theorem wasted_le (a : List ASlot) : wasted a ≤ tot a := by
  induction a with
  | nil => simp [wasted, tot]
  | cons s a ih => simp only [wasted, tot]; split <;> omega

/-- The live slots, in order. -/
def liveOf (ss : List ASlot) : List ASlot := ss.filter (fun s => !s.removed)

theorem tot_liveOf (ss : List ASlot) : tot (liveOf ss) + wasted ss = tot ss := by
  induction ss with
  | nil => rfl
  | cons s ss ih =>
    unfold liveOf at *
    rw [List.filter_cons]
    cases hs : s.removed <;> simp [tot, wasted, hs] <;> omega

theorem split_unique {a b a' b' : List ASlot} {s s' : ASlot}
    (h : a ++ s :: b = a' ++ s' :: b') (ht : tot a = tot a') : a = a' ∧ s = s' ∧ b = b' := by
  induction a generalizing a' with
  | nil =>
    cases a' with
    | nil => simp at h; exact ⟨rfl, h⟩
    | cons x a' => simp only [tot] at ht; omega
  | cons x a ih =>
    cases a' with
    | nil => simp only [tot] at ht; omega
    | cons y a' =>
      simp only [List.cons_append, List.cons.injEq] at h
      simp only [tot, h.1] at ht
      obtain ⟨h1, h2, h3⟩ := ih h.2 (by omega)
      exact ⟨by rw [h.1, h1], h2, h3⟩

theorem SlotAt.unique {ss : List ASlot} {off : Nat} {s s' : ASlot}
    (h : SlotAt ss off s) (h' : SlotAt ss off s') : s = s' := by
  obtain ⟨a, b, rfl, h1⟩ := h
  obtain ⟨a', b', h2, h3⟩ := h'
  exact (split_unique h2 (by omega)).2.1

/-! ### reading slots -/

theorem slot_facts {b : Buffer} {pre post : List ASlot} {s : ASlot} (h : BRep b (pre ++ s :: post)) :
    rd32 b.data (tot pre) = hdr s ∧ rdBytes b.data (tot pre + 4) s.data.length = s.data ∧
      s.data.length < 4194304 ∧ 0 < s.data.length ∧ tot pre + 4 + s.data.length ≤ b.next := by
  obtain ⟨hl, hn, hc, hcb, hd⟩ := h
  rw [Lay_append] at hl
  obtain ⟨_, h1, h2, h3, h3', _⟩ := hl
  rw [Nat.zero_add] at h1 h2
  refine ⟨h1, h2, h3, h3', ?_⟩
  rw [hn, tot_append]; simp only [tot]; omega

theorem slotSize_eq {b : Buffer} {pre post : List ASlot} {s : ASlot} (h : BRep b (pre ++ s :: post)) :
    b.slotSize (tot pre) = s.data.length := by
  obtain ⟨h1, _, h3, _⟩ := slot_facts h
  unfold Buffer.slotSize
  rw [h1, and_size]
  unfold hdr; split <;> omega

theorem slotAllocSize_eq {b : Buffer} {pre post : List ASlot} {s : ASlot} (h : BRep b (pre ++ s :: post)) :
    b.slotAllocSize (tot pre) = 4 + s.data.length := by
  unfold Buffer.slotAllocSize
  rw [slotSize_eq h]
  exact getAllocSize_eq (by have := (slot_facts h).2.2.1; omega)

theorem slotRemoved_eq {b : Buffer} {pre post : List ASlot} {s : ASlot} (h : BRep b (pre ++ s :: post)) :
    b.slotRemoved (tot pre) = s.removed := by
  obtain ⟨h1, _, h3, _⟩ := slot_facts h
  unfold Buffer.slotRemoved
  rw [h1]; unfold hdr
  cases s.removed with
  | false => simp [and_removal_small (show s.data.length < 2147483648 by omega)]
  | true => simp [and_removal_big (show s.data.length < 2147483648 by omega)]

theorem getSlot_eq {b : Buffer} {pre post : List ASlot} {s : ASlot} (h : BRep b (pre ++ s :: post)) :
    b.getSlot (tot pre + 4) = some (tot pre) := by
  obtain ⟨_, _, _, h4, h5⟩ := slot_facts h
  unfold Buffer.getSlot
  rw [if_neg (by omega)]; rfl

/-! ### operations -/

theorem fresh_rep (cap : Nat) (junk : Mem) (h : cap < 4194304) : BRep (Buffer.fresh cap junk) [] :=
  ⟨trivial, rfl, Nat.zero_le _, h, rfl⟩

theorem copyOf_rep {b : Buffer} {ss : List ASlot} (h : BRep b ss) (cap : Nat) (junk : Mem)
    (hc : b.next ≤ cap) (hcb : cap < 4194304) : BRep (Buffer.copyOf cap b junk) ss := by
  refine ⟨?_, h.next, hc, hcb, h.del⟩
  apply Lay_congr _ h.lay
  intro x _ hx
  have := h.next
  simp only [Buffer.copyOf]
  rw [if_pos (by omega)]

theorem remaining_eq {b : Buffer} {ss : List ASlot} (h : BRep b ss) :
    b.remainingBytes = b.cap - tot ss := by
  have := h.next; have := h.cap; have := h.capb
  unfold Buffer.remainingBytes u32; omega

theorem canAlloc_iff {b : Buffer} {ss : List ASlot} (h : BRep b ss) (size : Nat) (hs : size < 4294967292) :
    b.canAllocateWithoutCompaction size = true ↔ tot ss + 4 + size ≤ b.cap := by
  have := h.next; have := h.cap
  unfold Buffer.canAllocateWithoutCompaction
  rw [remaining_eq h, getAllocSize_eq hs, decide_eq_true_eq]; omega

theorem allocate_ok {b : Buffer} {ss : List ASlot} (h : BRep b ss) {size : Nat} (hs : 0 < size)
    (hf : tot ss + 4 + size ≤ b.cap) :
    ∃ b', b.allocate size = (b', tot ss + 4) ∧ b'.cap = b.cap ∧
      BRep b' (ss ++ [⟨false, rdBytes b.data (tot ss + 4) size⟩]) ∧
      (∀ x, tot ss + 4 ≤ x → b'.data x = b.data x) := by
  have hn := h.next; have hc := h.cap; have hcb := h.capb
  have hmask : size &&& kSizeMask = size := by rw [and_size]; omega
  have hsz : Buffer.slotAllocSize { b with data := wr32 b.data b.next (size &&& kSizeMask) } b.next = 4 + size := by
    unfold Buffer.slotAllocSize Buffer.slotSize
    simp only
    rw [rd32_wr32 _ _ _ (by rw [hmask]; omega), hmask, hmask]
    exact getAllocSize_eq (by omega)
  unfold Buffer.allocate
  simp only
  rw [if_neg (by unfold u32; omega)]
  refine ⟨_, Prod.ext rfl (by dsimp only; rw [hn]), rfl, ?_, ?_⟩
  · refine ⟨?_, ?_, ?_, hcb, ?_⟩
    · dsimp only
      rw [Lay_append]
      constructor
      · apply Lay_congr _ h.lay
        intro x _ hx; rw [wr32_other _ _ _ _ (by omega)]
      · rw [Nat.zero_add]
        refine ⟨?_, ?_, ?_, ?_, trivial⟩
        · rw [← hn, rd32_wr32 _ _ _ (by rw [hmask]; omega), hmask]; simp [hdr]
        · simp only [rdBytes_length]
          apply rdBytes_congr
          intro x hx hx2; rw [wr32_other _ _ _ _ (by omega)]
        · simp; omega
        · simp; omega
    · dsimp only; rw [hsz, tot_append]; simp [tot]; unfold u32; omega
    · dsimp only; rw [hsz]; unfold u32; omega
    · dsimp only; rw [wasted_append, h.del]; simp [wasted]
  · intro x hx; dsimp only; rw [wr32_other _ _ _ _ (by omega)]

/-- Overwriting the data of a slot. -/
theorem write_rep {b : Buffer} {pre post : List ASlot} {s : ASlot} (h : BRep b (pre ++ s :: post))
    {d : List Byte} (hd : d.length = s.data.length) :
    BRep { b with data := wrBytes b.data (tot pre + 4) d } (pre ++ ⟨s.removed, d⟩ :: post) := by
  obtain ⟨hl, hn, hc, hcb, hdel⟩ := h
  rw [Lay_append, Nat.zero_add] at hl
  obtain ⟨hl1, h1, h2, h3, h3', h4⟩ := hl
  refine ⟨?_, ?_, hc, hcb, ?_⟩
  · rw [Lay_append, Nat.zero_add]
    refine ⟨?_, ?_, ?_, ?_, ?_, ?_⟩
    · apply Lay_congr _ hl1
      intro x _ hx; dsimp only; rw [wrBytes_other _ _ _ _ (by omega)]
    · have : hdr ⟨s.removed, d⟩ = hdr s := by simp [hdr, hd]
      rw [this, ← h1]; apply rd32_congr
      intro x _ hx; dsimp only; rw [wrBytes_other _ _ _ _ (by omega)]
    · dsimp only; exact rdBytes_wrBytes _ _ _
    · dsimp only; omega
    · dsimp only; omega
    · dsimp only; rw [hd]
      apply Lay_congr _ h4
      intro x hx _; rw [wrBytes_other _ _ _ _ (by omega)]
  · dsimp only; rw [hn, tot_append, tot_append]; simp only [tot]; omega
  · dsimp only; rw [hdel, wasted_append, wasted_append]; simp only [wasted, hd]

theorem remove_rep {b : Buffer} {pre post : List ASlot} {s : ASlot} (h : BRep b (pre ++ s :: post)) :
    ∃ b', b.remove (tot pre + 4) = some b' ∧ b'.cap = b.cap ∧ BRep b' (pre ++ ⟨true, s.data⟩ :: post) := by
  have hf := slot_facts h
  have hb := h.capb; have hcap := h.cap
  unfold Buffer.remove
  rw [getSlot_eq h]
  dsimp only
  rw [slotRemoved_eq h]
  cases hs : s.removed with
  | true =>
    rw [if_pos rfl]
    refine ⟨b, rfl, rfl, ?_⟩
    have : (⟨true, s.data⟩ : ASlot) = s := by cases s; simp_all
    rw [this]; exact h
  | false =>
    rw [if_neg (by simp)]
    have hhdr : rd32 b.data (tot pre) = s.data.length := by rw [hf.1]; simp [hdr, hs]
    have hor : rd32 b.data (tot pre) ||| kRemovalMask = s.data.length + 2147483648 := by
      rw [hhdr]; exact or_removal (by omega)
    have hlt : wasted (pre ++ s :: post) ≤ tot (pre ++ s :: post) := wasted_le _
    have hn := h.next; have hdel := h.del
    have hw : wasted (pre ++ s :: post) + (4 + s.data.length) ≤ tot (pre ++ s :: post) := by
      have w1 := wasted_le pre; have w2 := wasted_le post
      rw [wasted_append, tot_append]; simp only [wasted, tot, hs]; simp; omega
    have hsz : Buffer.slotAllocSize { b with data := wr32 b.data (tot pre) (rd32 b.data (tot pre) ||| kRemovalMask) } (tot pre)
        = 4 + s.data.length := by
      unfold Buffer.slotAllocSize Buffer.slotSize
      dsimp only
      rw [hor, rd32_wr32 _ _ _ (by omega), and_size, getAllocSize_eq (by omega)]
      omega
    refine ⟨_, rfl, rfl, ?_, ?_, hcap, hb, ?_⟩
    · have hl := h.lay
      rw [Lay_append, Nat.zero_add] at hl ⊢
      obtain ⟨hl1, h1, h2, h3, h3', h4⟩ := hl
      dsimp only
      refine ⟨?_, ?_, ?_, h3, h3', ?_⟩
      · apply Lay_congr _ hl1
        intro x _ hx; rw [wr32_other _ _ _ _ (by omega)]
      · rw [hor, rd32_wr32 _ _ _ (by omega)]; simp [hdr]
      · rw [← h2]; simp only [rdBytes_length]
        apply rdBytes_congr
        intro x hx _; rw [wr32_other _ _ _ _ (by omega)]; 
      · apply Lay_congr _ h4
        intro x hx _; rw [wr32_other _ _ _ _ (by omega)]
    · dsimp only; rw [hn, tot_append, tot_append]; simp only [tot]
    · dsimp only
      rw [hsz, hdel, wasted_append, wasted_append] at *
      simp only [wasted, hs] at *; simp at *; unfold u32; omega

theorem compactLoop_rep {b : Buffer} {ss : List ASlot} (h : BRep b ss) :
    ∀ (todo pre : List ASlot) (f : Nat) (dest : Buffer), ss = pre ++ todo → tot todo < f →
      dest.cap = b.cap → BRep dest (liveOf pre) →
      ∃ d, Buffer.compactLoop b f (tot pre) dest = some d ∧ d.cap = b.cap ∧ BRep d (liveOf ss) := by
  intro todo
  induction todo with
  | nil =>
    intro pre f dest hss hf hcap hd
    obtain ⟨f, rfl⟩ : ∃ g, f = g + 1 := ⟨f - 1, by omega⟩
    simp only [List.append_nil] at hss
    subst hss
    unfold Buffer.compactLoop
    rw [if_neg (by rw [h.next]; omega)]
    exact ⟨dest, rfl, hcap, hd⟩
  | cons s todo ih =>
    intro pre f dest hss hf hcap hd
    obtain ⟨f, rfl⟩ : ∃ g, f = g + 1 := ⟨f - 1, by omega⟩
    subst hss
    have hfacts := slot_facts h
    simp only [tot] at hf
    unfold Buffer.compactLoop
    rw [if_pos (by omega), slotRemoved_eq h]
    have hpre : tot pre + b.slotAllocSize (tot pre) = tot (pre ++ [s]) := by
      rw [slotAllocSize_eq h, tot_append]; simp [tot]
    rw [hpre]
    cases hs : s.removed with
    | true =>
      rw [if_pos rfl]
      have := ih (pre ++ [s]) f dest (by simp) (by omega) hcap
        (by unfold liveOf at *; rw [List.filter_append]; simpa [hs] using hd)
      simpa using this
    | false =>
      rw [if_neg (by simp)]
      dsimp only
      rw [slotSize_eq h]
      have hfit : tot (liveOf pre) + 4 + s.data.length ≤ dest.cap := by
        have h1 := tot_liveOf pre
        have := h.cap; omega
      obtain ⟨d, hd1, hd2, hd3, hd4⟩ := allocate_ok hd hfacts.2.2.2.1 hfit
      rw [hd1]
      dsimp only
      have hcb := hd.capb
      rw [if_neg (by unfold kInvalidOffset; omega), hfacts.2.1]
      have hd5 := write_rep (d := s.data) hd3 (by simp)
      have := ih (pre ++ [s]) f { d with data := wrBytes d.data (tot (liveOf pre) + 4) s.data }
        (by simp) (by omega) (by dsimp only; rw [hd2, hcap])
        (by
          have : liveOf (pre ++ [s]) = liveOf pre ++ [⟨false, s.data⟩] := by
            unfold liveOf; rw [List.filter_append]; cases s; simp_all
          rw [this]; exact hd5)
      simpa using this

theorem compact_rep {b : Buffer} {ss : List ASlot} (h : BRep b ss) (junk : Mem) :
    ∃ d, b.compact (Buffer.fresh b.cap junk) = some d ∧ d.cap = b.cap ∧ BRep d (liveOf ss) := by
  unfold Buffer.compact
  have h1 := h.capb; have h2 := h.cap; have h3 := h.next
  have h4 := tot_liveOf ss
  rw [if_neg]
  · exact compactLoop_rep h ss [] (b.next + 1) _ rfl (by omega) rfl (fresh_rep _ _ h1)
  · rw [remaining_eq h, show b.wastedBytes = wasted ss from h.del]
    show ¬ b.cap < _
    unfold u32
    omega

/-! ### iteration -/

/-- The data offsets of the live slots. -/
def liveOffs : Nat → List ASlot → List Nat
  | _, [] => []
  | o, s :: ss => if s.removed then liveOffs (o + 4 + s.data.length) ss
                  else (o + 4) :: liveOffs (o + 4 + s.data.length) ss

def startOf (o : Nat) : List ASlot → Option Nat
  | [] => none
  | _ :: _ => some (o + 4)

theorem iterFrom_rep {b : Buffer} {ss : List ASlot} (h : BRep b ss) :
    ∀ (todo pre : List ASlot) (f : Nat), ss = pre ++ todo → tot todo < f →
      b.iterFrom f (startOf (tot pre) todo) =
        some (liveOffs (tot pre) todo) := by
  intro todo
  induction todo with
  | nil =>
    intro pre f _ hf
    obtain ⟨f, rfl⟩ : ∃ g, f = g + 1 := ⟨f - 1, by omega⟩
    rfl
  | cons s todo ih =>
    intro pre f hss hf
    obtain ⟨f, rfl⟩ : ∃ g, f = g + 1 := ⟨f - 1, by omega⟩
    subst hss
    have hfacts := slot_facts h
    have hcap := h.cap; have hcb := h.capb
    simp only [tot] at hf
    dsimp only [startOf]
    unfold Buffer.iterFrom
    have hstep : b.getNextSlot (tot pre + 4) =
        some (startOf (tot (pre ++ [s])) todo) := by
      unfold Buffer.getNextSlot
      simp only [Nat.add_sub_cancel]
      rw [slotAllocSize_eq h]
      have hu : u32 (tot pre + 4 + (4 + s.data.length)) = tot (pre ++ [s]) + 4 := by
        rw [tot_append]; simp only [tot]; unfold u32; omega
      rw [hu]
      have hn := h.next
      rw [show pre ++ s :: todo = (pre ++ [s]) ++ todo by simp, tot_append] at hn
      cases todo with
      | nil => simp only [tot] at hn; rw [if_pos (by omega)]; rfl
      | cons s' todo =>
        have h' : BRep b ((pre ++ [s]) ++ s' :: todo) := by simpa using h
        have hf' := slot_facts h'
        have hg := getSlot_eq h'
        rw [if_neg (by omega), hg]; rfl
    rw [hstep]
    dsimp only
    rw [ih (pre ++ [s]) f (by simp) (by omega)]
    dsimp only
    rw [Nat.add_sub_cancel, slotRemoved_eq h]
    simp only [liveOffs]
    have : tot (pre ++ [s]) = tot pre + 4 + s.data.length := by rw [tot_append]; simp [tot]; omega
    rw [this]
    split <;> rfl

theorem iter_rep {b : Buffer} {ss : List ASlot} (h : BRep b ss) : b.iter = some (liveOffs 0 ss) := by
  have hn := h.next
  have hmain := iterFrom_rep h ss [] (b.next + 1) rfl (by omega)
  unfold Buffer.iter Buffer.getFirstSlot
  rw [getAllocSize_eq (by omega)]
  cases ss with
  | nil => 
    simp only [tot] at hn
    rw [if_pos (by omega)]; exact hmain
  | cons s ss =>
    have hs := getSlot_eq (pre := []) h
    have hf := slot_facts (pre := []) h
    simp only [tot] at hn hs hf
    rw [if_neg (by omega)]
    simp only [Nat.zero_add, Nat.add_zero] at hs ⊢
    rw [hs]
    exact hmain

theorem mem_liveOffs {ss : List ASlot} : ∀ {o off : Nat},
    off ∈ liveOffs o ss ↔ ∃ s, s.removed = false ∧ o ≤ off ∧ SlotAt ss (off - o) s := by
  induction ss with
  | nil => intro o off; simp [liveOffs, SlotAt]
  | cons x ss ih =>
    intro o off
    have key : (∃ s, s.removed = false ∧ o ≤ off ∧ SlotAt (x :: ss) (off - o) s) ↔
        (x.removed = false ∧ off = o + 4) ∨
        (∃ s, s.removed = false ∧ (o + 4 + x.data.length) ≤ off ∧ SlotAt ss (off - (o + 4 + x.data.length)) s) := by
      constructor
      · rintro ⟨s, hs, hle, pre, post, he, ho⟩
        cases pre with
        | nil =>
          simp only [List.nil_append, List.cons.injEq] at he
          left; simp only [tot] at ho; exact ⟨by rw [he.1]; exact hs, by omega⟩
        | cons y pre =>
          simp only [List.cons_append, List.cons.injEq] at he
          simp only [tot, ← he.1] at ho
          right
          exact ⟨s, hs, by omega, pre, post, he.2, by omega⟩
      · rintro (⟨h1, h2⟩ | ⟨s, hs, hle, pre, post, he, ho⟩)
        · exact ⟨x, h1, by omega, [], ss, rfl, by simp only [tot]; omega⟩
        · exact ⟨s, hs, by omega, x :: pre, post, by rw [he]; rfl, by simp only [tot]; omega⟩
    rw [key]
    simp only [liveOffs]
    cases hx : x.removed with
    | true => simp [ih]
    | false => simp [ih]

theorem liveOffs_lt {ss : List ASlot} : ∀ {o off : Nat}, off ∈ liveOffs o ss → o < off := by
  intro o off h
  obtain ⟨s, _, h1, pre, post, _, h2⟩ := mem_liveOffs.mp h
  omega

theorem liveOffs_nodup (ss : List ASlot) : ∀ (o : Nat), (liveOffs o ss).Nodup := by
  induction ss with
  | nil => intro o; simp [liveOffs]
  | cons x ss ih =>
    intro o
    simp only [liveOffs]
    split
    · exact ih _
    · rw [List.nodup_cons]
      refine ⟨fun h => ?_, ih _⟩
      have := liveOffs_lt h; omega

end Verif.Datatype
