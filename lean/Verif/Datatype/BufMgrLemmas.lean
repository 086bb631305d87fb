import Verif.Datatype.BufMgr
import Verif.Datatype.BufferLemmas
import Mathlib.Data.List.Nodup

/-! # `BufferManager`: live addresses and their contents -/

namespace Verif.Datatype

theorem compress_eq {i o : Nat} (hi : i < 1024) (ho : o < 4194304) : compress i o = i * 4194304 + o := by
  unfold compress u32
  have h1 : i <<< 22 = 4194304 * i := by rw [Nat.shiftLeft_eq]; omega
  rw [h1]
  rw [Nat.mod_eq_of_lt (by omega)]
  have := Nat.two_pow_add_eq_or_of_lt (i := 22) (b := o) (by simpa using ho) i
  simp at this
  omega

theorem itemOffset_compress {i o : Nat} (hi : i < 1024) (ho : o < 4194304) : itemOffset (compress i o) = i := by
  rw [compress_eq hi ho]; unfold itemOffset; rw [Nat.shiftRight_eq_div_pow]; omega

theorem byteOffset_eq (a : Nat) : byteOffset a = a % 4194304 := by
  show a &&& (2^22 - 1) = a % 2^22
  exact Nat.and_two_pow_sub_one_eq_mod a 22

theorem byteOffset_compress {i o : Nat} (hi : i < 1024) (ho : o < 4194304) : byteOffset (compress i o) = o := by
  rw [compress_eq hi ho, byteOffset_eq]; omega

theorem compress_not_null {i o : Nat} (hi : i < 1023) (ho : o < 4194304) : isNull (compress i o) = false := by
  rw [compress_eq (by omega) ho]; unfold isNull nullAddr
  rw [beq_eq_false_iff_ne]; omega

/-- The chained items `bufs` hold the slots `L`. -/
structure MRep (bufs : List Buffer) (L : List (List ASlot)) : Prop where
  len : bufs.length = L.length
  lenb : bufs.length ≤ 1023
  lenp : 0 < bufs.length
  rep : ∀ (i : Nat) (b : Buffer) (ss : List ASlot), bufs[i]? = some b → L[i]? = some ss → BRep b ss
  capb : ∀ b ∈ bufs, b.cap ≤ kMaxBufferCapacity

/-- A live allocation: `addr` was handed out, not removed, and holds `d`. -/
def LiveAt (L : List (List ASlot)) (addr : Nat) (d : List Byte) : Prop :=
  ∃ i ss off, L[i]? = some ss ∧ SlotAt ss off ⟨false, d⟩ ∧ addr = compress i off

theorem MRep.get {bufs : List Buffer} {L : List (List ASlot)} (h : MRep bufs L) {i : Nat} {ss : List ASlot}
    (hi : L[i]? = some ss) : ∃ b, bufs[i]? = some b ∧ BRep b ss := by
  have hl : i < bufs.length := by
    rw [h.len]; exact (List.getElem?_eq_some_iff.mp hi).1
  exact ⟨bufs[i], List.getElem?_eq_getElem hl, h.rep i _ _ (List.getElem?_eq_getElem hl) hi⟩

theorem MRep.idx {bufs : List Buffer} {L : List (List ASlot)} (h : MRep bufs L) {i : Nat} {ss : List ASlot}
    (hi : L[i]? = some ss) : i < 1023 := by
  have := (List.getElem?_eq_some_iff.mp hi).1
  have := h.len; have := h.lenb; omega

theorem BRep.off {b : Buffer} {ss : List ASlot} (h : BRep b ss) {off : Nat} {s : ASlot}
    (hs : SlotAt ss off s) : off + s.data.length ≤ b.cap ∧ off < 4194304 := by
  obtain ⟨pre, post, rfl, ho⟩ := hs
  have := slot_facts h; have := h.cap; have := h.capb; omega

theorem MRep.off {bufs : List Buffer} {L : List (List ASlot)} (h : MRep bufs L) {i off : Nat}
    {ss : List ASlot} {s : ASlot} (hi : L[i]? = some ss) (hs : SlotAt ss off s) : off < 4194304 := by
  obtain ⟨b, _, hb⟩ := h.get hi
  exact (hb.off hs).2

theorem MRep.addr_inj {bufs : List Buffer} {L : List (List ASlot)} (h : MRep bufs L) {i j off off' : Nat}
    {ss ss' : List ASlot} {s s' : ASlot} (hi : L[i]? = some ss) (hs : SlotAt ss off s)
    (hj : L[j]? = some ss') (hs' : SlotAt ss' off' s') (he : compress i off = compress j off') :
    i = j ∧ off = off' := by
  have h1 := h.idx hi; have h2 := h.idx hj; have h3 := h.off hi hs; have h4 := h.off hj hs'
  rw [compress_eq (by omega) h3, compress_eq (by omega) h4] at he
  omega

theorem LiveAt.unique {bufs : List Buffer} {L : List (List ASlot)} (h : MRep bufs L) {a : Nat}
    {d d' : List Byte} (h1 : LiveAt L a d) (h2 : LiveAt L a d') : d = d' := by
  obtain ⟨i, ss, off, hi, hs, rfl⟩ := h1
  obtain ⟨j, ss', off', hj, hs', he⟩ := h2
  obtain ⟨rfl, rfl⟩ := h.addr_inj hi hs hj hs' he
  rw [hi] at hj
  cases hj
  have := hs.unique hs'
  simpa using this

theorem LiveAt.not_null {bufs : List Buffer} {L : List (List ASlot)} (h : MRep bufs L) {a : Nat}
    {d : List Byte} (h1 : LiveAt L a d) : isNull a = false := by
  obtain ⟨i, ss, off, hi, hs, rfl⟩ := h1
  exact compress_not_null (h.idx hi) (h.off hi hs)

theorem LiveAt.len {bufs : List Buffer} {L : List (List ASlot)} (h : MRep bufs L) {a : Nat}
    {d : List Byte} (h1 : LiveAt L a d) : 0 < d.length := by
  obtain ⟨i, ss, off, hi, ⟨pre, post, rfl, _⟩, rfl⟩ := h1
  obtain ⟨b, _, hb⟩ := h.get hi
  exact (slot_facts hb).2.2.2.1

/-- Replacing one buffer. -/
theorem MRep.set {bufs : List Buffer} {L : List (List ASlot)} (h : MRep bufs L) {i : Nat} {b' : Buffer}
    {ss' : List ASlot} (hb : BRep b' ss') (hc : b'.cap ≤ kMaxBufferCapacity) :
    MRep (bufs.set i b') (L.set i ss') := by
  refine ⟨by simp [h.len], by simp [h.lenb], by simp [h.lenp], ?_, ?_⟩
  · intro j b ss h1 h2
    rw [List.getElem?_set] at h1 h2
    by_cases hij : i = j
    · subst hij
      rw [if_pos rfl] at h1 h2
      split at h1 <;> simp at h1
      split at h2 <;> simp at h2
      subst h1 h2; exact hb
    · rw [if_neg hij] at h1 h2
      exact h.rep j b ss h1 h2
  · intro b hb'
    rcases List.mem_or_eq_of_mem_set hb' with h1 | h1
    · exact h.capb b h1
    · rw [h1]; exact hc

theorem LiveAt_set {L : List (List ASlot)} {i : Nat} {ss' ss : List ASlot} (hi : L[i]? = some ss)
    (a : Nat) (d : List Byte) :
    LiveAt (L.set i ss') a d ↔
      (∃ off, SlotAt ss' off ⟨false, d⟩ ∧ a = compress i off) ∨
      (∃ j tt off, j ≠ i ∧ L[j]? = some tt ∧ SlotAt tt off ⟨false, d⟩ ∧ a = compress j off) := by
  have hl := (List.getElem?_eq_some_iff.mp hi).1
  constructor
  · rintro ⟨j, tt, off, hj, hs, ha⟩
    rw [List.getElem?_set] at hj
    by_cases hij : i = j
    · subst hij
      rw [if_pos rfl, if_pos hl] at hj
      cases hj
      exact Or.inl ⟨off, hs, ha⟩
    · rw [if_neg hij] at hj
      exact Or.inr ⟨j, tt, off, fun e => hij e.symm, hj, hs, ha⟩
  · rintro (⟨off, hs, ha⟩ | ⟨j, tt, off, hij, hj, hs, ha⟩)
    · exact ⟨i, ss', off, by rw [List.getElem?_set, if_pos rfl, if_pos hl], hs, ha⟩
    · exact ⟨j, tt, off, by rw [List.getElem?_set, if_neg (fun e => hij e.symm)]; exact hj, hs, ha⟩

theorem LiveAt_split {L : List (List ASlot)} {i : Nat} {ss : List ASlot} (hi : L[i]? = some ss)
    (a : Nat) (d : List Byte) :
    LiveAt L a d ↔
      (∃ off, SlotAt ss off ⟨false, d⟩ ∧ a = compress i off) ∨
      (∃ j tt off, j ≠ i ∧ L[j]? = some tt ∧ SlotAt tt off ⟨false, d⟩ ∧ a = compress j off) := by
  have h := LiveAt_set (ss' := ss) hi a d
  rw [← h]
  have : L.set i ss = L := by
    obtain ⟨hl, rfl⟩ := List.getElem?_eq_some_iff.mp hi
    exact List.set_getElem_self hl
  rw [this]

theorem SlotAt_append {ss : List ASlot} {x : ASlot} {off : Nat} {s : ASlot} :
    SlotAt (ss ++ [x]) off s ↔ SlotAt ss off s ∨ (s = x ∧ off = tot ss + 4) := by
  constructor
  · rintro ⟨pre, post, he, ho⟩
    rcases List.eq_nil_or_concat post with rfl | ⟨p, y, rfl⟩
    · have := List.append_inj' he rfl
      obtain ⟨rfl, h2⟩ := this
      simp at h2
      exact Or.inr ⟨h2.symm, ho⟩
    · left
      rw [List.concat_eq_append, ← List.cons_append, ← List.append_assoc] at he
      have := List.append_inj' he rfl
      exact ⟨pre, p, this.1, ho⟩
  · rintro (⟨pre, post, rfl, ho⟩ | ⟨rfl, ho⟩)
    · exact ⟨pre, post ++ [x], by simp, ho⟩
    · exact ⟨ss, [], rfl, ho⟩

theorem SlotAt_mid {pre post : List ASlot} {x y : ASlot} {off : Nat} {s : ASlot}
    (hl : x.data.length = y.data.length) :
    SlotAt (pre ++ y :: post) off s ↔
      (off = tot pre + 4 ∧ s = y) ∨ (off ≠ tot pre + 4 ∧ SlotAt (pre ++ x :: post) off s) := by
  have hyx : ∀ (x y : ASlot), x.data.length = y.data.length → ∀ off s, off ≠ tot pre + 4 →
      SlotAt (pre ++ y :: post) off s → SlotAt (pre ++ x :: post) off s := by
    intro x y hl off s hne ⟨a, b, he, ho⟩
    rcases List.append_eq_append_iff.mp he with ⟨c, hc1, hc2⟩ | ⟨c, hc1, hc2⟩
    · cases c with
      | nil => simp at hc1; subst hc1; omega
      | cons z c =>
        simp only [List.cons_append, List.cons.injEq] at hc2
        refine ⟨pre ++ x :: c, b, by rw [hc2.2]; simp, ?_⟩
        rw [ho, hc1, tot_append, tot_append]; simp only [tot, ← hc2.1]; omega
    · cases c with
      | nil => simp at hc1; subst hc1; omega
      | cons z c =>
        simp only [List.cons_append, List.cons.injEq] at hc2
        refine ⟨a, c ++ x :: post, by rw [hc1, hc2.1]; simp, ho⟩
  by_cases ho : off = tot pre + 4
  · constructor
    · intro h
      left
      exact ⟨ho, h.unique ⟨pre, post, rfl, ho⟩⟩
    · rintro (⟨_, rfl⟩ | ⟨h, _⟩)
      · exact ⟨pre, post, rfl, ho⟩
      · exact absurd ho h
  · constructor
    · intro h; exact Or.inr ⟨ho, hyx x y hl _ _ ho h⟩
    · rintro (⟨h, _⟩ | ⟨_, h⟩)
      · exact absurd h ho
      · exact hyx y x hl.symm _ _ ho h

/-- Changing one live slot (keeping its length). -/
theorem LiveAt_mid {bufs : List Buffer} {L : List (List ASlot)} (h : MRep bufs L) {i : Nat}
    {pre post : List ASlot} {x y : ASlot} (hi : L[i]? = some (pre ++ x :: post))
    (hl : x.data.length = y.data.length) (a : Nat) (d : List Byte) :
    LiveAt (L.set i (pre ++ y :: post)) a d ↔
      (a = compress i (tot pre + 4) ∧ y = ⟨false, d⟩) ∨
      (a ≠ compress i (tot pre + 4) ∧ LiveAt L a d) := by
  have hx : SlotAt (pre ++ x :: post) (tot pre + 4) x := ⟨pre, post, rfl, rfl⟩
  rw [LiveAt_set hi, LiveAt_split hi]
  constructor
  · rintro (⟨off, hs, ha⟩ | ⟨j, tt, off, hij, hj, hs, ha⟩)
    · rcases (SlotAt_mid hl).mp hs with ⟨rfl, h2⟩ | ⟨h1, h2⟩
      · exact Or.inl ⟨ha, h2.symm⟩
      · refine Or.inr ⟨?_, Or.inl ⟨off, h2, ha⟩⟩
        rintro rfl
        exact h1 (h.addr_inj hi hx hi h2 ha).2.symm
    · refine Or.inr ⟨?_, Or.inr ⟨j, tt, off, hij, hj, hs, ha⟩⟩
      rintro rfl
      exact hij (h.addr_inj hi hx hj hs ha).1.symm
  · rintro (⟨ha, rfl⟩ | ⟨hne, ⟨off, hs, ha⟩ | h2⟩)
    · exact Or.inl ⟨_, ⟨pre, post, rfl, rfl⟩, ha⟩
    · refine Or.inl ⟨off, (SlotAt_mid hl).mpr (Or.inr ⟨?_, hs⟩), ha⟩
      rintro rfl; exact hne ha
    · exact Or.inr h2

/-! ### operations -/

open BufMgr

theorem get_live {bufs : List Buffer} {L : List (List ASlot)} (h : MRep bufs L) {a : Nat} {d : List Byte}
    (ha : LiveAt L a d) : ∃ p, get bufs a = some p ∧ load bufs p d.length = d := by
  have hn := ha.not_null h
  obtain ⟨i, ss, off, hi, hs, rfl⟩ := ha
  obtain ⟨b, hb, hr⟩ := h.get hi
  have h1 := h.idx hi; have h2 := h.off hi hs
  refine ⟨(i, off), ?_, ?_⟩
  · unfold BufMgr.get
    rw [hn, itemOffset_compress (by omega) h2, byteOffset_compress (by omega) h2, hb]; rfl
  · unfold load
    dsimp only
    rw [hb]
    dsimp only
    obtain ⟨pre, post, rfl, rfl⟩ := hs
    exact (slot_facts hr).2.1

theorem store_live {bufs : List Buffer} {L : List (List ASlot)} (h : MRep bufs L) {a : Nat}
    {d d' : List Byte} (ha : LiveAt L a d) (hl : d'.length = d.length) :
    ∃ p L', get bufs a = some p ∧ MRep (store bufs p d') L' ∧
      (store bufs p d').map Buffer.cap = bufs.map Buffer.cap ∧
      (∀ x e, LiveAt L' x e ↔ (x = a ∧ e = d') ∨ (x ≠ a ∧ LiveAt L x e)) := by
  have hn := ha.not_null h
  obtain ⟨i, ss, off, hi, hs, rfl⟩ := ha
  obtain ⟨b, hb, hr⟩ := h.get hi
  have h1 := h.idx hi; have h2 := h.off hi hs
  obtain ⟨pre, post, rfl, rfl⟩ := hs
  refine ⟨(i, tot pre + 4), L.set i (pre ++ ⟨false, d'⟩ :: post), ?_, ?_, ?_, ?_⟩
  · unfold BufMgr.get
    rw [hn, itemOffset_compress (by omega) h2, byteOffset_compress (by omega) h2, hb]; rfl
  · unfold store
    dsimp only
    rw [hb]
    exact h.set (write_rep hr (by simpa using hl)) (h.capb b (List.mem_of_getElem? hb))
  · unfold store
    dsimp only
    rw [hb]
    dsimp only
    apply List.ext_getElem?
    intro j
    simp only [List.getElem?_map, List.getElem?_set]
    by_cases hij : i = j
    · subst hij
      rw [hb, if_pos rfl]; split <;> simp_all
    · rw [if_neg hij]
  · intro x e
    rw [LiveAt_mid h hi (by simpa using hl.symm)]
    simp only [ASlot.mk.injEq, true_and]
    constructor
    · rintro (⟨h1, h2⟩ | h2)
      · exact Or.inl ⟨h1, h2.symm⟩
      · exact Or.inr h2
    · rintro (⟨h1, h2⟩ | h2)
      · exact Or.inl ⟨h1, h2.symm⟩
      · exact Or.inr h2

theorem remove_live {bufs : List Buffer} {L : List (List ASlot)} (h : MRep bufs L) {a : Nat}
    {d : List Byte} (ha : LiveAt L a d) :
    ∃ bufs' L', remove bufs a = some bufs' ∧ MRep bufs' L' ∧
      bufs'.map Buffer.cap = bufs.map Buffer.cap ∧
      (∀ x e, LiveAt L' x e ↔ x ≠ a ∧ LiveAt L x e) := by
  have hn := ha.not_null h
  obtain ⟨i, ss, off, hi, hs, rfl⟩ := ha
  obtain ⟨b, hb, hr⟩ := h.get hi
  have h1 := h.idx hi; have h2 := h.off hi hs
  obtain ⟨pre, post, rfl, rfl⟩ := hs
  obtain ⟨b', hb1, hb2, hb3⟩ := remove_rep hr
  refine ⟨bufs.set i b', L.set i (pre ++ ⟨true, d⟩ :: post), ?_, ?_, ?_, ?_⟩
  · unfold remove
    rw [hn, itemOffset_compress (by omega) h2, byteOffset_compress (by omega) h2, hb]
    simp [hb1]
  · exact h.set hb3 (by rw [hb2]; exact h.capb b (List.mem_of_getElem? hb))
  · apply List.ext_getElem?
    intro j
    simp only [List.getElem?_map, List.getElem?_set]
    by_cases hij : i = j
    · subst hij
      rw [hb, if_pos rfl]; split <;> simp_all
    · rw [if_neg hij]
  · intro x e
    rw [LiveAt_mid h hi (by simp)]
    simp

theorem clone_some {bufs r : List Buffer} {o : Orc} (h : clone bufs o = some r) : r = bufs := by
  have : ∀ (i : Nat) (bufs r : List Buffer), cloneLoop o.clone i bufs = some r → r = bufs := by
    intro i bufs
    induction bufs generalizing i with
    | nil => intro r h; simp [cloneLoop] at h; exact h
    | cons b bs ih =>
      intro r h
      unfold cloneLoop at h
      split at h
      · split at h
        · cases h
        · rename_i r' hr
          cases h
          rw [ih _ _ hr]
      · cases h
  exact this 0 bufs r h

theorem clone_ok {bufs : List Buffer} {o : Orc} (h : ∀ i, o.clone i = true) : clone bufs o = some bufs := by
  have : ∀ (i : Nat) (bufs : List Buffer), cloneLoop o.clone i bufs = some bufs := by
    intro i bufs
    induction bufs generalizing i with
    | nil => rfl
    | cons b bs ih => unfold cloneLoop; rw [h i, ih]; rfl
  exact this 0 bufs

theorem allocLoop_spec {size : Nat} (hs : 0 < size) (hsz : 4 + size < kMaxBufferCapacity) :
    ∀ (bs : List Buffer) (i : Nat), i + bs.length ≤ 1023 →
    (∀ b ∈ bs, ∃ ss, BRep b ss) →
    ((allocLoop size i bs = (bs, nullAddr)) ∧ (∀ b ∈ bs, ∀ ss, BRep b ss → b.cap < tot ss + 4 + size)) ∨
    (∃ j b b' off, bs[j]? = some b ∧ allocLoop size i bs = (bs.set j b', compress (i + j) off) ∧
      b.allocate size = (b', off) ∧ ∀ ss, BRep b ss → tot ss + 4 + size ≤ b.cap) := by
  intro bs
  unfold kMaxBufferCapacity at hsz
  induction bs with
  | nil => intro i _ _; left; simp [allocLoop]
  | cons b bs ih =>
    intro i hi hrep
    simp only [List.length_cons] at hi
    obtain ⟨ss, hss⟩ := hrep b (by simp)
    unfold allocLoop allocateFrom
    dsimp only
    by_cases hc : b.canAllocateWithoutCompaction size = true
    · right
      rw [if_pos hc]
      have hfit := (canAlloc_iff hss size (by omega)).mp hc
      obtain ⟨b', h1, h2, h3, h4⟩ := allocate_ok hss hs hfit
      have hcb := hss.capb
      rw [h1]
      dsimp only
      rw [compress_not_null (by omega) (by omega)]
      refine ⟨0, b, b', tot ss + 4, rfl, by simp, h1, ?_⟩
      intro ss' hs'
      have := hss.next; have := hs'.next
      omega
    · rw [if_neg hc]
      dsimp only
      rw [show isNull nullAddr = true from rfl, if_pos rfl]
      have hno : ∀ ss, BRep b ss → b.cap < tot ss + 4 + size := by
        intro ss' h'
        have := (canAlloc_iff h' size (by omega)).not.mp hc
        omega
      rcases ih (i + 1) (by omega) (fun x hx => hrep x (by simp [hx])) with ⟨h1, h2⟩ | ⟨j, c, c', off, h1, h2, h3, h4⟩
      · left
        rw [h1]
        refine ⟨rfl, ?_⟩
        intro x hx
        rcases List.mem_cons.mp hx with rfl | hx
        · exact hno
        · exact h2 x hx
      · right
        refine ⟨j + 1, c, c', off, by simpa using h1, ?_, h3, h4⟩
        rw [h2]
        simp only [List.set_cons_succ]
        rw [show i + 1 + j = i + (j + 1) by omega]

/-- Allocation either fails and changes nothing, or hands out an address that was not live, with every
other live allocation untouched. -/
theorem allocate_live {bufs : List Buffer} {L : List (List ASlot)} (h : MRep bufs L) {size : Nat}
    (hs : 0 < size) (hu : size < 4294967292) :
    (allocate bufs size = (bufs, nullAddr)) ∨
    (∃ a bufs' L' d, allocate bufs size = (bufs', a) ∧ isNull a = false ∧ MRep bufs' L' ∧ d.length = size ∧
      bufs'.map Buffer.cap = bufs.map Buffer.cap ∧
      (∀ x e, LiveAt L' x e ↔ (x = a ∧ e = d) ∨ (x ≠ a ∧ LiveAt L x e)) ∧ (∀ e, ¬ LiveAt L a e)) := by
  unfold allocate
  rw [getAllocSize_eq hu]
  by_cases hbig : 4 + size ≥ kMaxBufferCapacity
  · left; rw [if_pos hbig]
  · rw [if_neg hbig]
    have hsz : 4 + size < kMaxBufferCapacity := by omega
    have hrep : ∀ b ∈ bufs, ∃ ss, BRep b ss := by
      intro b hb
      obtain ⟨i, hi, rfl⟩ := List.mem_iff_getElem.mp hb
      have hl : i < L.length := by have := h.len; omega
      exact ⟨L[i], h.rep i _ _ (List.getElem?_eq_getElem hi) (List.getElem?_eq_getElem hl)⟩
    rcases allocLoop_spec hs hsz bufs 0 (by have := h.lenb; omega) hrep with
      ⟨h1, _⟩ | ⟨j, b, b', off, h1, h2, h3, h4⟩
    · left; exact h1
    · right
      have hj := (List.getElem?_eq_some_iff.mp h1).1
      have hl : j < L.length := by have := h.len; omega
      have hss := h.rep j b L[j] h1 (List.getElem?_eq_getElem hl)
      have hfit := h4 _ hss
      obtain ⟨c, hc1, hc2, hc3, _⟩ := allocate_ok hss hs hfit
      rw [hc1] at h3
      obtain ⟨rfl, rfl⟩ := Prod.mk.inj h3
      have hcb := hss.capb
      have hLj : L[j]? = some L[j] := List.getElem?_eq_getElem hl
      have hidx := h.idx hLj
      have hM := h.set (i := j) hc3 (by rw [hc2]; exact h.capb b (List.mem_of_getElem? h1))
      refine ⟨_, bufs.set j c, L.set j (L[j] ++ [⟨false, rdBytes b.data (tot L[j] + 4) size⟩]),
        rdBytes b.data (tot L[j] + 4) size, h2, ?_, hM, by simp, ?_, ?_, ?_⟩
      · exact compress_not_null (by omega) (by omega)
      · apply List.ext_getElem?
        intro j'
        simp only [List.getElem?_map, List.getElem?_set]
        by_cases hij : j = j'
        · subst hij
          rw [h1, if_pos rfl]; split <;> simp_all
        · rw [if_neg hij]
      · intro x e
        rw [Nat.zero_add]
        have hnew : SlotAt (L[j] ++ [⟨false, rdBytes b.data (tot L[j] + 4) size⟩]) (tot L[j] + 4)
            ⟨false, rdBytes b.data (tot L[j] + 4) size⟩ := SlotAt_append.mpr (Or.inr ⟨rfl, rfl⟩)
        have hset : ∀ k tt, L[k]? = some tt → k ≠ j →
            (L.set j (L[j] ++ [⟨false, rdBytes b.data (tot L[j] + 4) size⟩]))[k]? = some tt := by
          intro k tt hk hne
          rw [List.getElem?_set, if_neg (fun e => hne e.symm)]; exact hk
        have hsetj : (L.set j (L[j] ++ [⟨false, rdBytes b.data (tot L[j] + 4) size⟩]))[j]? =
            some (L[j] ++ [⟨false, rdBytes b.data (tot L[j] + 4) size⟩]) := by
          rw [List.getElem?_set, if_pos rfl, if_pos hl]
        rw [LiveAt_set hLj, LiveAt_split hLj]
        constructor
        · rintro (⟨off, hsl, rfl⟩ | ⟨k, tt, off, hk, hk2, hk3, rfl⟩)
          · rcases SlotAt_append.mp hsl with hsl' | ⟨hd, rfl⟩
            · refine Or.inr ⟨fun he => ?_, Or.inl ⟨off, hsl', rfl⟩⟩
              have hh := (hM.addr_inj hsetj hsl hsetj hnew he).2
              subst hh
              obtain ⟨pre, post, hp1, hp2⟩ := hsl'
              have := congrArg tot hp1
              rw [tot_append] at this; simp only [tot] at this; omega
            · simp at hd; exact Or.inl ⟨rfl, hd⟩
          · refine Or.inr ⟨fun he => ?_, Or.inr ⟨k, tt, off, hk, hk2, hk3, rfl⟩⟩
            exact hk (hM.addr_inj (hset k tt hk2 hk) hk3 hsetj hnew he).1
        · rintro (⟨rfl, rfl⟩ | ⟨_, ⟨off, hsl, ha⟩ | h5⟩)
          · exact Or.inl ⟨_, SlotAt_append.mpr (Or.inr ⟨rfl, rfl⟩), rfl⟩
          · exact Or.inl ⟨off, SlotAt_append.mpr (Or.inl hsl), ha⟩
          · exact Or.inr h5
      · rintro e ⟨k, tt, off, hk, hk2, hk3⟩
        rw [Nat.zero_add] at hk3
        have ho := h.off hk hk2
        have hkb := h.idx hk
        rw [compress_eq (by omega) (by omega), compress_eq (by omega) ho] at hk3
        obtain rfl : j = k := by omega
        rw [hLj] at hk; cases hk
        obtain ⟨pre, post, hp1, hp2⟩ := hk2
        have := congrArg tot hp1
        rw [tot_append] at this; simp only [tot] at this; omega

/-- `allocate` succeeds when the request is below the maximum and some buffer has room. -/
theorem allocate_succeeds {bufs : List Buffer} {L : List (List ASlot)} (h : MRep bufs L) {size : Nat}
    (hs : 0 < size) (hsz : 4 + size < kMaxBufferCapacity) {b : Buffer} {ss : List ASlot} {i : Nat}
    (hi : bufs[i]? = some b) (hb : BRep b ss) (hf : tot ss + 4 + size ≤ b.cap) :
    (allocate bufs size).2 ≠ nullAddr := by
  unfold allocate
  have hk : kMaxBufferCapacity = 1048476 := rfl
  rw [getAllocSize_eq (by omega), if_neg (by omega)]
  have hrep : ∀ b ∈ bufs, ∃ ss, BRep b ss := by
    intro b hb
    obtain ⟨i, hi, rfl⟩ := List.mem_iff_getElem.mp hb
    have hl : i < L.length := by have := h.len; omega
    exact ⟨L[i], h.rep i _ _ (List.getElem?_eq_getElem hi) (List.getElem?_eq_getElem hl)⟩
  rcases allocLoop_spec hs hsz bufs 0 (by have := h.lenb; omega) hrep with
    ⟨_, h1⟩ | ⟨j, b, b', off, h1, h2, h3, h4⟩
  · have := h1 b (List.mem_of_getElem? hi) ss hb; omega
  · have hj := (List.getElem?_eq_some_iff.mp h1).1
    have hl : j < L.length := by have := h.len; omega
    have hLj : L[j]? = some L[j] := List.getElem?_eq_getElem hl
    have hss := h.rep j b L[j] h1 hLj
    have hidx := h.idx hLj
    obtain ⟨c, hc1, _⟩ := allocate_ok hss hs (h4 _ hss)
    have hcb := hss.capb; have := h4 _ hss
    rw [hc1] at h3
    obtain ⟨rfl, rfl⟩ := Prod.mk.inj h3
    rw [h2]
    have := compress_not_null (i := 0 + j) (o := tot L[j] + 4) (by omega) (by omega)
    unfold isNull at this
    simpa using this

theorem LiveAt_append_nil {L : List (List ASlot)} {a : Nat} {d : List Byte} :
    LiveAt (L ++ [[]]) a d ↔ LiveAt L a d := by
  constructor
  · rintro ⟨i, ss, off, hi, hs, rfl⟩
    refine ⟨i, ss, off, ?_, hs, rfl⟩
    rw [List.getElem?_append] at hi
    split at hi
    · exact hi
    · obtain ⟨pre, post, rfl, _⟩ := hs
      simp only [List.getElem?_singleton] at hi
      split at hi <;> simp at hi
  · rintro ⟨i, ss, off, hi, hs, rfl⟩
    refine ⟨i, ss, off, ?_, hs, rfl⟩
    rw [List.getElem?_append_left (List.getElem?_eq_some_iff.mp hi).1]
    exact hi

/-- Expansion never touches a live allocation; when it reports success, the next `allocate` of the same
size (below the maximum) succeeds. -/
theorem expand_live {bufs : List Buffer} {L : List (List ASlot)} (h : MRep bufs L) {size : Nat} {o : Orc}
    (hu : size < 4294967292) :
    ∃ L', MRep (expand bufs size o).1 L' ∧ (∀ x e, LiveAt L' x e ↔ LiveAt L x e) ∧
      ((bufs.map Buffer.cap).sum ≤ ((expand bufs size o).1.map Buffer.cap).sum) ∧
      ((expand bufs size o).2 = false → (expand bufs size o).1 = bufs) ∧
      ((expand bufs size o).2 = true → 0 < size → 4 + size < kMaxBufferCapacity →
        (allocate (expand bufs size o).1 size).2 ≠ nullAddr) ∧
      (o.expand = true → o.add = true → 4 + size < kMaxBufferCapacity → bufs.length < 1023 →
        (expand bufs size o).2 = true) := by
  have hk : kMaxBufferCapacity = 1048476 := rfl
  unfold expand
  dsimp only
  rw [getAllocSize_eq hu]
  by_cases hbig : 4 + size > kMaxBufferCapacity
  · rw [if_pos hbig]
    exact ⟨L, h, fun _ _ => Iff.rfl, Nat.le_refl _, fun _ => rfl, by simp, by intros; omega⟩
  · rw [if_neg hbig]
    have hlp := h.lenp
    obtain ⟨n, hn⟩ : ∃ n, bufs.length = n + 1 := ⟨bufs.length - 1, by omega⟩
    have hlt : n < bufs.length := by omega
    have hlast : bufs.getLast? = some bufs[n] := by
      rw [List.getLast?_eq_getElem?]
      simp [hn]
    rw [hlast]
    dsimp only
    have hn' : n < L.length := by have := h.len; omega
    have hr := h.rep n _ _ (List.getElem?_eq_getElem hlt) (List.getElem?_eq_getElem hn')
    have hc := h.capb _ (List.getElem_mem hlt)
    rw [hn, Nat.add_sub_cancel]
    cases he : expandBuffer bufs[n] (4 + size) o.expand o.junk with
    | some nb =>
      unfold expandBuffer at he
      have hcap := hr.cap; have hnext := hr.next
      split at he
      · cases he
      · rename_i hne
        dsimp only at he
        split at he
        · have hu1 : u32 (bufs[n].cap + (4 + size)) = bufs[n].cap + (4 + size) := by unfold u32; omega
          have hu2 : u32 (bufs[n].cap * 2) = bufs[n].cap * 2 := by unfold u32; omega
          rw [hu1] at hne
          rw [hu1, hu2] at he
          cases he
          obtain ⟨nc, hnc⟩ : ∃ nc, nc = max (bufs[n].cap + (4 + size)) (min kMaxBufferCapacity (bufs[n].cap * 2)) :=
            ⟨_, rfl⟩
          rw [← hnc]
          dsimp only
          have hr' := copyOf_rep hr nc o.junk (by omega) (by omega)
          have hM := h.set (i := n) hr' (by show nc ≤ _; omega)
          refine ⟨_, hM, ?_, ?_, by simp, ?_, by simp⟩
          · intro x e
            have : L.set n L[n] = L := List.set_getElem_self hn'
            rw [this]
          · have hsplit : bufs = bufs.take n ++ [bufs[n]] := by
              have h1 := List.take_append_drop n bufs
              rw [List.drop_eq_getElem_cons hlt, List.drop_eq_nil_of_le (by omega)] at h1
              exact h1.symm
            have hset : bufs.set n (Buffer.copyOf nc bufs[n] o.junk) =
                bufs.take n ++ [Buffer.copyOf nc bufs[n] o.junk] := by
              rw [List.set_eq_take_append_cons_drop, if_pos hlt, List.drop_eq_nil_of_le (by omega)]
            rw [hset]
            conv => lhs; rw [hsplit]
            simp only [List.map_append, List.sum_append, List.map_cons, List.map_nil, List.sum_cons, List.sum_nil]
            show _ + (_ + 0) ≤ _ + (nc + 0)
            omega
          · intro _ hs hsz
            apply allocate_succeeds hM hs hsz (i := n) _ hr'
            · show _ ≤ nc; omega
            · rw [List.getElem?_set, if_pos rfl, if_pos hlt]
        · cases he
    | none =>
      dsimp only
      by_cases hmax : n + 1 ≥ kMaxNumChainedItems
      · rw [if_pos hmax]
        exact ⟨L, h, fun _ _ => Iff.rfl, Nat.le_refl _, fun _ => rfl, by simp,
          by unfold kMaxNumChainedItems at hmax; intros; omega⟩
      · rw [if_neg hmax]
        cases ha : o.add with
        | false =>
          rw [if_neg (by simp)]
          exact ⟨L, h, fun _ _ => Iff.rfl, Nat.le_refl _, fun _ => rfl, by simp, by simp⟩
        | true =>
          rw [if_pos rfl]
          unfold kMaxNumChainedItems at hmax
          have hfr := fresh_rep kMaxBufferCapacity o.junk (by omega)
          have hM : MRep (bufs ++ [Buffer.fresh kMaxBufferCapacity o.junk]) (L ++ [[]]) := by
            refine ⟨by simp [h.len], by simp; omega, by simp, ?_, ?_⟩
            · intro i b ss h1 h2
              rw [List.getElem?_append] at h1 h2
              have hlen := h.len
              split at h1
              · rw [if_pos (by omega)] at h2
                exact h.rep i b ss h1 h2
              · rw [if_neg (by omega)] at h2
                simp only [List.getElem?_singleton] at h1 h2
                split at h1 <;> simp at h1
                split at h2 <;> simp at h2
                subst h1 h2
                exact hfr
            · intro b hb
              rcases List.mem_append.mp hb with hb | hb
              · exact h.capb b hb
              · simp at hb; subst hb; exact Nat.le_refl _
          refine ⟨_, hM, fun _ _ => LiveAt_append_nil, by simp, by simp, ?_, by simp⟩
          intro _ hs hsz
          apply allocate_succeeds hM hs hsz (i := bufs.length) (b := Buffer.fresh kMaxBufferCapacity o.junk) _ hfr
          · show 0 + 4 + size ≤ kMaxBufferCapacity; omega
          · simp

end Verif.Datatype
