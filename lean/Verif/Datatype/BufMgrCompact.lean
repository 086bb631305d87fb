import Verif.Datatype.BufMgrLemmas

/-! # `BufferManager`: compaction and iteration -/

namespace Verif.Datatype
open BufMgr

theorem liveOf_of_wasted_zero {ss : List ASlot} (h : wasted ss = 0) : liveOf ss = ss := by
  induction ss with
  | nil => rfl
  | cons s ss ih =>
    simp only [wasted] at h
    cases hs : s.removed with
    | true => rw [hs] at h; simp at h
    | false =>
      unfold liveOf at *
      rw [List.filter_cons]
      simp only [hs, Bool.not_false, if_true]
      rw [ih (by omega)]

theorem compact1_rep {b : Buffer} {ss : List ASlot} (h : BRep b ss) (junk : Mem) :
    ∃ b', compact1 b junk = some b' ∧ b'.cap = b.cap ∧ BRep b' (liveOf ss) := by
  unfold compact1
  by_cases hw : b.wastedBytes = 0
  · rw [if_pos hw]
    have : wasted ss = 0 := by rw [← h.del]; exact hw
    exact ⟨b, rfl, rfl, by rw [liveOf_of_wasted_zero this]; exact h⟩
  · rw [if_neg hw]
    obtain ⟨d, hd1, hd2, hd3⟩ := compact_rep h junk
    rw [hd1]
    exact ⟨_, rfl, hd2, copyOf_rep hd3 _ _ hd3.cap hd3.capb⟩

theorem compact_list (junk : Mem) : ∀ (bufs : List Buffer) (L : List (List ASlot)),
    bufs.length = L.length →
    (∀ (i : Nat) (b : Buffer) (ss : List ASlot), bufs[i]? = some b → L[i]? = some ss → BRep b ss) →
    ∃ bufs', compact junk bufs = some bufs' ∧ bufs'.map Buffer.cap = bufs.map Buffer.cap ∧
      bufs'.length = bufs.length ∧
      (∀ (i : Nat) (b : Buffer) (ss : List ASlot), bufs'[i]? = some b → (L.map liveOf)[i]? = some ss → BRep b ss) := by
  intro bufs
  induction bufs with
  | nil => intro L hl _; exact ⟨[], rfl, rfl, rfl, by simp⟩
  | cons b bs ih =>
    intro L hl hr
    cases L with
    | nil => simp at hl
    | cons ss L =>
      obtain ⟨b', h1, h2, h3⟩ := compact1_rep (hr 0 b ss rfl rfl) junk
      obtain ⟨bs', g1, g2, g3, g4⟩ := ih L (by simpa using hl)
        (fun i c tt hc ht => hr (i + 1) c tt (by simpa using hc) (by simpa using ht))
      refine ⟨b' :: bs', ?_, ?_, ?_, ?_⟩
      · unfold compact; rw [h1]; dsimp only; rw [g1]
      · simp [h2, g2]
      · simp [g3]
      · intro i c tt hc ht
        cases i with
        | zero => simp at hc ht; subst hc ht; exact h3
        | succ i => exact g4 i c tt (by simpa using hc) (by simpa using ht)

/-- The live allocations of one buffer. -/
def slotPairs (i : Nat) : Nat → List ASlot → List (Nat × List Byte)
  | _, [] => []
  | o, s :: ss =>
    if s.removed then slotPairs i (o + 4 + s.data.length) ss
    else (compress i (o + 4), s.data) :: slotPairs i (o + 4 + s.data.length) ss

/-- The live allocations of a list of buffers. -/
def livePairs : Nat → List (List ASlot) → List (Nat × List Byte)
  | _, [] => []
  | i, ss :: L => slotPairs i 0 ss ++ livePairs (i + 1) L

def liveData (L : List (List ASlot)) : List (List Byte) := (L.map (fun ss => (liveOf ss).map (·.data))).flatten

theorem slotPairs_snd (i : Nat) (ss : List ASlot) : ∀ o,
    (slotPairs i o ss).map Prod.snd = (liveOf ss).map (·.data) := by
  induction ss with
  | nil => intro o; rfl
  | cons s ss ih =>
    intro o
    unfold slotPairs
    unfold liveOf at *
    rw [List.filter_cons]
    cases hs : s.removed <;> simp [ih]

theorem livePairs_snd (L : List (List ASlot)) : ∀ i, (livePairs i L).map Prod.snd = liveData L := by
  induction L with
  | nil => intro i; rfl
  | cons ss L ih =>
    intro i
    rw [livePairs, List.map_append, slotPairs_snd, ih]
    rfl

theorem liveData_compact (L : List (List ASlot)) : liveData (L.map liveOf) = liveData L := by
  unfold liveData
  rw [List.map_map]
  congr 1
  apply List.map_congr_left
  intro ss _
  simp [liveOf, List.filter_filter]

theorem mem_slotPairs {i : Nat} {ss : List ASlot} : ∀ {o a : Nat} {d : List Byte},
    (a, d) ∈ slotPairs i o ss ↔ ∃ off, SlotAt ss off ⟨false, d⟩ ∧ a = compress i (o + off) := by
  induction ss with
  | nil => intro o a d; simp [slotPairs, SlotAt]
  | cons x ss ih =>
    intro o a d
    have key : (∃ off, SlotAt (x :: ss) off ⟨false, d⟩ ∧ a = compress i (o + off)) ↔
        (x = ⟨false, d⟩ ∧ a = compress i (o + 4)) ∨
        (∃ off, SlotAt ss off ⟨false, d⟩ ∧ a = compress i ((o + 4 + x.data.length) + off)) := by
      constructor
      · rintro ⟨off, ⟨pre, post, he, ho⟩, ha⟩
        cases pre with
        | nil =>
          simp only [List.nil_append, List.cons.injEq] at he
          left; simp only [tot] at ho; refine ⟨he.1, ?_⟩; rw [ha, ho]
        | cons y pre =>
          simp only [List.cons_append, List.cons.injEq] at he
          simp only [tot, ← he.1] at ho
          right
          refine ⟨tot pre + 4, ⟨pre, post, he.2, rfl⟩, ?_⟩
          rw [ha, ho]; congr 1; omega
      · rintro (⟨h1, h2⟩ | ⟨off, ⟨pre, post, he, ho⟩, ha⟩)
        · exact ⟨4, ⟨[], ss, by rw [h1]; rfl, by simp [tot]⟩, h2⟩
        · refine ⟨4 + x.data.length + off, ⟨x :: pre, post, by rw [he]; rfl, ?_⟩, ?_⟩
          · simp only [tot]; omega
          · rw [ha]; congr 1; omega
    rw [key]
    unfold slotPairs
    cases hx : x.removed with
    | true =>
      rw [if_pos rfl, ih]
      constructor
      · exact Or.inr
      · rintro (⟨rfl, _⟩ | h)
        · simp at hx
        · exact h
    | false =>
      rw [if_neg (by simp), List.mem_cons, ih, Prod.mk.injEq]
      have : x = ⟨false, d⟩ ↔ d = x.data := by
        cases x; simp at hx; subst hx; simp [eq_comm]
      rw [this, and_comm]

theorem mem_livePairs {L : List (List ASlot)} : ∀ {i a : Nat} {d : List Byte},
    (a, d) ∈ livePairs i L ↔ ∃ j ss off, L[j]? = some ss ∧ SlotAt ss off ⟨false, d⟩ ∧ a = compress (i + j) off := by
  induction L with
  | nil => intro i a d; simp [livePairs]
  | cons ss L ih =>
    intro i a d
    unfold livePairs
    rw [List.mem_append, mem_slotPairs, ih]
    constructor
    · rintro (⟨off, hs, ha⟩ | ⟨j, tt, off, hj, hs, ha⟩)
      · exact ⟨0, ss, off, rfl, hs, by simpa using ha⟩
      · exact ⟨j + 1, tt, off, by simpa using hj, hs, by rw [ha]; congr 1; omega⟩
    · rintro ⟨j, tt, off, hj, hs, ha⟩
      cases j with
      | zero => simp at hj; subst hj; exact Or.inl ⟨off, hs, by simpa using ha⟩
      | succ j => exact Or.inr ⟨j, tt, off, by simpa using hj, hs, by rw [ha]; congr 1; omega⟩

theorem LiveAt_iff {L : List (List ASlot)} {a : Nat} {d : List Byte} :
    LiveAt L a d ↔ (a, d) ∈ livePairs 0 L := by
  rw [mem_livePairs]; simp only [Nat.zero_add]; rfl

theorem slotPairs_fst (i : Nat) (ss : List ASlot) : ∀ o,
    (slotPairs i o ss).map Prod.fst = (liveOffs o ss).map (compress i) := by
  induction ss with
  | nil => intro o; rfl
  | cons s ss ih =>
    intro o
    unfold slotPairs liveOffs
    split <;> simp [ih]

theorem offs_bound {b : Buffer} {ss : List ASlot} (h : BRep b ss) {off : Nat} (ho : off ∈ liveOffs 0 ss) :
    off < 4194304 := by
  obtain ⟨s, _, _, hs⟩ := mem_liveOffs.mp ho
  exact (h.off (by simpa using hs)).2

theorem addrs1_nodup {b : Buffer} {ss : List ASlot} (h : BRep b ss) {i : Nat} (hi : i < 1024) :
    ((liveOffs 0 ss).map (compress i)).Nodup := by
  apply List.Nodup.map_on _ (liveOffs_nodup ss 0)
  intro x hx y hy he
  have h1 := offs_bound h hx; have h2 := offs_bound h hy
  rw [compress_eq hi h1, compress_eq hi h2] at he
  omega

theorem livePairs_fst_nodup : ∀ (bufs : List Buffer) (L : List (List ASlot)) (i : Nat),
    bufs.length = L.length → i + L.length ≤ 1023 →
    (∀ (j : Nat) (b : Buffer) (ss : List ASlot), bufs[j]? = some b → L[j]? = some ss → BRep b ss) →
    ((livePairs i L).map Prod.fst).Nodup := by
  intro bufs
  induction bufs with
  | nil =>
    intro L i hl _ _
    have : L = [] := by simpa using hl.symm
    subst this; simp [livePairs]
  | cons b bs ih =>
    intro L i hl hi hr
    cases L with
    | nil => simp at hl
    | cons ss L =>
      simp only [List.length_cons] at hl hi
      have hb := hr 0 b ss rfl rfl
      unfold livePairs
      rw [List.map_append, List.nodup_append]
      refine ⟨?_, ?_, ?_⟩
      · rw [slotPairs_fst]; exact addrs1_nodup hb (by omega)
      · exact ih L (i + 1) (by omega) (by omega)
          (fun j c tt hc ht => hr (j + 1) c tt (by simpa using hc) (by simpa using ht))
      · intro x hx y hy he
        subst he
        rw [slotPairs_fst, List.mem_map] at hx
        obtain ⟨off, ho, rfl⟩ := hx
        have h1 := offs_bound hb ho
        obtain ⟨⟨a, d⟩, hp, he⟩ := List.mem_map.mp hy
        dsimp only at he
        obtain ⟨j, tt, off', hj, hs, ha⟩ := mem_livePairs.mp hp
        have hjl := (List.getElem?_eq_some_iff.mp hj).1
        have hjb : j < bs.length := by omega
        have hb' := hr (j + 1) bs[j] tt (by simp [hjb]) (by simpa using hj)
        have h2 := (hb'.off hs).2
        rw [he, compress_eq (by omega) h1, compress_eq (by omega) h2] at ha
        omega

theorem MRep.pairs_nodup {bufs : List Buffer} {L : List (List ASlot)} (h : MRep bufs L) :
    ((livePairs 0 L).map Prod.fst).Nodup :=
  livePairs_fst_nodup bufs L 0 h.len (by have := h.len; have := h.lenb; omega) h.rep

theorem inj_iff_nodup {β : Type} {bufs : List Buffer} {L : List (List ASlot)} (h : MRep bufs L)
    (f : List Byte → β) :
    (∀ a d b e, LiveAt L a d → LiveAt L b e → f d = f e → a = b) ↔ ((liveData L).map f).Nodup := by
  have hn := h.pairs_nodup
  rw [← livePairs_snd L 0, List.map_map]
  constructor
  · intro hi
    apply List.Nodup.map_on _ (List.Nodup.of_map _ hn)
    rintro ⟨a, d⟩ hx ⟨b, e⟩ hy he
    have hab := hi a d b e (LiveAt_iff.mpr hx) (LiveAt_iff.mpr hy) he
    subst hab
    have := (LiveAt_iff.mpr hx).unique h (LiveAt_iff.mpr hy)
    rw [this]
  · intro hnd a d b e ha hb he
    have := List.inj_on_of_nodup_map hnd (LiveAt_iff.mp ha) (LiveAt_iff.mp hb) he
    exact (Prod.mk.inj this).1

/-- Compaction keeps every live allocation's bytes (at possibly different addresses), one for one. -/
theorem compact_live {bufs : List Buffer} {L : List (List ASlot)} (h : MRep bufs L) (junk : Mem) :
    ∃ bufs' L', compact junk bufs = some bufs' ∧ MRep bufs' L' ∧
      bufs'.map Buffer.cap = bufs.map Buffer.cap ∧
      (∀ d, (∃ a, LiveAt L' a d) ↔ ∃ a, LiveAt L a d) ∧
      (∀ (f : List Byte → List Byte), (∀ a d b e, LiveAt L a d → LiveAt L b e → f d = f e → a = b) →
        (∀ a d b e, LiveAt L' a d → LiveAt L' b e → f d = f e → a = b)) ∧
      (∀ ss ∈ L', ∀ s ∈ ss, s.removed = false) := by
  obtain ⟨bufs', h1, h2, h3, h4⟩ := compact_list junk bufs L h.len h.rep
  have hM : MRep bufs' (L.map liveOf) := by
    refine ⟨by simp [h3, h.len], by rw [h3]; exact h.lenb, by rw [h3]; exact h.lenp, h4, ?_⟩
    intro b hb
    have : b.cap ∈ bufs'.map Buffer.cap := List.mem_map.mpr ⟨b, hb, rfl⟩
    rw [h2] at this
    obtain ⟨c, hc, he⟩ := List.mem_map.mp this
    rw [← he]; exact h.capb c hc
  refine ⟨bufs', L.map liveOf, h1, hM, h2, ?_, ?_, ?_⟩
  · intro d
    have key : ∀ L, (∃ a, LiveAt L a d) ↔ d ∈ liveData L := by
      intro L
      rw [← livePairs_snd L 0, List.mem_map]
      constructor
      · rintro ⟨a, ha⟩; exact ⟨(a, d), LiveAt_iff.mp ha, rfl⟩
      · rintro ⟨⟨a, d'⟩, hm, rfl⟩; exact ⟨a, LiveAt_iff.mpr hm⟩
    rw [key, key, liveData_compact]
  · intro f hf
    rw [inj_iff_nodup hM, liveData_compact, ← inj_iff_nodup h]
    exact hf
  · intro ss hss s hs
    obtain ⟨tt, _, rfl⟩ := List.mem_map.mp hss
    unfold liveOf at hs
    simpa using (List.mem_filter.mp hs).2

/-! ### iteration -/

def revAddrs (L : List (List ASlot)) : Nat → List Nat
  | 0 => []
  | m + 1 => (match L[m]? with | some ss => (liveOffs 0 ss).map (compress m) | none => []) ++ revAddrs L m

theorem iterLoop_rep {bufs : List Buffer} {L : List (List ASlot)} (h : MRep bufs L) :
    ∀ m, m ≤ bufs.length → iterLoop bufs.length (bufs.length - m) (bufs.take m).reverse = some (revAddrs L m) := by
  intro m
  induction m with
  | zero => intro _; simp [iterLoop, revAddrs]
  | succ m ih =>
    intro hm
    have hlt : m < bufs.length := by omega
    have hltL : m < L.length := by have := h.len; omega
    rw [List.take_succ_eq_append_getElem hlt, List.reverse_append]
    simp only [List.reverse_cons, List.reverse_nil, List.nil_append, List.singleton_append]
    unfold iterLoop
    rw [iter_rep (h.rep m _ _ (List.getElem?_eq_getElem hlt) (List.getElem?_eq_getElem hltL))]
    dsimp only
    rw [show bufs.length - (m + 1) + 1 = bufs.length - m by omega, ih (by omega)]
    dsimp only [revAddrs]
    rw [List.getElem?_eq_getElem hltL]
    dsimp only
    rw [show bufs.length - (bufs.length - (m + 1)) - 1 = m by omega]

theorem mem_revAddrs {L : List (List ASlot)} {a : Nat} : ∀ m, a ∈ revAddrs L m ↔
    ∃ i ss off d, i < m ∧ L[i]? = some ss ∧ SlotAt ss off ⟨false, d⟩ ∧ a = compress i off := by
  intro m
  induction m with
  | zero => simp [revAddrs]
  | succ m ih =>
    unfold revAddrs
    rw [List.mem_append, ih]
    constructor
    · rintro (hm | ⟨i, ss, off, d, h1, h2, h3, h4⟩)
      · cases hl : L[m]? with
        | none => rw [hl] at hm; simp at hm
        | some ss =>
          rw [hl] at hm
          obtain ⟨off, ho, rfl⟩ := List.mem_map.mp hm
          obtain ⟨s, hs, _, hsl⟩ := mem_liveOffs.mp ho
          refine ⟨m, ss, off, s.data, by omega, hl, ?_, rfl⟩
          have : (⟨false, s.data⟩ : ASlot) = s := by cases s; simp_all
          rw [this]; simpa using hsl
      · exact ⟨i, ss, off, d, by omega, h2, h3, h4⟩
    · rintro ⟨i, ss, off, d, h1, h2, h3, h4⟩
      by_cases hi : i = m
      · subst hi
        left; rw [h2]
        exact List.mem_map.mpr ⟨off, mem_liveOffs.mpr ⟨_, rfl, Nat.zero_le _, h3⟩, h4.symm⟩
      · right; exact ⟨i, ss, off, d, by omega, h2, h3, h4⟩

theorem revAddrs_nodup {bufs : List Buffer} {L : List (List ASlot)} (h : MRep bufs L) :
    ∀ m, (revAddrs L m).Nodup := by
  intro m
  induction m with
  | zero => simp [revAddrs]
  | succ m ih =>
    unfold revAddrs
    rw [List.nodup_append]
    cases hl : L[m]? with
    | none => exact ⟨by simp, ih, by simp⟩
    | some ss =>
      obtain ⟨b, _, hb⟩ := h.get hl
      have hm := h.idx hl
      refine ⟨addrs1_nodup hb (by omega), ih, ?_⟩
      intro x hx y hy he
      subst he
      obtain ⟨off, ho, rfl⟩ := List.mem_map.mp hx
      obtain ⟨i, tt, off', d, h1, h2, h3, h4⟩ := (mem_revAddrs m).mp hy
      have hi := h.idx h2
      have b1 := offs_bound hb ho
      have b2 := h.off h2 h3
      rw [compress_eq (by omega) b1, compress_eq (by omega) b2] at h4
      omega

/-- Iteration visits every live allocation exactly once. -/
theorem iter_live {bufs : List Buffer} {L : List (List ASlot)} (h : MRep bufs L) :
    ∃ l, iter bufs = some l ∧ l.Nodup ∧ ∀ a, a ∈ l ↔ ∃ d, LiveAt L a d := by
  refine ⟨revAddrs L bufs.length, ?_, revAddrs_nodup h _, ?_⟩
  · have := iterLoop_rep h bufs.length (Nat.le_refl _)
    simpa [iter] using this
  · intro a
    rw [mem_revAddrs]
    constructor
    · rintro ⟨i, ss, off, d, _, h2, h3, h4⟩; exact ⟨d, i, ss, off, h2, h3, h4⟩
    · rintro ⟨d, i, ss, off, h2, h3, h4⟩
      exact ⟨i, ss, off, d, by rw [h.len]; exact (List.getElem?_eq_some_iff.mp h2).1, h2, h3, h4⟩

theorem pct_some {bufs : List Buffer} (h : 0 < (bufs.map Buffer.cap).sum) :
    ∃ p, wastedBytesPct bufs = some p := by
  unfold wastedBytesPct
  dsimp only
  rw [if_neg (by omega)]
  exact ⟨_, rfl⟩

end Verif.Datatype
