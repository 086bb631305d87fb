import Verif.Datatype.BufMgrCompact

/-! # Storage and index agree

What `Map` and `RangeMap` have in common: entries `key bytes ++ value bytes` are live allocations of the buffer
manager, and an index (hash table or sorted array) relates keys to their addresses.  `H k a` says that the index
maps `k` to `a`; `C` is the abstract contents.
-/

namespace Verif.Datatype
open BufMgr

/-- A fixed-size trivially-copyable key type: `sizeof(EntryKey)` bytes (Map.h:337-345, 350-353;
RangeMap.h:39-54). -/
structure KeyEnc (K : Type) where
  ks : Nat
  enc : K → List Byte
  dec : List Byte → K
  len : ∀ k, (enc k).length = ks
  pos : 0 < ks
  dec_enc : ∀ k, dec (enc k) = k

namespace KeyEnc
variable {K : Type} (E : KeyEnc K)

theorem enc_inj {k k' : K} (h : E.enc k = E.enc k') : k = k' := by
  rw [← E.dec_enc k, h, E.dec_enc]

theorem app_inj {k k' : K} {v v' : List Byte} (h : E.enc k ++ v = E.enc k' ++ v') : k = k' ∧ v = v' := by
  have := List.append_inj h (by rw [E.len, E.len])
  exact ⟨E.enc_inj this.1, this.2⟩

theorem dec_take (k : K) (v : List Byte) : E.dec ((E.enc k ++ v).take E.ks) = k := by
  rw [List.take_append_of_le_length (by rw [E.len]; omega), List.take_of_length_le (by rw [E.len]; omega), E.dec_enc]

end KeyEnc

set_option linter.unusedSectionVars false
variable {K : Type} [DecidableEq K]

/-- Writing the key and the value of an entry through the pointer of its allocation (Map.h:661-663,
RangeMap.h:731-733). -/
def storeEntry (E : KeyEnc K) (bufs : List Buffer) (p : Nat × Nat) (k : K) (v : List Byte) : List Buffer :=
  store (store bufs p (E.enc k)) (p.1, p.2 + E.ks) v

/-- Reading the key of an entry (`itr->first`, Map.h:729; `itr->key`, RangeMap.h:693). -/
def loadKey (E : KeyEnc K) (bufs : List Buffer) (p : Nat × Nat) : K := E.dec (load bufs p E.ks)

structure CohL (E : KeyEnc K) (bufs : List Buffer) (L : List (List ASlot)) (H : K → Nat → Prop)
    (C : K → Option (List Byte)) : Prop where
  m : MRep bufs L
  caps : 0 < (bufs.map Buffer.cap).sum
  huniq : ∀ k a b, H k a → H k b → a = b
  h2c : ∀ k a, H k a → ∃ v, C k = some v ∧ LiveAt L a (E.enc k ++ v)
  c2h : ∀ k v, C k = some v → ∃ a, H k a
  l2h : ∀ a d, LiveAt L a d → ∃ k, H k a

/-- The storage and the index hold exactly the entries `C`. -/
def Coh (E : KeyEnc K) (bufs : List Buffer) (H : K → Nat → Prop) (C : K → Option (List Byte)) : Prop :=
  ∃ L, CohL E bufs L H C

section
variable {E : KeyEnc K} {bufs : List Buffer} {L : List (List ASlot)} {H : K → Nat → Prop}
  {C : K → Option (List Byte)}

theorem CohL.live (h : CohL E bufs L H C) {a : Nat} {d : List Byte} (hl : LiveAt L a d) :
    ∃ k v, d = E.enc k ++ v ∧ H k a ∧ C k = some v := by
  obtain ⟨k, hk⟩ := h.l2h a d hl
  obtain ⟨v, hv, hlv⟩ := h.h2c k a hk
  exact ⟨k, v, hl.unique h.m hlv, hk, hv⟩

theorem CohL.h_of_c (h : CohL E bufs L H C) {k : K} {v : List Byte} (hc : C k = some v) :
    ∃ a, H k a ∧ LiveAt L a (E.enc k ++ v) := by
  obtain ⟨a, ha⟩ := h.c2h k v hc
  obtain ⟨v', hv', hl⟩ := h.h2c k a ha
  rw [hc] at hv'; cases hv'
  exact ⟨a, ha, hl⟩

theorem CohL.hinj (h : CohL E bufs L H C) {k k' : K} {a : Nat} (h1 : H k a) (h2 : H k' a) : k = k' := by
  obtain ⟨v, _, hl⟩ := h.h2c k a h1
  obtain ⟨v', _, hl'⟩ := h.h2c k' a h2
  exact (E.app_inj (hl.unique h.m hl')).1

theorem Coh.none_iff (h : Coh E bufs H C) (k : K) : C k = none ↔ ∀ a, ¬ H k a := by
  obtain ⟨L, h⟩ := h
  constructor
  · intro hc a ha
    obtain ⟨v, hv, _⟩ := h.h2c k a ha
    rw [hc] at hv; cases hv
  · intro hno
    cases hc : C k with
    | none => rfl
    | some v => obtain ⟨a, ha⟩ := h.c2h k v hc; exact absurd ha (hno a)

theorem Coh.not_null (h : Coh E bufs H C) {k : K} {a : Nat} (ha : H k a) : isNull a = false := by
  obtain ⟨L, h⟩ := h
  obtain ⟨v, _, hl⟩ := h.h2c k a ha
  exact hl.not_null h.m

/-- Only the related pairs matter. -/
theorem Coh.congr (h : Coh E bufs H C) {H' : K → Nat → Prop} (he : ∀ k a, H' k a ↔ H k a) : Coh E bufs H' C := by
  have : H' = H := by funext k a; exact propext (he k a)
  rw [this]; exact h

theorem load_prefix (bufs : List Buffer) (p : Nat × Nat) (n m : Nat) (h : n ≤ m) :
    load bufs p n = (load bufs p m).take n := by
  unfold load
  split
  · simp
  · unfold rdBytes
    rw [← List.map_take, List.take_range, Nat.min_eq_left h]

theorem load_suffix (bufs : List Buffer) (i o n m : Nat) (hb : (bufs[i]?).isSome) :
    load bufs (i, o + n) m = (load bufs (i, o) (n + m)).drop n := by
  unfold load
  dsimp only
  cases h : bufs[i]? with
  | none => rw [h] at hb; simp at hb
  | some b =>
    dsimp only
    apply List.ext_getElem?
    intro x
    unfold rdBytes
    simp only [List.getElem?_map, List.getElem?_drop]
    by_cases hx : x < m
    · rw [List.getElem?_range hx, List.getElem?_range (by omega)]
      simp; congr 1; omega
    · rw [List.getElem?_eq_none (by simp; omega), List.getElem?_eq_none (by simp; omega)]
      rfl

theorem get_some {bufs : List Buffer} {a : Nat} {p : Nat × Nat} (h : get bufs a = some p) :
    (bufs[p.1]?).isSome ∧ p = (itemOffset a, byteOffset a) := by
  unfold BufMgr.get at h
  split at h
  · cases h
  · split at h
    · cases h
    · rename_i b hb
      cases h
      exact ⟨by rw [hb]; rfl, rfl⟩

/-- Reading an entry: the key, and the value behind it. -/
theorem CohL.read (h : CohL E bufs L H C) {k : K} {a : Nat} (ha : H k a) :
    ∃ p v, C k = some v ∧ get bufs a = some p ∧ loadKey E bufs p = k ∧
      ∀ n, n ≤ v.length → load bufs (p.1, p.2 + E.ks) n = v.take n := by
  obtain ⟨v, hv, hl⟩ := h.h2c k a ha
  obtain ⟨p, hp, hld⟩ := get_live h.m hl
  refine ⟨p, v, hv, hp, ?_, ?_⟩
  · unfold loadKey
    rw [load_prefix bufs p E.ks (E.enc k ++ v).length (by rw [List.length_append, E.len]; omega), hld, E.dec_take]
  · intro n hn
    rw [load_suffix _ _ _ _ _ (get_some hp).1]
    have : load bufs (p.1, p.2) (E.ks + n) = (E.enc k ++ v).take (E.ks + n) := by
      rw [load_prefix bufs _ (E.ks + n) (E.enc k ++ v).length (by rw [List.length_append, E.len]; omega)]
      rw [show (p.1, p.2) = p from rfl, hld]
    rw [this, ← E.len k, List.take_length_add_append, List.drop_left]

theorem wrBytes_two (m : Mem) (o : Nat) (x y : List Byte) :
    wrBytes (wrBytes m o x) (o + x.length) y = wrBytes m o (x ++ y) := by
  funext i
  unfold wrBytes
  by_cases h1 : o + x.length ≤ i ∧ i < o + x.length + y.length
  · rw [if_pos h1, if_pos (by rw [List.length_append]; omega)]
    simp only [List.getD_eq_getElem?_getD]
    rw [List.getElem?_append_right (by omega), show i - o - x.length = i - (o + x.length) by omega]
  · rw [if_neg h1]
    by_cases h2 : o ≤ i ∧ i < o + x.length
    · rw [if_pos h2, if_pos (by rw [List.length_append]; omega)]
      simp only [List.getD_eq_getElem?_getD]
      rw [List.getElem?_append_left (by omega)]
    · rw [if_neg h2, if_neg (by rw [List.length_append]; omega)]

theorem storeEntry_eq (E : KeyEnc K) (bufs : List Buffer) (p : Nat × Nat) (k : K) (v : List Byte) :
    storeEntry E bufs p k v = store bufs p (E.enc k ++ v) := by
  unfold storeEntry store
  cases hb : bufs[p.1]? with
  | none => simp [hb]
  | some b =>
    dsimp only
    have hl := (List.getElem?_eq_some_iff.mp hb).1
    rw [List.getElem?_set, if_pos rfl, if_pos hl]
    dsimp only
    rw [List.set_set, ← E.len k, wrBytes_two]

/-- Allocating, writing the entry, indexing it and removing the previous entry of the key. -/
theorem Coh.insert (h : Coh E bufs H C) (k : K) (v : List Byte) (hu : E.ks + v.length < 4294967292)
    {bufs1 : List Buffer} {a : Nat} (hal : allocate bufs (E.ks + v.length) = (bufs1, a)) (hna : isNull a = false) :
    ∃ p, get bufs1 a = some p ∧
      (∀ H' : K → Nat → Prop, (∀ k' b, H' k' b ↔ (k' = k ∧ b = a) ∨ (k' ≠ k ∧ H k' b)) →
        ((∀ b, ¬ H k b) → Coh E (storeEntry E bufs1 p k v) H' (fun x => if x = k then some v else C x)) ∧
        (∀ old, H k old → ∃ bufs3, remove (storeEntry E bufs1 p k v) old = some bufs3 ∧
          Coh E bufs3 H' (fun x => if x = k then some v else C x))) ∧
      (∃ bufs3, remove (storeEntry E bufs1 p k v) a = some bufs3 ∧ Coh E bufs3 H C) := by
  obtain ⟨L, h⟩ := h
  have hpos := E.pos
  rcases allocate_live h.m (size := E.ks + v.length) (by omega) hu with h1 | ⟨a', b', L1, d, h1, h2, h3, h4, h5, h6, h7⟩
  · rw [h1] at hal
    obtain ⟨_, rfl⟩ := Prod.mk.inj hal
    simp [isNull] at hna
  · rw [hal] at h1
    obtain ⟨rfl, rfl⟩ := Prod.mk.inj h1
    have hlive : LiveAt L1 a d := (h6 a d).mpr (Or.inl ⟨rfl, rfl⟩)
    obtain ⟨p, L2, g1, g2, g3, g4⟩ := store_live h3 (d' := E.enc k ++ v) hlive
      (by rw [List.length_append, E.len, h4])
    have hL2 : ∀ x e, LiveAt L2 x e ↔ (x = a ∧ e = E.enc k ++ v) ∨ (x ≠ a ∧ LiveAt L x e) := by
      intro x e
      rw [g4, h6]
      constructor
      · rintro (hh | ⟨hne, hh | hh⟩)
        · exact Or.inl hh
        · exact absurd hh.1 hne
        · exact Or.inr hh
      · rintro (hh | hh)
        · exact Or.inl hh
        · exact Or.inr ⟨hh.1, Or.inr hh⟩
    have hcaps : 0 < ((store bufs1 p (E.enc k ++ v)).map Buffer.cap).sum := by
      rw [g3, h5]; exact h.caps
    have hane : ∀ k' b, H k' b → b ≠ a := by
      rintro k' b hb rfl
      obtain ⟨v', _, hl⟩ := h.h2c k' b hb
      exact h7 _ hl
    have hla : LiveAt L2 a (E.enc k ++ v) := (hL2 _ _).mpr (Or.inl ⟨rfl, rfl⟩)
    refine ⟨p, g1, ?_, ?_⟩
    · intro H' hH'
      rw [storeEntry_eq]
      have huniq : ∀ k' x y, H' k' x → H' k' y → x = y := by
        intro k' x y hx hy
        rcases (hH' _ _).mp hx with ⟨e1, e2⟩ | ⟨e1, e2⟩ <;> rcases (hH' _ _).mp hy with ⟨e3, e4⟩ | ⟨e3, e4⟩
        · rw [e2, e4]
        · exact absurd e1 e3
        · exact absurd e3 e1
        · exact h.huniq k' x y e2 e4
      have hc2h : ∀ k' v', (if k' = k then some v else C k') = some v' → ∃ b, H' k' b := by
        intro k' v' hc
        by_cases hk : k' = k
        · exact ⟨a, (hH' _ _).mpr (Or.inl ⟨hk, rfl⟩)⟩
        · rw [if_neg hk] at hc
          obtain ⟨b, hb⟩ := h.c2h k' v' hc
          exact ⟨b, (hH' _ _).mpr (Or.inr ⟨hk, hb⟩)⟩
      constructor
      · intro hno
        refine ⟨L2, g2, hcaps, huniq, ?_, hc2h, ?_⟩
        · intro k' b hb
          rcases (hH' _ _).mp hb with ⟨rfl, rfl⟩ | ⟨hk, hb⟩
          · exact ⟨v, by simp, hla⟩
          · obtain ⟨v', hv', hl'⟩ := h.h2c k' b hb
            exact ⟨v', by rw [if_neg hk]; exact hv', (hL2 _ _).mpr (Or.inr ⟨hane _ _ hb, hl'⟩)⟩
        · intro x e hx
          rcases (hL2 _ _).mp hx with ⟨rfl, rfl⟩ | ⟨_, hl'⟩
          · exact ⟨k, (hH' _ _).mpr (Or.inl ⟨rfl, rfl⟩)⟩
          · obtain ⟨k', hk'⟩ := h.l2h x e hl'
            exact ⟨k', (hH' _ _).mpr (Or.inr ⟨by rintro rfl; exact hno _ hk', hk'⟩)⟩
      · intro old hold
        obtain ⟨vo, hvo, hlo⟩ := h.h2c k old hold
        have hlo2 : LiveAt L2 old (E.enc k ++ vo) := (hL2 _ _).mpr (Or.inr ⟨hane _ _ hold, hlo⟩)
        obtain ⟨bufs3, L3, r1, r2, r3, r4⟩ := remove_live g2 hlo2
        refine ⟨bufs3, r1, L3, r2, by rw [r3]; exact hcaps, huniq, ?_, hc2h, ?_⟩
        · intro k' b hb
          rcases (hH' _ _).mp hb with ⟨rfl, rfl⟩ | ⟨hk, hb⟩
          · exact ⟨v, by simp, (r4 _ _).mpr ⟨fun e => hane _ _ hold e.symm, hla⟩⟩
          · obtain ⟨v', hv', hl'⟩ := h.h2c k' b hb
            refine ⟨v', by rw [if_neg hk]; exact hv', (r4 _ _).mpr ⟨?_, (hL2 _ _).mpr (Or.inr ⟨hane _ _ hb, hl'⟩)⟩⟩
            rintro rfl; exact hk (h.hinj hb hold)
        · intro x e hx
          obtain ⟨hxo, hx⟩ := (r4 _ _).mp hx
          rcases (hL2 _ _).mp hx with ⟨rfl, rfl⟩ | ⟨_, hl'⟩
          · exact ⟨k, (hH' _ _).mpr (Or.inl ⟨rfl, rfl⟩)⟩
          · obtain ⟨k', hk'⟩ := h.l2h x e hl'
            refine ⟨k', (hH' _ _).mpr (Or.inr ⟨?_, hk'⟩)⟩
            rintro rfl; exact hxo (h.huniq _ _ _ hk' hold)
    · rw [storeEntry_eq]
      obtain ⟨bufs3, L3, r1, r2, r3, r4⟩ := remove_live g2 hla
      refine ⟨bufs3, r1, L3, r2, by rw [r3]; exact hcaps, h.huniq, ?_, h.c2h, ?_⟩
      · intro k' b hb
        obtain ⟨v', hv', hl'⟩ := h.h2c k' b hb
        exact ⟨v', hv', (r4 _ _).mpr ⟨hane _ _ hb, (hL2 _ _).mpr (Or.inr ⟨hane _ _ hb, hl'⟩)⟩⟩
      · intro x e hx
        obtain ⟨hxo, hx⟩ := (r4 _ _).mp hx
        rcases (hL2 _ _).mp hx with ⟨rfl, rfl⟩ | ⟨_, hl'⟩
        · exact absurd rfl hxo
        · exact h.l2h x e hl'

/-- Removing an entry from the index and from the storage. -/
theorem Coh.erase (h : Coh E bufs H C) {k : K} {a : Nat} (ha : H k a) {H' : K → Nat → Prop}
    (hH' : ∀ k' b, H' k' b ↔ k' ≠ k ∧ H k' b) :
    ∃ bufs', remove bufs a = some bufs' ∧ Coh E bufs' H' (fun x => if x = k then none else C x) := by
  obtain ⟨L, h⟩ := h
  obtain ⟨v, hv, hl⟩ := h.h2c k a ha
  obtain ⟨bufs', L', r1, r2, r3, r4⟩ := remove_live h.m hl
  refine ⟨bufs', r1, L', r2, by rw [r3]; exact h.caps, ?_, ?_, ?_, ?_⟩
  · intro k' x y hx hy
    exact h.huniq k' x y ((hH' _ _).mp hx).2 ((hH' _ _).mp hy).2
  · intro k' b hb
    obtain ⟨hk, hb⟩ := (hH' _ _).mp hb
    obtain ⟨v', hv', hl'⟩ := h.h2c k' b hb
    refine ⟨v', by rw [if_neg hk]; exact hv', (r4 _ _).mpr ⟨?_, hl'⟩⟩
    rintro rfl; exact hk (h.hinj hb ha)
  · intro k' v' hc
    by_cases hk : k' = k
    · rw [if_pos hk] at hc; cases hc
    · rw [if_neg hk] at hc
      obtain ⟨b, hb⟩ := h.c2h k' v' hc
      exact ⟨b, (hH' _ _).mpr ⟨hk, hb⟩⟩
  · intro x e hx
    obtain ⟨hxa, hx⟩ := (r4 _ _).mp hx
    obtain ⟨k', hk'⟩ := h.l2h x e hx
    exact ⟨k', (hH' _ _).mpr ⟨by rintro rfl; exact hxa (h.huniq _ _ _ hk' ha), hk'⟩⟩

/-- Overwriting one byte of a value through the pointer returned by a lookup. -/
theorem Coh.poke (h : Coh E bufs H C) {k : K} {a : Nat} (ha : H k a) {v : List Byte} (hv : C k = some v)
    {j : Nat} (hj : j < v.length) (x : Byte) :
    ∃ p, get bufs a = some p ∧
      Coh E (store bufs (p.1, p.2 + E.ks + j) [x]) H (fun y => if y = k then some (v.set j x) else C y) := by
  obtain ⟨L, h⟩ := h
  obtain ⟨v', hv', hl⟩ := h.h2c k a ha
  rw [hv] at hv'; cases hv'
  obtain ⟨p, L', g1, g2, g3, g4⟩ := store_live h.m (d' := E.enc k ++ v.set j x) hl (by simp)
  obtain ⟨p', hp', hld⟩ := get_live h.m hl
  rw [g1] at hp'; cases hp'
  refine ⟨p, g1, ?_⟩
  -- writing one byte is the same as rewriting the whole entry with that byte changed
  have heq : store bufs (p.1, p.2 + E.ks + j) [x] = store bufs p (E.enc k ++ v.set j x) := by
    unfold store
    dsimp only
    cases hb : bufs[p.1]? with
    | none => rfl
    | some b =>
      dsimp only
      congr 2
      funext i
      have hld' : rdBytes b.data p.2 (E.enc k ++ v).length = E.enc k ++ v := by
        unfold load at hld; rw [hb] at hld; exact hld
      have hbyte : ∀ i, i < (E.enc k ++ v).length → b.data (p.2 + i) = (E.enc k ++ v).getD i 0 := by
        intro i hi
        conv => rhs; rw [← hld']
        unfold rdBytes
        simp only [List.getD_eq_getElem?_getD, List.getElem?_map]
        rw [List.getElem?_range hi]; rfl
      unfold wrBytes
      simp only [List.length_append, List.length_set, List.length_singleton, E.len]
      by_cases h1 : p.2 + E.ks + j ≤ i ∧ i < p.2 + E.ks + j + 1
      · rw [if_pos h1, if_pos (by omega)]
        have hi : i = p.2 + E.ks + j := by omega
        subst hi
        simp only [Nat.sub_self, List.getD_eq_getElem?_getD]
        rw [List.getElem?_append_right (by rw [E.len]; omega), E.len,
          show p.2 + E.ks + j - p.2 - E.ks = j by omega, List.getElem?_set]
        simp [hj]
      · rw [if_neg h1]
        by_cases h2 : p.2 ≤ i ∧ i < p.2 + (E.ks + v.length)
        · rw [if_pos h2]
          have := hbyte (i - p.2) (by rw [List.length_append, E.len]; omega)
          rw [show p.2 + (i - p.2) = i by omega] at this
          rw [this]
          simp only [List.getD_eq_getElem?_getD]
          by_cases h3 : i - p.2 < E.ks
          · rw [List.getElem?_append_left (by rw [E.len]; omega), List.getElem?_append_left (by rw [E.len]; omega)]
          · rw [List.getElem?_append_right (by rw [E.len]; omega), List.getElem?_append_right (by rw [E.len]; omega),
              E.len, List.getElem?_set, if_neg (by omega)]
        · rw [if_neg h2]
  rw [heq]
  refine ⟨L', g2, by rw [g3]; exact h.caps, h.huniq, ?_, ?_, ?_⟩
  · intro k' b hb
    by_cases hk : k' = k
    · subst hk
      have := h.huniq _ _ _ hb ha
      subst this
      exact ⟨v.set j x, by simp, (g4 _ _).mpr (Or.inl ⟨rfl, rfl⟩)⟩
    · obtain ⟨v', hv', hl'⟩ := h.h2c k' b hb
      refine ⟨v', by rw [if_neg hk]; exact hv', (g4 _ _).mpr (Or.inr ⟨?_, hl'⟩)⟩
      rintro rfl; exact hk (h.hinj hb ha)
  · intro k' v' hc
    by_cases hk : k' = k
    · exact ⟨a, by rw [hk]; exact ha⟩
    · rw [if_neg hk] at hc; exact h.c2h k' v' hc
  · intro y e hy
    rcases (g4 _ _).mp hy with ⟨rfl, rfl⟩ | ⟨_, hl'⟩
    · exact ⟨k, ha⟩
    · exact h.l2h y e hl'

/-- Expanding the storage. -/
theorem Coh.expand (h : Coh E bufs H C) (size : Nat) (o : Orc) (hu : size < 4294967292) :
    Coh E (expand bufs size o).1 H C := by
  obtain ⟨L, h⟩ := h
  obtain ⟨L', h1, h2, h3, _⟩ := expand_live h.m (o := o) hu
  have hc := h.caps
  refine ⟨L', h1, by omega, h.huniq, ?_, h.c2h, ?_⟩
  · intro k a ha
    obtain ⟨v, hv, hl⟩ := h.h2c k a ha
    exact ⟨v, hv, (h2 _ _).mpr hl⟩
  · intro a d hd; exact h.l2h a d ((h2 _ _).mp hd)

/-- After compacting the storage and rebuilding the index over its iteration, the contents are the same. -/
theorem Coh.compacted (h : Coh E bufs H C) (junk : Mem) :
    ∃ bufs' l, compact junk bufs = some bufs' ∧ iter bufs' = some l ∧
      bufs'.map Buffer.cap = bufs.map Buffer.cap ∧
      (∀ a ∈ l, ∃ p, get bufs' a = some p) ∧
      (∀ f : Nat → K, (∀ a ∈ l, ∀ p, get bufs' a = some p → f a = loadKey E bufs' p) →
        (l.map f).Nodup ∧ (∀ k, (∃ a ∈ l, f a = k) ↔ ∃ b, H k b) ∧ (∀ a ∈ l, isNull a = false) ∧
        ∀ H' : K → Nat → Prop, (∀ k a, H' k a ↔ a ∈ l ∧ f a = k) → Coh E bufs' H' C) := by
  obtain ⟨L, h⟩ := h
  obtain ⟨bufs', L', c1, c2, c3, c4, c5, _⟩ := compact_live h.m junk
  obtain ⟨l, i1, i2, i3⟩ := iter_live c2
  have hdata : ∀ a d, LiveAt L' a d → ∃ k v, d = E.enc k ++ v ∧ C k = some v := by
    intro a d hd
    obtain ⟨b, hb⟩ := (c4 d).mp ⟨a, hd⟩
    obtain ⟨k, v, e1, _, e3⟩ := h.live hb
    exact ⟨k, v, e1, e3⟩
  have hinj : ∀ a d b e, LiveAt L' a d → LiveAt L' b e → d.take E.ks = e.take E.ks → a = b := by
    apply c5 (fun d => d.take E.ks)
    intro a d b e ha hb he
    obtain ⟨k, v, e1, e2, _⟩ := h.live ha
    obtain ⟨k', v', e1', e2', _⟩ := h.live hb
    subst e1 e1'
    have hk : k = k' := by
      rw [← E.dec_take k v, ← E.dec_take k' v', he]
    subst hk
    exact h.huniq _ _ _ e2 e2'
  have hread : ∀ a d, LiveAt L' a d → ∃ p, get bufs' a = some p ∧ loadKey E bufs' p = E.dec (d.take E.ks) := by
    intro a d hd
    obtain ⟨p, hp, hld⟩ := get_live c2 hd
    obtain ⟨k, v, rfl, _⟩ := hdata a d hd
    refine ⟨p, hp, ?_⟩
    unfold loadKey
    rw [load_prefix bufs' p E.ks (E.enc k ++ v).length (by rw [List.length_append, E.len]; omega), hld]
  refine ⟨bufs', l, c1, i1, c3, ?_, ?_⟩
  · intro a ha
    obtain ⟨d, hd⟩ := (i3 a).mp ha
    obtain ⟨p, hp, _⟩ := hread a d hd
    exact ⟨p, hp⟩
  · intro f hf
    have hfk : ∀ a k v, LiveAt L' a (E.enc k ++ v) → f a = k := by
      intro a k v hd
      obtain ⟨p, hp, hk⟩ := hread a _ hd
      rw [hf a ((i3 a).mpr ⟨_, hd⟩) p hp, hk, E.dec_take]
    have hfull : ∀ a, a ∈ l → ∃ v, C (f a) = some v ∧ LiveAt L' a (E.enc (f a) ++ v) := by
      intro a ha
      obtain ⟨d, hd⟩ := (i3 a).mp ha
      obtain ⟨k, v, rfl, hc⟩ := hdata a d hd
      have := hfk a k v hd
      rw [this]
      exact ⟨v, hc, hd⟩
    have hback : ∀ k v, C k = some v → ∃ a, a ∈ l ∧ f a = k ∧ LiveAt L' a (E.enc k ++ v) := by
      intro k v hc
      obtain ⟨b, _, hl⟩ := h.h_of_c hc
      obtain ⟨a, ha⟩ := (c4 _).mpr ⟨b, hl⟩
      exact ⟨a, (i3 a).mpr ⟨_, ha⟩, hfk a k v ha, ha⟩
    have hfinj : ∀ a ∈ l, ∀ b ∈ l, f a = f b → a = b := by
      intro a ha b hb he
      obtain ⟨v, _, h1⟩ := hfull a ha
      obtain ⟨v', _, h2⟩ := hfull b hb
      apply hinj a _ b _ h1 h2
      rw [he, List.take_left' (E.len _), List.take_left' (E.len _)]
    refine ⟨List.Nodup.map_on (fun a ha b hb he => hfinj a ha b hb he) i2, ?_, ?_, ?_⟩
    · intro k
      constructor
      · rintro ⟨a, ha, rfl⟩
        obtain ⟨v, hc, _⟩ := hfull a ha
        exact h.c2h _ v hc
      · rintro ⟨b, hb⟩
        obtain ⟨v, hc, _⟩ := h.h2c k b hb
        obtain ⟨a, ha, hk, _⟩ := hback k v hc
        exact ⟨a, ha, hk⟩
    · intro a ha
      obtain ⟨v, _, hl⟩ := hfull a ha
      exact hl.not_null c2
    · intro H' hH'
      refine ⟨L', c2, by rw [c3]; exact h.caps, ?_, ?_, ?_, ?_⟩
      · intro k a b ha hb
        obtain ⟨ha1, ha2⟩ := (hH' _ _).mp ha
        obtain ⟨hb1, hb2⟩ := (hH' _ _).mp hb
        exact hfinj a ha1 b hb1 (by rw [ha2, hb2])
      · intro k a ha
        obtain ⟨ha1, rfl⟩ := (hH' _ _).mp ha
        exact hfull a ha1
      · intro k v hc
        obtain ⟨a, ha, hk, _⟩ := hback k v hc
        exact ⟨a, (hH' _ _).mpr ⟨ha, hk⟩⟩
      · intro a d hd
        exact ⟨f a, (hH' _ _).mpr ⟨(i3 a).mpr ⟨d, hd⟩, rfl⟩⟩

/-- Iteration visits every entry exactly once. -/
theorem Coh.iterate (h : Coh E bufs H C) :
    ∃ l, iter bufs = some l ∧ l.Nodup ∧ (∀ a, a ∈ l ↔ ∃ k, H k a) := by
  obtain ⟨L, h⟩ := h
  obtain ⟨l, i1, i2, i3⟩ := iter_live h.m
  refine ⟨l, i1, i2, ?_⟩
  intro a
  rw [i3]
  constructor
  · rintro ⟨d, hd⟩; exact h.l2h a d hd
  · rintro ⟨k, hk⟩
    obtain ⟨v, _, hl⟩ := h.h2c k a hk
    exact ⟨_, hl⟩

theorem Coh.pct (h : Coh E bufs H C) : ∃ p, wastedBytesPct bufs = some p := by
  obtain ⟨L, h⟩ := h
  exact pct_some h.caps

theorem Coh.create {cap : Nat} (hc : 0 < cap) (hb : cap ≤ kMaxBufferCapacity) (junk : Mem) {H : K → Nat → Prop}
    (hH : ∀ k a, ¬ H k a) : Coh E [Buffer.fresh cap junk] H (fun _ => none) := by
  have hk : kMaxBufferCapacity = 1048476 := rfl
  refine ⟨[[]], ⟨rfl, by simp, by simp, ?_, ?_⟩, ?_, ?_, ?_, ?_, ?_⟩
  · intro i b ss h1 h2
    rw [List.getElem?_singleton] at h1 h2
    by_cases hi : i = 0
    · rw [if_pos hi] at h1 h2
      cases h1; cases h2
      exact fresh_rep cap junk (by omega)
    · rw [if_neg hi] at h1; cases h1
  · intro b hb'; simp at hb'; subst hb'; exact hb
  · simp [Buffer.fresh]; exact hc
  · intro k a b ha; exact absurd ha (hH k a)
  · intro k a ha; exact absurd ha (hH k a)
  · intro k v hc; cases hc
  · rintro a d ⟨i, ss, off, hi, ⟨pre, post, rfl, _⟩, _⟩
    rw [List.getElem?_singleton] at hi
    split at hi <;> simp at hi

/-- When all chained-item allocations succeed, a request below the maximum succeeds after `expand`. -/
theorem Coh.alloc_after_expand (h : Coh E bufs H C) {size : Nat} {o : Orc} (hs : 0 < size)
    (hsz : 4 + size < kMaxBufferCapacity) (h1 : o.expand = true) (h2 : o.add = true) (hlen : bufs.length < 1023) :
    (BufMgr.expand bufs size o).2 = true ∧ (allocate (BufMgr.expand bufs size o).1 size).2 ≠ nullAddr := by
  have hk : kMaxBufferCapacity = 1048476 := rfl
  obtain ⟨L, h⟩ := h
  obtain ⟨L', _, _, _, _, g5, g6⟩ := expand_live h.m (size := size) (o := o) (by omega)
  have := g6 h1 h2 hsz hlen
  exact ⟨this, g5 this hs hsz⟩

end
end Verif.Datatype
