import Verif.RecordIO.Lemmas

/-! # C40: the metadata stream round-trips, survives crashes up to the flushed position, and detects corruption

The statements use the model's calls only (`writeAll`, `close`, `readN`, `readRecord`, `isEnd`, `invalidate`,
`getCurPos`) and the definitions of this section. -/

namespace Verif.RecordIO

/-! ## Specification -/

/-- Empty records are not written (folly ignores them). -/
def nonEmpty (rs : List (List Byte)) : List (List Byte) := rs.filter (fun d => !d.isEmpty)

/-- The device holds, at position `p`, a header whose own checksum is right, followed by the data `d`, whose length and
checksum are those in the header. -/
def Certified (cfg : Cfg) (dev : Mem) (p : Nat) (d : List Byte) : Prop :=
  ∃ h : List Byte, h.length = 28 ∧ slice dev p (28 + d.length) = h ++ d ∧
    de (fld h 0 4) = 0xeac313a1 ∧ de (fld h 8 4) = 1 ∧ de (fld h 12 4) = d.length ∧
    de (fld h 16 8) = (cfg.dH d).toNat ∧ de (fld h 24 4) = (cfg.hH (fld h 0 24)).toNat

/-! ## Proofs -/

variable {cfg : Cfg} {env : Env} {D : Mem}

theorem sync_new (dev junk junk' : Mem) : Sync cfg (newReader cfg junk') (newWriter dev junk) D :=
  Or.inr ⟨rfl, rfl, rfl⟩

/-- The device after the destructor, when the last block fits and the writes succeed. -/
theorem close_dev {s : Wr} (hw : ∀ n, s.nw ≤ n → env.wok n = true) (hM : s.off + cfg.B < cfg.M) :
    (0 < s.bi ∧
      (∀ x, x < s.off → (close cfg env s).dev x = s.dev x) ∧
      (∀ i, i < cfg.B → (close cfg env s).dev (s.off + i) = if i < s.bi then s.buf i else 0) ∧
      (s.off + cfg.B + cfg.B ≤ cfg.M → ∀ i, i < cfg.B → (close cfg env s).dev (s.off + cfg.B + i) = 0)) ∨
    (s.bi = 0 ∧ (∀ x, x < s.off → (close cfg env s).dev x = s.dev x) ∧
      (∀ i, i < cfg.B → (close cfg env s).dev (s.off + i) = 0)) := by
  by_cases hb : s.bi > 0
  · left
    refine ⟨hb, ?_⟩
    unfold close devWrite
    dsimp only
    rw [if_pos hb, if_pos hM, if_pos (hw _ (Nat.le_refl _))]
    dsimp only
    rw [if_pos (hw (s.nw + 1) (by omega))]
    by_cases h2 : s.off + cfg.B + cfg.B ≤ cfg.M
    · rw [if_pos h2]
      dsimp only
      refine ⟨?_, ?_, ?_⟩
      · intro x hx
        unfold put
        rw [if_neg (by omega), if_neg (by omega)]
      · intro i hi
        unfold put
        rw [if_neg (by omega), if_pos (by omega)]
        dsimp only
        rw [show s.off + i - s.off = i by omega]
      · intro _ i hi
        unfold put
        rw [if_pos (by omega)]
    · rw [if_neg h2]
      dsimp only
      refine ⟨?_, ?_, fun h => absurd h h2⟩
      · intro x hx
        unfold put
        rw [if_neg (by omega)]
      · intro i hi
        unfold put
        rw [if_pos (by omega)]
        dsimp only
        rw [show s.off + i - s.off = i by omega]
  · right
    refine ⟨by omega, ?_⟩
    unfold close devWrite
    dsimp only
    rw [if_neg hb, if_pos (by omega), if_pos (hw _ (Nat.le_refl _))]
    dsimp only
    refine ⟨?_, ?_⟩
    · intro x hx
      unfold put
      rw [if_neg (by omega)]
    · intro i hi
      unfold put
      rw [if_pos (by omega)]

theorem close_final {s : Wr} (P : Nat) (hb : s.bi ≤ cfg.B) (hw : ∀ n, s.nw ≤ n → env.wok n = true)
    (hM : s.off + cfg.B < cfg.M) : Final P s (close cfg env s).dev := by
  rcases close_dev hw hM with ⟨_, h1, h2, _⟩ | ⟨h0, h1, _⟩
  · refine ⟨fun x hx _ => h1 x hx, ?_⟩
    intro i hi _
    rw [h2 i (by omega), if_pos hi]
  · exact ⟨fun x hx _ => h1 x hx, fun i hi _ => by omega⟩

theorem readRecord_throws_of_range {r r1 : Rd} {dev : Mem} (h1 : refill cfg env dev r = some r1)
    (h2 : validHeader cfg (slice r1.buf r1.bi (cfg.B - r1.bi)) = false) :
    (readRecord cfg env dev r).2 = .throws := by
  have : ∀ f, readLoop cfg env dev (f + 1) r true 0 [] = some none := by
    intro f
    unfold readLoop
    rw [h1]
    dsimp only
    rw [h2, if_pos (by rfl)]
  unfold readRecord
  rw [this 4294967351]

/-- After the last record, reading fails. -/
theorem end_throws {s : Wr} {r : Rd} (hB : H ≤ cfg.B) (hb : s.bi ≤ cfg.B) (hrok : env.rok = fun _ => true)
    (hw : ∀ n, s.nw ≤ n → env.wok n = true) (hM : s.off + cfg.B < cfg.M)
    (hs : Sync cfg r s (close cfg env s).dev) : (readRecord cfg env (close cfg env s).dev r).2 = .throws := by
  have hH : 0 < H := by decide
  cases hre : refill cfg env (close cfg env s).dev r with
  | none =>
    have : ∀ f, readLoop cfg env (close cfg env s).dev (f + 1) r true 0 [] = some none := by
      intro f
      unfold readLoop
      rw [hre]
    unfold readRecord
    rw [this 4294967351]
  | some r1 =>
    apply readRecord_throws_of_range hre
    apply zero_header
    intro j hj
    unfold refill at hre
    rcases hs with ⟨e1, e2, e3⟩ | ⟨e1, e2, e3⟩
    · by_cases hc : r.bi + H > cfg.B
      · rw [if_pos hc] at hre
        split at hre
        · cases hre
        · rename_i hm
          rw [hrok, if_pos rfl] at hre
          cases hre
          dsimp only at hj ⊢
          rw [if_pos (by omega), e1]
          rcases close_dev hw hM with ⟨_, _, _, h3⟩ | ⟨h0, _, _⟩
          · rw [Nat.zero_add]; exact h3 (by omega) j (by omega)
          · omega
      · rw [if_neg hc] at hre
        cases hre
        rw [e3 _ (by omega)]
        rcases close_dev hw hM with ⟨_, _, h2, _⟩ | ⟨h0, _, h2⟩
        · rw [h2 _ (by omega), if_neg (by omega)]
        · exact h2 _ (by omega)
    · rw [if_pos (by omega)] at hre
      split at hre
      · cases hre
      · rw [hrok, if_pos rfl] at hre
        cases hre
        dsimp only at hj ⊢
        rw [if_pos (by omega), e1]
        rcases close_dev hw hM with ⟨_, _, h2, _⟩ | ⟨h0, _, h2⟩
        · omega
        · rw [Nat.zero_add]; exact h2 j (by omega)

/-- **C40**, round trip.  A writer is created on any device, every record is written without an exception, the
writer is destroyed and the device does not fail while this happens; at the end the position reported by the writer
is more than one block below the size of the area.  Then a reader returns exactly the (non-empty) records, in order,
and the next read throws. -/
theorem roundtrip (hB : 28 ≤ cfg.B) (dev junk junk' : Mem) (rs : List (List Byte)) {s : Wr}
    (h : writeAll cfg env (newWriter dev junk) rs = (s, .ok)) (hw : ∀ n, s.nw ≤ n → env.wok n = true)
    (hrok : env.rok = fun _ => true) (hM : getCurPos s + cfg.B < cfg.M) :
    (readN cfg env (close cfg env s).dev (nonEmpty rs).length (newReader cfg junk')).2 = nonEmpty rs ∧
    (readRecord cfg env (close cfg env s).dev
      (readN cfg env (close cfg env s).dev (nonEmpty rs).length (newReader cfg junk')).1).2 = .throws := by
  have hb0 : (newWriter dev junk).bi ≤ cfg.B := Nat.zero_le _
  obtain ⟨_, _, hb, _⟩ := writeAll_mono (P := 0) (D := dev) hB hb0 h
  obtain ⟨r', h1, h2⟩ := all_sync (P := s.off + s.bi) (D := (close cfg env s).dev) hB hb0 hrok h
    (sync_new dev junk junk') (close_final _ hb hw hM) (Nat.le_refl _) (by unfold getCurPos at hM; omega)
  unfold nonEmpty
  rw [h1]
  exact ⟨rfl, end_throws hB hb hrok hw hM h2⟩

/-- **C40**, crash.  Records are written; after `rs1` had been written and then `rs2`, the position reported by the
writer was at least one block beyond the position reported after `rs1`.  Whatever happens to the device from this
position on (a crash with a half-written block, old contents, further writes), a reader finds the records `rs1`
first. -/
theorem crash_prefix (hB : 28 ≤ cfg.B) (dev junk junk' : Mem) (rs1 rs2 : List (List Byte)) {s1 s : Wr}
    (h1 : writeAll cfg env (newWriter dev junk) rs1 = (s1, .ok)) (h2 : writeAll cfg env s1 rs2 = (s, .ok))
    (hrok : env.rok = fun _ => true) (hpos : getCurPos s1 + cfg.B ≤ getCurPos s) (hM : getCurPos s ≤ cfg.M)
    (D : Mem) (hD : ∀ x, x < getCurPos s → D x = s.dev x) :
    (readN cfg env D (nonEmpty rs1).length (newReader cfg junk')).2 = nonEmpty rs1 := by
  have hb0 : (newWriter dev junk).bi ≤ cfg.B := Nat.zero_le _
  obtain ⟨_, _, hb1, _⟩ := writeAll_mono (P := 0) (D := dev) hB hb0 h1
  obtain ⟨_, _, _, hback⟩ := writeAll_mono (P := s.off) (D := D) hB hb1 h2
  have hf : Final s.off s D := ⟨fun x hx _ => hD x hx, fun i _ hp => by omega⟩
  unfold getCurPos at hpos hM
  obtain ⟨r', g1, _⟩ := all_sync (P := s.off) (D := D) hB hb0 hrok h1 (sync_new dev junk junk') (hback hf) (by omega)
    (by omega)
  unfold nonEmpty
  rw [g1]

/-! ### Detection -/

/-- The reader's buffer, if any of it is left to be read, is a block of the device. -/
def RInv (cfg : Cfg) (dev : Mem) (r : Rd) : Prop :=
  r.bi ≤ cfg.B ∧ (r.bi + H > cfg.B ∨ (cfg.B ≤ r.off ∧ ∀ i, i < cfg.B → r.buf i = dev (r.off - cfg.B + i)))

theorem refill_inv {r r1 : Rd} {dev : Mem} (hB : H ≤ cfg.B) (hi : RInv cfg dev r) (h : refill cfg env dev r = some r1) :
    r1.bi + H ≤ cfg.B ∧ cfg.B ≤ r1.off ∧ (∀ i, i < cfg.B → r1.buf i = dev (r1.off - cfg.B + i)) ∧
      (r.bi = cfg.B → r1.off - cfg.B + r1.bi = r.off) := by
  unfold refill at h
  have hH : 0 < H := by decide
  split at h
  · split at h
    · cases h
    · split at h
      · cases h
        dsimp only
        refine ⟨by omega, by omega, ?_, by omega⟩
        intro i hi'
        rw [if_pos hi']
        congr 1
        omega
      · cases h
  · rename_i hc
    cases h
    rcases hi.2 with h | ⟨h1, h2⟩
    · omega
    · exact ⟨by omega, h1, h2, by omega⟩

/-- The bytes collected are contiguous bytes of the device. -/
theorem readLoop_slice {dev : Mem} (hB : H ≤ cfg.B) : ∀ {f : Nat} {r : Rd} {hdr : Bool} {size p : Nat} {acc : List Byte}
    {r' : Rd} {l : List Byte},
    RInv cfg dev r → (hdr = false → acc = slice dev p acc.length ∧ r.bi = cfg.B ∧ r.off = p + acc.length) →
    (hdr = true → acc = []) →
    readLoop cfg env dev f r hdr size acc = some (some (r', l)) →
    RInv cfg dev r' ∧ ∃ p, l = slice dev p l.length ∧
      (hdr = true → validHeader cfg l = true ∧ l.length = H + de (fld l 12 4)) ∧
      (hdr = false → l.length = acc.length + size ∧ l.take acc.length = acc) := by
  intro f
  induction f with
  | zero => intro r hdr size p acc r' l _ _ _ h; cases h
  | succ f ih =>
    intro r hdr size p acc r' l hi hf ht h
    unfold readLoop at h
    cases hre : refill cfg env dev r with
    | none => rw [hre] at h; cases h
    | some r1 =>
      rw [hre] at h
      dsimp only at h
      obtain ⟨i1, i2, i3, i4⟩ := refill_inv hB hi hre
      obtain ⟨range, hrange⟩ : ∃ x, x = slice r1.buf r1.bi (cfg.B - r1.bi) := ⟨_, rfl⟩
      rw [← hrange] at h
      by_cases hv : (hdr && !validHeader cfg range) = true
      · rw [if_pos hv] at h; cases h
      · rw [if_neg hv] at h
        obtain ⟨sz, hsz⟩ : ∃ x, x = if hdr = true then H + de (fld range 12 4) else size := ⟨_, rfl⟩
        rw [← hsz] at h
        obtain ⟨cp, hcp⟩ : ∃ x, x = min (cfg.B - r1.bi) sz := ⟨_, rfl⟩
        rw [← hcp] at h
        -- the chunk is a slice of the device
        have hch : slice r1.buf r1.bi cp = slice dev (r1.off - cfg.B + r1.bi) cp := by
          apply slice_congr
          intro j hj
          rw [i3 _ (by omega)]
          congr 1
          omega
        have hrl : range.length = cfg.B - r1.bi := by rw [hrange, slice_length]
        -- where the record starts
        obtain ⟨p', hp', hacc'⟩ : ∃ p', p' + acc.length = r1.off - cfg.B + r1.bi ∧
            acc ++ slice r1.buf r1.bi cp = slice dev p' (acc.length + cp) := by
          cases hdr with
          | false =>
            obtain ⟨a1, a2, a3⟩ := hf rfl
            refine ⟨p, by rw [i4 a2]; omega, ?_⟩
            rw [hch, i4 a2, a3, ← slice_append, ← a1]
          | true =>
            have := ht rfl
            subst this
            refine ⟨r1.off - cfg.B + r1.bi, rfl, ?_⟩
            rw [List.nil_append, hch, List.length_nil, Nat.zero_add]
        have hinv' : RInv cfg dev { r1 with bi := r1.bi + cp } := by
          refine ⟨by dsimp only; omega, ?_⟩
          exact Or.inr ⟨i2, i3⟩
        -- the header is the beginning of the chunk
        have hhdr : hdr = true → validHeader cfg range = true ∧ (slice r1.buf r1.bi cp).take H = range.take H ∧
            H ≤ cp := by
          intro hd
          have hv' : validHeader cfg range = true := by
            cases hvr : validHeader cfg range with
            | true => rfl
            | false => rw [hd, hvr] at hv; exact absurd rfl hv
          have : H ≤ sz := by rw [hsz, if_pos hd]; omega
          refine ⟨hv', ?_, by omega⟩
          rw [hrange, slice_take _ _ _ _ (by omega), slice_take _ _ _ _ (by omega)]
        by_cases hmore : sz - cp > 0
        · rw [if_pos hmore] at h
          have hfull : cp = cfg.B - r1.bi := by omega
          have hlen : (acc ++ slice r1.buf r1.bi cp).length = acc.length + cp := by simp
          obtain ⟨j1, q, j2, _, j4⟩ := ih (p := p') hinv' (by
            intro _
            refine ⟨by rw [hlen]; exact hacc', by dsimp only; omega, ?_⟩
            dsimp only
            rw [hlen]
            omega) (by intro hx; cases hx) h
          obtain ⟨k1, k2⟩ := j4 rfl
          rw [hlen] at k1 k2
          refine ⟨j1, q, j2, ?_, ?_⟩
          · intro hd
            obtain ⟨g1, g2, g3⟩ := hhdr hd
            have hnil := ht hd
            subst hnil
            rw [List.nil_append] at k2
            have hlH : l.take H = range.take H := by
              rw [← g2, ← k2, List.take_take, List.length_nil, Nat.zero_add]
              congr 1; omega
            have hll : l.length = sz := by rw [k1, List.length_nil]; omega
            refine ⟨?_, ?_⟩
            · rw [validHeader_take (by omega), hlH, ← validHeader_take (by omega)]; exact g1
            · rw [hll, hsz, if_pos hd, ← fld_take (l := range) (show 12 + 4 ≤ H by decide), ← hlH, fld_take (by decide)]
          · intro hd
            refine ⟨?_, ?_⟩
            · rw [k1]
              have : sz = size := by rw [hsz, if_neg (by rw [hd]; simp)]
              omega
            · have := congrArg (List.take acc.length) k2
              rw [List.take_take, List.take_left'] at this
              · rw [show min acc.length (acc.length + cp) = acc.length by omega] at this
                exact this
              · rfl
        · rw [if_neg hmore] at h
          have hcs : cp = sz := by omega
          simp only [Option.some.injEq, Prod.mk.injEq] at h
          obtain ⟨hr', hl⟩ := h
          subst hr'
          subst hl
          have hlen : (acc ++ slice r1.buf r1.bi cp).length = acc.length + cp := by simp
          refine ⟨hinv', p', by rw [hlen]; exact hacc', ?_, ?_⟩
          · intro hd
            obtain ⟨g1, g2, g3⟩ := hhdr hd
            have hnil := ht hd
            subst hnil
            rw [List.nil_append]
            have hll : (slice r1.buf r1.bi cp).length = cp := slice_length _ _ _
            refine ⟨?_, ?_⟩
            · rw [validHeader_take (by omega), g2, ← validHeader_take (by omega)]; exact g1
            · have hs2 : sz = H + de (fld range 12 4) := by rw [hsz, if_pos hd]
              have e : fld (slice r1.buf r1.bi cp) 12 4 = fld range 12 4 := by
                rw [← fld_take (show 12 + 4 ≤ H by decide), g2, fld_take (by decide)]
              rw [hll, e]; omega
          · intro hd
            rw [hlen]
            refine ⟨?_, List.take_left' rfl⟩
            rw [hcs, hsz, if_neg (by rw [hd]; simp)]

theorem readRecord_certified {dev : Mem} {r r' : Rd} {d : List Byte} (hB : H ≤ cfg.B) (hi : RInv cfg dev r)
    (h : readRecord cfg env dev r = (r', .data d)) : RInv cfg dev r' ∧ d ≠ [] ∧ ∃ p, Certified cfg dev p d := by
  unfold readRecord at h
  split at h
  · cases h
  · cases h
  · rename_i r1 l hl
    split at h
    · rename_i hvd
      cases h
      obtain ⟨j1, p, j2, j3, _⟩ := readLoop_slice (p := 0) hB hi (by intro hx; cases hx) (by intro _; rfl) hl
      obtain ⟨k1, k2⟩ := j3 rfl
      unfold validData at hvd
      simp only [Bool.and_eq_true, decide_eq_true_eq, beq_iff_eq] at hvd
      obtain ⟨⟨⟨v1, v2⟩, v3⟩, v4⟩ := hvd
      unfold validHeader at k1
      simp only [Bool.and_eq_true, decide_eq_true_eq, beq_iff_eq] at k1
      obtain ⟨⟨⟨⟨⟨⟨w1, w2⟩, _⟩, _⟩, _⟩, w5⟩, w6⟩ := k1
      have hHe : H = 28 := rfl
      have hdl : (l.drop H).length = de (fld l 12 4) := by rw [List.length_drop]; omega
      have hdd : fld l H (de (fld l 12 4)) = l.drop H := by
        unfold fld at hdl ⊢
        rw [List.take_of_length_le (by omega)]
      refine ⟨j1, ?_, p, l.take H, ?_, ?_, ?_, ?_, ?_, ?_, ?_⟩
      · intro hnil
        have := congrArg List.length hnil
        rw [List.length_drop] at this
        simp at this
        omega
      · rw [List.length_take]; omega
      · rw [List.take_append_drop]
        have : 28 + (l.drop H).length = l.length := by rw [List.length_drop]; omega
        rw [this]; exact j2.symm
      · rw [fld_take (by decide)]; exact w2
      · rw [fld_take (by decide)]; exact w5
      · rw [fld_take (by decide), hdl]
      · rw [fld_take (by decide), ← v3, hdd]
      · rw [fld_take (by decide), fld_take (by decide)]; exact w6
    · cases h

/-- **C40**, detection.  On a device with any contents, whatever a reader returns as data is certified: it stands on the
device behind a header with the right checksum, and its length and checksum are those of the header.  Data that was
changed, cut off or never written is therefore returned only if its checksum collides. -/
theorem detects (hB : 28 ≤ cfg.B) (dev junk : Mem) (n : Nat) :
    ∀ d ∈ (readN cfg env dev n (newReader cfg junk)).2, d ≠ [] ∧ ∃ p, Certified cfg dev p d := by
  have hgen : ∀ (n : Nat) (r : Rd), RInv cfg dev r →
      ∀ d ∈ (readN cfg env dev n r).2, d ≠ [] ∧ ∃ p, Certified cfg dev p d := by
    intro n
    induction n with
    | zero => intro r _ d hd; cases hd
    | succ n ih =>
      intro r hi d hd
      unfold readN at hd
      split at hd
      · rename_i r' x hx
        obtain ⟨h1, h2, h3⟩ := readRecord_certified hB hi hx
        dsimp only at hd
        rcases List.mem_cons.mp hd with rfl | hd
        · exact ⟨h2, h3⟩
        · exact ih r' h1 d hd
      · cases hd
  exact hgen n _ ⟨Nat.le_refl _, Or.inl (by show cfg.B + H > cfg.B; unfold H; omega)⟩

/-- Corollary: if the bytes of two devices agree on a header, the data they return behind it have the same length and
checksum. -/
theorem certified_same_header {dev dev' : Mem} {p p' : Nat} {d d' : List Byte} (h : Certified cfg dev p d)
    (h' : Certified cfg dev' p' d') (hh : slice dev p 28 = slice dev' p' 28) :
    d.length = d'.length ∧ cfg.dH d = cfg.dH d' := by
  obtain ⟨a, a1, a2, _, _, a5, a6, _⟩ := h
  obtain ⟨b, b1, b2, _, _, b5, b6, _⟩ := h'
  have ha : a = slice dev p 28 := by
    rw [← slice_take _ _ (28 + d.length) _ (by omega), a2, List.take_left' a1]
  have hb : b = slice dev' p' 28 := by
    rw [← slice_take _ _ (28 + d'.length) _ (by omega), b2, List.take_left' b1]
  have hab : a = b := by rw [ha, hb, hh]
  subst hab
  refine ⟨by rw [← a5, ← b5], ?_⟩
  apply UInt64.toNat_inj.mp
  rw [← a6, ← b6]

/-! ### The end of the stream -/

/-- **C40**, invalidation: after a successful `invalidate`, a new reader is at the end and returns no data. -/
theorem invalidate_ends (hB : 28 ≤ cfg.B) (s : Wr) (junk : Mem) (h : (invalidate cfg env s).2 = true) :
    isEnd cfg env (invalidate cfg env s).1.dev (newReader cfg junk) = true ∧
    (readRecord cfg env (invalidate cfg env s).1.dev (newReader cfg junk)).2 = .throws := by
  have hz : ∀ i, i < cfg.B → (invalidate cfg env s).1.dev i = 0 := by
    intro i hi
    unfold invalidate devWrite at h ⊢
    split at h
    · rename_i hok
      rw [if_pos hok]
      dsimp only
      unfold put
      rw [if_pos (by omega)]
    · cases h
  refine ⟨?_, ?_⟩
  · unfold isEnd newReader
    dsimp only
    rw [zero_header cfg _ 0 cfg.B (by intro j hj; rw [Nat.zero_add, Nat.zero_add]; exact hz j hj)]
    simp
  · cases hre : refill cfg env (invalidate cfg env s).1.dev (newReader cfg junk) with
    | none =>
      have : ∀ f, readLoop cfg env (invalidate cfg env s).1.dev (f + 1) (newReader cfg junk) true 0 [] = some none := by
        intro f
        unfold readLoop
        rw [hre]
      unfold readRecord
      rw [this 4294967351]
    | some r1 =>
      apply readRecord_throws_of_range hre
      apply zero_header
      intro j hj
      unfold refill newReader at hre
      dsimp only at hre
      rw [if_pos (by unfold H; omega)] at hre
      split at hre
      · cases hre
      · split at hre
        · cases hre
          dsimp only at hj ⊢
          rw [if_pos (by omega), Nat.zero_add, Nat.zero_add]
          exact hz j (by omega)
        · cases hre

/-- **C40**: if a new reader can read a record, then it does not claim to be at the end. -/
theorem not_end_of_read (hB : 28 ≤ cfg.B) (dev junk : Mem) {r' : Rd} {d : List Byte}
    (h : readRecord cfg env dev (newReader cfg junk) = (r', .data d)) :
    isEnd cfg env dev (newReader cfg junk) = false := by
  have key : ∀ f x, readLoop cfg env dev (f + 1) (newReader cfg junk) true 0 [] = some (some x) →
      isEnd cfg env dev (newReader cfg junk) = false := by
    intro f x hx
    unfold readLoop at hx
    unfold refill newReader at hx
    dsimp only at hx
    rw [if_pos (by unfold H; omega)] at hx
    unfold isEnd newReader
    dsimp only
    split at hx
    · cases hx
    · rename_i r1 hr1
      split at hr1
      · cases hr1
      · rename_i hm
        split at hr1
        · rename_i hrok
          cases hr1
          rw [if_neg hm, hrok, if_neg (by simp)]
          dsimp only at hx
          split at hx
          · cases hx
          · rename_i hv
            rw [Nat.sub_zero] at hv
            have : slice (fun i => if i < cfg.B then dev (0 + i) else junk i) 0 cfg.B =
                slice (fun i => dev (0 + i)) 0 cfg.B := slice_congr (fun j hj => by rw [if_pos (by omega)])
            rw [this] at hv
            simpa using hv
        · cases hr1
  unfold readRecord at h
  split at h
  · cases h
  · cases h
  · rename_i r1 l hl
    exact key 4294967351 _ hl

/-! ## Non-vacuity and counterexamples -/

section Examples

/-- Blocks of 32 bytes (the real ones have at least 4096), an area of 5 blocks and a byte. -/
def exCfg : Cfg := ⟨32, 161, fun l => UInt32.ofNat (de (l.take 20) + 5), fun l => UInt64.ofNat (de (l.take 3) * 7 + l.length)⟩
def exEnv : Env := ⟨fun _ => true, fun _ _ => 9, fun _ => true⟩
/-- An old device full of garbage. -/
def exDev : Mem := fun _ => 170

def exRs : List (List Byte) := [[1, 2, 3], [], [4, 5, 6, 7, 8, 9, 10, 11, 12, 13], [14]]

/-- The hypotheses of `roundtrip` are met: the records span blocks; the writer ends in the fourth block. -/
example : (writeAll exCfg exEnv (newWriter exDev exDev) exRs).2 = .ok ∧
    getCurPos (writeAll exCfg exEnv (newWriter exDev exDev) exRs).1 = 96 := by decide +kernel

/-- The hypotheses of `crash_prefix` are met by `rs1 = [[1, 2, 3]]`. -/
example : getCurPos (writeAll exCfg exEnv (newWriter exDev exDev) [[1, 2, 3]]).1 + exCfg.B ≤
    getCurPos (writeAll exCfg exEnv (newWriter exDev exDev) exRs).1 := by decide +kernel

/-- The hypothesis `getCurPos + B < M` of `roundtrip` cannot be weakened to `≤`: in an area of exactly four blocks all
the records are accepted, but the destructor drops the last block (RecordIO.cpp:77 compares with `<`) and with it the
last record. -/
def exCfg4 : Cfg := { exCfg with M := 128 }

theorem last_block_is_lost :
    (writeAll exCfg4 exEnv (newWriter exDev exDev) exRs).2 = .ok ∧
    (readN exCfg4 exEnv (close exCfg4 exEnv (writeAll exCfg4 exEnv (newWriter exDev exDev) exRs).1).dev 3
      (newReader exCfg4 exDev)).2 = [[1, 2, 3], [4, 5, 6, 7, 8, 9, 10, 11, 12, 13]] := by decide +kernel

/-- `isEnd` looks at the block after the one being read: with two records in one block, it claims the end although
one more record can be read. -/
def exCfgB : Cfg := { exCfg with B := 64, M := 200 }

theorem isEnd_too_early :
    let D := (close exCfgB exEnv (writeAll exCfgB exEnv (newWriter exDev exDev) [[1, 2], [3]]).1).dev
    let r := (readN exCfgB exEnv D 1 (newReader exCfgB exDev)).1
    isEnd exCfgB exEnv D r = true ∧ (readRecord exCfgB exEnv D r).2 = .data [3] := by decide +kernel

/-- After a crash a reader may continue with records of an older stream: the old stream is `[1,2,3,4], [5,5,5,5],
[6,6,6,6]` (one block each); a new stream `[7,7,7,7], [8,8,8,8]` gets only as far as flushing its first block. -/
theorem crash_mixes_streams :
    let old := (close exCfg exEnv (writeAll exCfg exEnv (newWriter exDev exDev)
      [[1, 2, 3, 4], [5, 5, 5, 5], [6, 6, 6, 6]]).1).dev
    let new := (writeAll exCfg exEnv (newWriter old exDev) [[7, 7, 7, 7], [8, 8, 8, 8]]).1
    (readN exCfg exEnv new.dev 3 (newReader exCfg exDev)).2 = [[7, 7, 7, 7], [5, 5, 5, 5], [6, 6, 6, 6]] := by
  decide +kernel

end Examples

end Verif.RecordIO
