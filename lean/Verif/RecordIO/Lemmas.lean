import Verif.RecordIO.Model

namespace Verif.RecordIO

/-! ## Header encoding -/

@[simp] theorem le_length (n v : Nat) : (le n v).length = n := by
  induction n generalizing v with
  | zero => rfl
  | succ n ih => simp [le, ih]

theorem de_le (n v : Nat) : de (le n v) = v % 256 ^ n := by
  induction n generalizing v with
  | zero => simp [le, de, Nat.mod_one]
  | succ n ih =>
    simp only [le, de, ih]
    have h1 : (UInt8.ofNat (v % 256)).toNat = v % 256 := by
      rw [UInt8.toNat_ofNat']; exact Nat.mod_eq_of_lt (Nat.mod_lt _ (by decide))
    rw [h1, Nat.pow_succ, Nat.mul_comm (256 ^ n) 256, Nat.mod_mul]

theorem fld_skip (a b : List Byte) (i n : Nat) : fld (a ++ b) (a.length + i) n = fld b i n := by
  unfold fld
  rw [List.drop_append, List.drop_of_length_le (by omega), List.nil_append]
  congr 2
  omega

theorem fld_zero (a b : List Byte) : fld (a ++ b) 0 a.length = a := by
  unfold fld
  rw [List.drop_zero, List.take_left']
  rfl

theorem fld_le_skip (k v : Nat) (b : List Byte) (i n : Nat) : fld (le k v ++ b) (k + i) n = fld b i n := by
  have := fld_skip (le k v) b i n
  rwa [le_length] at this

theorem fld_le_zero (k v : Nat) (b : List Byte) : fld (le k v ++ b) 0 k = le k v := by
  have := fld_zero (le k v) b
  rwa [le_length] at this

theorem fld_take {l : List Byte} {i n m : Nat} (h : i + n ≤ m) : fld (l.take m) i n = fld l i n := by
  unfold fld
  rw [List.drop_take, List.take_take]
  congr 1
  omega

theorem header24_length (cfg : Cfg) (d : List Byte) : (header24 cfg d).length = 24 := by
  simp [header24]

theorem frame_length (cfg : Cfg) (d : List Byte) : (frame cfg d).length = H + d.length := by
  simp only [frame, List.length_append, header24_length, le_length, H]
  omega

theorem frame_drop (cfg : Cfg) (d : List Byte) : (frame cfg d).drop H = d := by
  unfold frame
  rw [← List.append_assoc, List.drop_append, List.drop_of_length_le, List.nil_append]
  · simp [header24_length, H]
  · simp [header24_length, H]

/-- The parts of a frame. -/
theorem frame_eq (cfg : Cfg) (d : List Byte) : frame cfg d =
    le 4 magic ++ (le 1 0 ++ (le 1 0 ++ (le 2 0 ++ (le 4 kMetadataHeaderFileId ++ (le 4 d.length ++
    (le 8 (cfg.dH d).toNat ++ (le 4 (cfg.hH (header24 cfg d)).toNat ++ d))))))) := by
  simp only [frame, header24, List.append_assoc]

theorem frame_flds (cfg : Cfg) (d : List Byte) (hd : d.length < 4294967296) :
    de (fld (frame cfg d) 0 4) = magic ∧ de (fld (frame cfg d) 4 1) = 0 ∧ de (fld (frame cfg d) 5 1) = 0 ∧
    de (fld (frame cfg d) 6 2) = 0 ∧ de (fld (frame cfg d) 8 4) = kMetadataHeaderFileId ∧
    de (fld (frame cfg d) 12 4) = d.length ∧ de (fld (frame cfg d) 16 8) = (cfg.dH d).toNat ∧
    de (fld (frame cfg d) 24 4) = (cfg.hH (header24 cfg d)).toNat ∧ fld (frame cfg d) 0 24 = header24 cfg d ∧
    fld (frame cfg d) H d.length = d := by
  refine ⟨?_, ?_, ?_, ?_, ?_, ?_, ?_, ?_, ?_, ?_⟩
  · rw [frame_eq, fld_le_zero, de_le]; rfl
  · rw [frame_eq, show (4 : Nat) = 4 + 0 from rfl, fld_le_skip, fld_le_zero, de_le]
  · rw [frame_eq, show (5 : Nat) = 4 + (1 + 0) from rfl, fld_le_skip, fld_le_skip, fld_le_zero, de_le]
  · rw [frame_eq, show (6 : Nat) = 4 + (1 + (1 + 0)) from rfl, fld_le_skip, fld_le_skip, fld_le_skip, fld_le_zero,
      de_le]
  · rw [frame_eq, show (8 : Nat) = 4 + (1 + (1 + (2 + 0))) from rfl, fld_le_skip, fld_le_skip, fld_le_skip,
      fld_le_skip, fld_le_zero, de_le]; rfl
  · rw [frame_eq, show (12 : Nat) = 4 + (1 + (1 + (2 + (4 + 0)))) from rfl, fld_le_skip, fld_le_skip, fld_le_skip,
      fld_le_skip, fld_le_skip, fld_le_zero, de_le]
    exact Nat.mod_eq_of_lt (by rw [show (256 : Nat) ^ 4 = 4294967296 by decide]; exact hd)
  · rw [frame_eq, show (16 : Nat) = 4 + (1 + (1 + (2 + (4 + (4 + 0))))) from rfl, fld_le_skip, fld_le_skip,
      fld_le_skip, fld_le_skip, fld_le_skip, fld_le_skip, fld_le_zero, de_le]
    apply Nat.mod_eq_of_lt
    have := (cfg.dH d).toNat_lt
    rw [show (256 : Nat) ^ 8 = 2 ^ 64 by decide]; exact this
  · rw [frame_eq, show (24 : Nat) = 4 + (1 + (1 + (2 + (4 + (4 + (8 + 0)))))) from rfl, fld_le_skip, fld_le_skip,
      fld_le_skip, fld_le_skip, fld_le_skip, fld_le_skip, fld_le_skip, fld_le_zero, de_le]
    apply Nat.mod_eq_of_lt
    have := (cfg.hH (header24 cfg d)).toNat_lt
    rw [show (256 : Nat) ^ 4 = 2 ^ 32 by decide]; exact this
  · have := fld_zero (header24 cfg d) (le 4 (cfg.hH (header24 cfg d)).toNat ++ d)
    rwa [header24_length] at this
  · unfold fld; rw [frame_drop, List.take_length]

theorem frame_validHeader (cfg : Cfg) (d : List Byte) (hd : d.length < 4294967296) :
    validHeader cfg (frame cfg d) = true := by
  obtain ⟨h1, h2, h3, h4, h5, _, _, h8, h9, _⟩ := frame_flds cfg d hd
  unfold validHeader
  rw [h1, h2, h3, h4, h5, h8, h9, frame_length]
  simp

theorem frame_validData (cfg : Cfg) (d : List Byte) (hd : d.length < 4294967296) (h0 : d ≠ []) :
    validData cfg (frame cfg d) = true := by
  obtain ⟨_, _, _, _, h5, h6, h7, _, _, h10⟩ := frame_flds cfg d hd
  have hl : 0 < d.length := List.length_pos_iff.mpr h0
  unfold validData
  rw [h5, h6, h7, frame_length, h10]
  simp only [Bool.and_eq_true, decide_eq_true_eq, beq_self_eq_true, bne_iff_ne, and_true]
  refine ⟨⟨by omega, by omega⟩, by decide⟩

theorem validHeader_take {cfg : Cfg} {l : List Byte} (h : H ≤ l.length) :
    validHeader cfg l = validHeader cfg (l.take H) := by
  have hl : (l.take H).length = H := by rw [List.length_take]; omega
  have e : ∀ i n, i + n ≤ 28 → fld (l.take H) i n = fld l i n := fun i n hin => fld_take hin
  unfold validHeader
  rw [hl, e 0 4 (by omega), e 4 1 (by omega), e 5 1 (by omega), e 6 2 (by omega), e 8 4 (by omega), e 24 4 (by omega),
    e 0 24 (by omega)]
  simp [h]

/-! ## Slices -/

@[simp] theorem slice_length (m : Mem) (i n : Nat) : (slice m i n).length = n := by simp [slice]

theorem slice_getElem? (m : Mem) (i n j : Nat) (h : j < n) : (slice m i n)[j]? = some (m (i + j)) := by
  simp [slice, h]

theorem slice_congr {m m' : Mem} {i i' n : Nat} (h : ∀ j, j < n → m (i + j) = m' (i' + j)) :
    slice m i n = slice m' i' n := by
  unfold slice
  apply List.map_congr_left
  intro j hj
  exact h j (List.mem_range.mp hj)

theorem slice_append (m : Mem) (i a b : Nat) : slice m i a ++ slice m (i + a) b = slice m i (a + b) := by
  unfold slice
  rw [List.range_add, List.map_append, List.map_map]
  congr 1
  apply List.map_congr_left
  intro j _
  simp [Nat.add_assoc]

theorem slice_eq_of {m : Mem} {i : Nat} {l : List Byte} (h : ∀ j, j < l.length → m (i + j) = l.getD j 0) :
    slice m i l.length = l := by
  apply List.ext_getElem?
  intro j
  by_cases hj : j < l.length
  · rw [slice_getElem? m i _ j hj, h j hj, List.getD_eq_getElem?_getD, List.getElem?_eq_getElem hj]; rfl
  · rw [List.getElem?_eq_none (by rw [slice_length]; omega), List.getElem?_eq_none (by omega)]

theorem slice_take (m : Mem) (i n k : Nat) (h : k ≤ n) : (slice m i n).take k = slice m i k := by
  unfold slice
  rw [← List.map_take, List.take_range]
  congr 2
  omega

theorem zero_header (cfg : Cfg) (m : Mem) (i n : Nat) (h : ∀ j, j < n → m (i + j) = 0) :
    validHeader cfg (slice m i n) = false := by
  unfold validHeader
  by_cases hn : H ≤ n
  · have h4 : fld (slice m i n) 0 4 = [0, 0, 0, 0] := by
      unfold fld
      rw [List.drop_zero, slice_take m i n 4 (by unfold H at hn; omega)]
      have : slice m i 4 = slice (fun _ => 0) 0 4 := slice_congr (fun j hj => by
        rw [h j (by unfold H at hn; omega)])
      rw [this]; rfl
    rw [h4]
    have : (de [0, 0, 0, 0] == magic) = false := by decide
    rw [this]; simp
  · rw [slice_length, decide_eq_false hn]; simp

/-! ## Writer and reader in step -/

/-- The bytes below `P` of the device `D` are those that the writer state `s` has produced. -/
def Final (P : Nat) (s : Wr) (D : Mem) : Prop :=
  (∀ x, x < s.off → x < P → D x = s.dev x) ∧ (∀ i, i < s.bi → s.off + i < P → D (s.off + i) = s.buf i)

/-- The reader is where the writer is. -/
def Sync (cfg : Cfg) (r : Rd) (s : Wr) (D : Mem) : Prop :=
  (r.off = s.off + cfg.B ∧ r.bi = s.bi ∧ ∀ i, i < cfg.B → r.buf i = D (s.off + i)) ∨
  (r.off = s.off ∧ s.bi = 0 ∧ r.bi = cfg.B)

/-- The reader has loaded the writer's block. -/
def SyncA (cfg : Cfg) (r : Rd) (s : Wr) (D : Mem) : Prop :=
  r.off = s.off + cfg.B ∧ r.bi = s.bi ∧ ∀ i, i < cfg.B → r.buf i = D (s.off + i)

variable {cfg : Cfg} {env : Env} {P : Nat} {D : Mem}

theorem flush_eq {s : Wr} {s' : Wr} (h : flush cfg env s = (s', true)) :
    s'.off = s.off + cfg.B ∧ s'.bi = 0 ∧
      s'.dev = put s.dev s.off cfg.B (fun i => if i < s.bi then s.buf i else 0) := by
  unfold flush devWrite at h
  dsimp only at h
  split at h
  · rw [if_pos rfl] at h
    cases h
    exact ⟨rfl, rfl, rfl⟩
  · rw [if_neg (by simp)] at h
    cases h

theorem flush_back {s s' : Wr} (hb : s.bi ≤ cfg.B) (h : flush cfg env s = (s', true)) (hf : Final P s' D) :
    Final P s D := by
  obtain ⟨h1, h2, h3⟩ := flush_eq h
  refine ⟨?_, ?_⟩
  · intro x hx hp
    rw [hf.1 x (by omega) hp, h3]
    unfold put
    rw [if_neg (by omega)]
  · intro i hi hp
    rw [hf.1 (s.off + i) (by omega) hp, h3]
    unfold put
    rw [if_pos (by omega)]
    dsimp only
    rw [if_pos (by omega)]
    congr 1
    omega

/-- The writer's position after the optional flush at the head of the loop. -/
def pre (cfg : Cfg) (env : Env) (s : Wr) : Wr × Bool := if s.bi + H > cfg.B then flush cfg env s else (s, true)

theorem pre_back {s s' : Wr} (hb : s.bi ≤ cfg.B) (hB : H ≤ cfg.B) (h : pre cfg env s = (s', true)) :
    s'.bi + H ≤ cfg.B ∧ s.off ≤ s'.off ∧ (Final P s' D → Final P s D) := by
  unfold pre at h
  split at h
  · obtain ⟨h1, h2, _⟩ := flush_eq h
    exact ⟨by omega, by omega, flush_back hb h⟩
  · cases h
    exact ⟨by omega, Nat.le_refl _, id⟩

theorem refill_sync {s s' : Wr} {r : Rd} (hB : H ≤ cfg.B) (h : pre cfg env s = (s', true)) (hs : Sync cfg r s D)
    (hM : s'.off + cfg.B ≤ cfg.M) (hr : env.rok = fun _ => true) :
    ∃ r', refill cfg env D r = some r' ∧ SyncA cfg r' s' D := by
  have hH : 0 < H := by decide
  unfold pre at h
  unfold refill
  rcases hs with ⟨e1, e2, e3⟩ | ⟨e1, e2, e3⟩
  · by_cases hc : s.bi + H > cfg.B
    · rw [if_pos hc] at h
      obtain ⟨h1, h2, _⟩ := flush_eq h
      rw [if_pos (by omega), if_neg (by omega), hr, if_pos rfl]
      refine ⟨_, rfl, by dsimp only; omega, by dsimp only; omega, ?_⟩
      intro i hi
      dsimp only
      rw [if_pos hi, e1, h1]
    · rw [if_neg hc] at h
      cases h
      rw [if_neg (by omega)]
      exact ⟨r, rfl, e1, e2, e3⟩
  · rw [if_neg (by omega)] at h
    cases h
    rw [if_pos (by omega), if_neg (by omega), hr, if_pos rfl]
    refine ⟨_, rfl, by dsimp only; omega, by dsimp only; omega, ?_⟩
    intro i hi
    dsimp only
    rw [if_pos hi, e1]

theorem fill_get (buf : Mem) (i : Nat) (l : List Byte) (j : Nat) (h : j < l.length) :
    fill buf i l (i + j) = l.getD j 0 := by
  unfold fill
  rw [if_pos (by omega)]
  congr 1
  omega

/-- One iteration of the writer's loop that returns normally. -/
theorem writeLoop_succ {f : Nat} {s s' : Wr} {data : List Byte}
    (h : writeLoop cfg env (f + 1) s data = (s', .ok)) :
    ∃ s1, pre cfg env s = (s1, true) ∧ s1.off + s1.bi + data.length ≤ cfg.M ∧
      ((data.length ≤ cfg.B - s1.bi ∧
          s' = { s1 with buf := fill s1.buf s1.bi (data.take (min (cfg.B - s1.bi) data.length)), bi := s1.bi + data.length }) ∨
       (cfg.B - s1.bi < data.length ∧
          writeLoop cfg env f { s1 with buf := fill s1.buf s1.bi (data.take (cfg.B - s1.bi)),
                                        bi := s1.bi + (cfg.B - s1.bi) } (data.drop (cfg.B - s1.bi)) = (s', .ok))) := by
  unfold writeLoop at h
  rw [show (if s.bi + H > cfg.B then flush cfg env s else (s, true)) = pre cfg env s from rfl] at h
  dsimp only at h
  cases hp : pre cfg env s with
  | mk s1 b =>
    rw [hp] at h
    dsimp only at h
    cases b with
    | false => cases h
    | true =>
      rw [if_pos rfl] at h
      refine ⟨s1, rfl, ?_⟩
      by_cases hm : s1.off + s1.bi + data.length > cfg.M
      · rw [if_pos hm] at h; cases h
      · rw [if_neg hm] at h
        refine ⟨by omega, ?_⟩
        by_cases hc : data.length ≤ cfg.B - s1.bi
        · left
          have hmin : min (cfg.B - s1.bi) data.length = data.length := by omega
          rw [hmin] at h ⊢
          rw [List.drop_length, if_neg (by simp)] at h
          cases h
          exact ⟨hc, rfl⟩
        · right
          have hmin : min (cfg.B - s1.bi) data.length = cfg.B - s1.bi := by omega
          rw [hmin] at h
          rw [if_pos (by rw [List.length_drop]; omega)] at h
          exact ⟨by omega, h⟩

theorem writeLoop_mono {f : Nat} : ∀ {s s' : Wr} {data : List Byte}, H ≤ cfg.B → s.bi ≤ cfg.B →
    writeLoop cfg env f s data = (s', .ok) →
    s.off ≤ s'.off ∧ s.off + s.bi ≤ s'.off + s'.bi ∧ s'.bi ≤ cfg.B ∧ s'.off + s'.bi ≤ cfg.M ∧
      (data ≠ [] → 0 < s'.bi) ∧ (Final P s' D → Final P s D) := by
  induction f with
  | zero => intro s s' data _ _ h; cases h
  | succ f ih =>
    intro s s' data hB hb h
    obtain ⟨s1, hp, hm, hc⟩ := writeLoop_succ h
    obtain ⟨p1, p2, p3⟩ := pre_back (P := P) (D := D) hb hB hp
    have hpos : s.off + s.bi ≤ s1.off + s1.bi := by
      unfold pre at hp
      split at hp
      · obtain ⟨h1, h2, _⟩ := flush_eq hp; omega
      · cases hp; exact Nat.le_refl _
    have hback : ∀ (l : List Byte) (n : Nat), Final P { s1 with buf := fill s1.buf s1.bi l, bi := s1.bi + n } D →
        Final P s D := by
      intro l n hf
      apply p3
      refine ⟨hf.1, ?_⟩
      intro i hi hip
      rw [hf.2 i (by dsimp only; omega) hip]
      dsimp only
      unfold fill
      rw [if_neg (by omega)]
    rcases hc with ⟨c1, c2⟩ | ⟨c1, c2⟩
    · subst c2
      refine ⟨p2, by dsimp only; omega, by dsimp only; omega, by dsimp only; omega, ?_, hback _ _⟩
      intro hd
      have := List.length_pos_iff.mpr hd
      dsimp only; omega
    · obtain ⟨i1, i2, i3, i4, i5, i6⟩ := ih hB (by dsimp only; omega) c2
      dsimp only at i1 i2
      refine ⟨by omega, by omega, i3, i4, ?_, fun hf => hback _ _ (i6 hf)⟩
      intro _
      apply i5
      intro hnil
      have := congrArg List.length hnil
      rw [List.length_drop] at this
      simp at this
      omega

/-- What the reader finds in its block is what the writer has put there. -/
theorem chunk_read {s1 : Wr} {r : Rd} {data : List Byte} {cp : Nat} (hs : SyncA cfg r s1 D) (hcp : cp ≤ data.length)
    (hcB : s1.bi + cp ≤ cfg.B)
    (hf : Final P { s1 with buf := fill s1.buf s1.bi (data.take cp), bi := s1.bi + cp } D)
    (hP : s1.off + s1.bi + cp ≤ P) : slice r.buf r.bi cp = data.take cp := by
  have hl : (data.take cp).length = cp := by rw [List.length_take]; omega
  have := slice_eq_of (m := r.buf) (i := r.bi) (l := data.take cp) (by
    intro j hj
    rw [hl] at hj
    obtain ⟨e1, e2, e3⟩ := hs
    rw [e3 (r.bi + j) (by omega), e2]
    rw [hf.2 (s1.bi + j) (by dsimp only; omega) (by dsimp only; omega)]
    exact fill_get _ _ _ _ (by omega))
  rw [hl] at this
  exact this

/-- Reading what one `writeRecord` wrote: the loops run in step. -/
theorem loops {f : Nat} : ∀ {g : Nat} {s s' : Wr} {r : Rd} {data acc : List Byte} {hdr : Bool} {size : Nat},
    f ≤ g → H ≤ cfg.B → s.bi ≤ cfg.B → env.rok = (fun _ => true) →
    writeLoop cfg env f s data = (s', .ok) → Sync cfg r s D → Final P s' D → s'.off + s'.bi ≤ P →
    s'.off + cfg.B ≤ cfg.M →
    (hdr = true → H ≤ data.length ∧ validHeader cfg data = true ∧ H + de (fld data 12 4) = data.length) →
    (hdr = false → size = data.length) →
    ∃ r', readLoop cfg env D g r hdr size acc = some (some (r', acc ++ data)) ∧ SyncA cfg r' s' D := by
  induction f with
  | zero => intro g s s' r data acc hdr size _ _ _ _ h; cases h
  | succ f ih =>
    intro g s s' r data acc hdr size hfg hB hb hrok h hs hf hP hM hh hsz
    obtain ⟨g, rfl⟩ : ∃ g', g = g' + 1 := ⟨g - 1, by omega⟩
    have hmono := writeLoop_mono (P := P) (D := D) hB hb h
    obtain ⟨s1, hp, hm, hc⟩ := writeLoop_succ h
    obtain ⟨p1, p2, _⟩ := pre_back (P := P) (D := D) hb hB hp
    have hs1 : s1.off ≤ s'.off := by
      rcases hc with ⟨_, c2⟩ | ⟨_, c2⟩
      · subst c2; exact Nat.le_refl _
      · exact (writeLoop_mono (P := P) (D := D) hB (by dsimp only; omega) c2).1
    obtain ⟨r1, hr1, hsa⟩ := refill_sync (D := D) hB hp hs (by omega) hrok
    have hbi := hsa.2.1
    -- the chunk
    obtain ⟨cp, hcpdef⟩ : ∃ cp, cp = min (cfg.B - s1.bi) data.length := ⟨_, rfl⟩
    have hchunk : slice r1.buf r1.bi cp = data.take cp ∧ s1.off + s1.bi + cp ≤ P := by
      rcases hc with ⟨c1, c2⟩ | ⟨c1, c2⟩
      · have he : cp = data.length := by omega
        have hf' := hf
        subst c2
        rw [← hcpdef, ← he] at hf'
        rw [← hcpdef, ← he] at hP
        dsimp only at hP
        exact ⟨chunk_read hsa (by omega) (by omega) hf' (by omega), by omega⟩
      · have he : cp = cfg.B - s1.bi := by omega
        obtain ⟨_, i2, _, _, _, i6⟩ := writeLoop_mono (P := P) (D := D) hB (by dsimp only; omega) c2
        have hf' := i6 hf
        rw [← he] at hf'
        dsimp only at i2
        exact ⟨chunk_read hsa (by omega) (by omega) hf' (by omega), by omega⟩
    -- the header
    have hrange : hdr = true → validHeader cfg (slice r1.buf r1.bi (cfg.B - r1.bi)) = true ∧
        H + de (fld (slice r1.buf r1.bi (cfg.B - r1.bi)) 12 4) = data.length := by
      intro hd
      obtain ⟨g1, g2, g3⟩ := hh hd
      have ht : (slice r1.buf r1.bi (cfg.B - r1.bi)).take H = data.take H := by
        rw [slice_take _ _ _ _ (by omega)]
        have h1 : slice r1.buf r1.bi H = (slice r1.buf r1.bi cp).take H := (slice_take _ _ _ _ (by omega)).symm
        rw [h1, hchunk.1, List.take_take]
        congr 1
        omega
      refine ⟨?_, ?_⟩
      · rw [validHeader_take (by rw [slice_length]; omega), ht, ← validHeader_take g1]; exact g2
      · rw [← fld_take (show 12 + 4 ≤ H by decide), ht, fld_take (by decide)]; exact g3
    unfold readLoop
    rw [hr1]
    dsimp only
    have hif : (hdr && !validHeader cfg (slice r1.buf r1.bi (cfg.B - r1.bi))) = false := by
      cases hdr with
      | false => rfl
      | true => rw [(hrange rfl).1]; rfl
    rw [hif]
    have hsize : (if hdr = true then H + de (fld (slice r1.buf r1.bi (cfg.B - r1.bi)) 12 4) else size) = data.length := by
      cases hdr with
      | false => exact hsz rfl
      | true => exact (hrange rfl).2
    rw [hsize, hbi, ← hcpdef, ← hbi, hchunk.1]
    rw [if_neg (by simp)]
    rcases hc with ⟨c1, c2⟩ | ⟨c1, c2⟩
    · have he : cp = data.length := by omega
      rw [if_neg (by omega), he, List.take_length]
      refine ⟨_, rfl, ?_⟩
      subst c2
      exact ⟨hsa.1, by dsimp only; omega, hsa.2.2⟩
    · have he : cp = cfg.B - s1.bi := by omega
      rw [if_pos (by omega)]
      obtain ⟨r', hr', hsr⟩ := ih (g := g) (r := { r1 with bi := r1.bi + cp }) (acc := acc ++ data.take cp) (hdr := false)
        (size := data.length - cp) (by omega) hB (by dsimp only; omega) hrok c2
        (Or.inl ⟨hsa.1, by dsimp only; omega, hsa.2.2⟩) hf hP hM (by intro hx; cases hx)
        (by intro _; rw [List.length_drop, he])
      refine ⟨r', ?_, hsr⟩
      rw [hr', List.append_assoc, he, List.take_append_drop]

/-- One record. -/
theorem record_sync {s s' : Wr} {r : Rd} {d : List Byte} (hB : H ≤ cfg.B) (hb : s.bi ≤ cfg.B)
    (hrok : env.rok = (fun _ => true)) (h0 : d ≠ []) (h : writeRecord cfg env s d = (s', .ok)) (hs : Sync cfg r s D)
    (hf : Final P s' D) (hP : s'.off + s'.bi ≤ P) (hM : s'.off + cfg.B ≤ cfg.M) :
    ∃ r', readRecord cfg env D r = (r', .data d) ∧ SyncA cfg r' s' D := by
  have hl : 0 < d.length := List.length_pos_iff.mpr h0
  unfold writeRecord at h
  split at h
  · cases h
  · rw [if_neg (by omega)] at h
    split at h
    · cases h
    · rename_i hlt
      obtain ⟨_, _, _, _, _, hlen, _⟩ := frame_flds cfg d (by omega)
      obtain ⟨r', h1, h2⟩ := loops (D := D) (P := P) (g := 4294967352) (r := r) (acc := []) (hdr := true) (size := 0)
        (by unfold H; unfold H at hlt; omega) hB hb hrok h hs hf hP hM
        (by
          intro _
          rw [frame_length, hlen]
          exact ⟨by omega, frame_validHeader cfg d (by omega), rfl⟩)
        (by intro hx; cases hx)
      unfold readRecord
      rw [h1]
      dsimp only
      rw [List.nil_append, frame_validData cfg d (by omega) h0, frame_drop]
      exact ⟨r', rfl, h2⟩

theorem writeRecord_mono {s s' : Wr} {d : List Byte} (hB : H ≤ cfg.B) (hb : s.bi ≤ cfg.B)
    (h : writeRecord cfg env s d = (s', .ok)) :
    s.off ≤ s'.off ∧ s.off + s.bi ≤ s'.off + s'.bi ∧ s'.bi ≤ cfg.B ∧ (Final P s' D → Final P s D) ∧
      (d = [] → s' = s) ∧ (d ≠ [] → 0 < s'.bi) := by
  unfold writeRecord at h
  split at h
  · cases h
  · split at h
    · rename_i h0
      cases h
      exact ⟨Nat.le_refl _, Nat.le_refl _, hb, id, fun _ => rfl, fun hd => absurd (List.length_eq_zero_iff.mp h0) hd⟩
    · split at h
      · cases h
      · rename_i hlen _
        obtain ⟨h1, h2, h3, _, h5, h6⟩ := writeLoop_mono (P := P) (D := D) hB hb h
        refine ⟨h1, h2, h3, h6, fun hd => absurd (by rw [hd]; rfl) hlen, fun _ => h5 ?_⟩
        intro hnil
        have := congrArg List.length hnil
        rw [frame_length] at this
        simp [H] at this

theorem writeAll_cons {s s' : Wr} {d : List Byte} {l : List (List Byte)}
    (h : writeAll cfg env s (d :: l) = (s', .ok)) :
    ∃ s1, writeRecord cfg env s d = (s1, .ok) ∧ writeAll cfg env s1 l = (s', .ok) := by
  unfold writeAll at h
  dsimp only at h
  cases hr : writeRecord cfg env s d with
  | mk s1 x =>
    rw [hr] at h
    cases x with
    | ok => exact ⟨s1, rfl, h⟩
    | throws => cases h
    | ub => cases h

theorem writeAll_mono : ∀ {l : List (List Byte)} {s s' : Wr}, H ≤ cfg.B → s.bi ≤ cfg.B →
    writeAll cfg env s l = (s', .ok) →
    s.off ≤ s'.off ∧ s.off + s.bi ≤ s'.off + s'.bi ∧ s'.bi ≤ cfg.B ∧ (Final P s' D → Final P s D) := by
  intro l
  induction l with
  | nil => intro s s' _ hb h; cases h; exact ⟨Nat.le_refl _, Nat.le_refl _, hb, id⟩
  | cons d l ih =>
    intro s s' hB hb h
    obtain ⟨s1, h1, h2⟩ := writeAll_cons h
    obtain ⟨a1, a2, a3, a4, _⟩ := writeRecord_mono (P := P) (D := D) hB hb h1
    obtain ⟨b1, b2, b3, b4⟩ := ih hB a3 h2
    exact ⟨by omega, by omega, b3, fun hf => a4 (b4 hf)⟩

/-- All the records. -/
theorem all_sync : ∀ {l : List (List Byte)} {s s' : Wr} {r : Rd}, H ≤ cfg.B → s.bi ≤ cfg.B →
    env.rok = (fun _ => true) → writeAll cfg env s l = (s', .ok) → Sync cfg r s D → Final P s' D →
    s'.off + s'.bi ≤ P → s'.off + cfg.B ≤ cfg.M →
    ∃ r', readN cfg env D (l.filter (fun d => !d.isEmpty)).length r = (r', l.filter (fun d => !d.isEmpty)) ∧
      Sync cfg r' s' D := by
  intro l
  induction l with
  | nil => intro s s' r _ _ _ h hs _ _ _; cases h; exact ⟨r, rfl, hs⟩
  | cons d l ih =>
    intro s s' r hB hb hrok h hs hf hP hM
    obtain ⟨s1, h1, h2⟩ := writeAll_cons h
    obtain ⟨a1, a2, a3, a4, a5, a6⟩ := writeRecord_mono (P := P) (D := D) hB hb h1
    obtain ⟨b1, b2, b3, b4⟩ := writeAll_mono (P := P) (D := D) hB a3 h2
    cases hd : d with
    | nil =>
      subst hd
      have := a5 rfl
      subst this
      obtain ⟨r', g1, g2⟩ := ih hB hb hrok h2 hs hf hP hM
      exact ⟨r', by simpa using g1, g2⟩
    | cons x xs =>
      have hne : d ≠ [] := by rw [hd]; simp
      obtain ⟨r1, e1, e2⟩ := record_sync (P := P) (D := D) hB hb hrok hne h1 hs (b4 hf) (by omega) (by omega)
      obtain ⟨r', g1, g2⟩ := ih hB a3 hrok h2 (Or.inl e2) hf hP hM
      refine ⟨r', ?_, g2⟩
      have hfil : (d :: l).filter (fun d => !d.isEmpty) = d :: l.filter (fun d => !d.isEmpty) := by
        rw [List.filter_cons_of_pos (by rw [hd]; rfl)]
      rw [← hd, hfil, List.length_cons]
      unfold readN
      rw [e1]
      dsimp only
      rw [g1]

end Verif.RecordIO
