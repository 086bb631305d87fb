import Verif.Persist.Local

/-! # C56: a saved cache image restores exactly, and nothing else is taken for one -/

namespace Verif.Persist
open Spec

/-- The sizes are within what the stream can express: 2^32 − 1 blocks for a segment, 2^31 − 1 for a Navy file. -/
structure Fits (f : Fmt) (m : Mgr) (h : Host) : Prop where
  mgr : m.Ok f
  seg : ∀ s d, h.segs s = some d → blocksFor d.length f.B < 2 ^ 32 ∧ d.length < 2 ^ 63
  file : ∀ d, h.stateFile = some d → d.length < 2 ^ 63
  navy : blocksFor m.navyFileSize f.B < 2 ^ 31
  size : m.navyFileSize < 2 ^ 63

/-- The stream holds the image of the host: the versions, the name, the state file, the four segments in checksummed
blocks and the first `navyFileSize` bytes, rounded up to a block, of each Navy file. -/
theorem saved_format {f : Fmt} {L : Nat} (ok : f.Ok L) {m : Mgr} {junk : Junk} {h : Host} {t : List Byte}
    (hs : saveCache f m junk h = some t) (fit : Fits f m h) :
    ∃ (i : Image) (len8 : List Byte) (body : Seg → List Byte) (navy : List Byte),
      i.On m h ∧ len8.length = 8 ∧ Number len8 L ∧ (∀ s, 0 < (i.seg s).length) ∧
      (∀ s, Blocks f (blocksFor (i.seg s).length f.B) (i.seg s) (body s)) ∧
      NavyBlocks f (blocksFor m.navyFileSize f.B) i.navy navy ∧ t = stream f m len8 i body navy := by
  unfold saveCache at hs
  simp only [Option.bind_eq_bind, Option.pure_def] at hs
  rw [Option.bind_eq_some_iff] at hs; obtain ⟨w1, e1, hs⟩ := hs
  rw [Option.bind_eq_some_iff] at hs; obtain ⟨w2, e2, hs⟩ := hs
  rw [Option.bind_eq_some_iff] at hs; obtain ⟨w3, e3, hs⟩ := hs
  rw [Option.bind_eq_some_iff] at hs; obtain ⟨w4, e4, hs⟩ := hs
  rw [Option.bind_eq_some_iff] at hs; obtain ⟨w5, e5, hs⟩ := hs
  rw [Option.bind_eq_some_iff] at hs; obtain ⟨w6, e6, hs⟩ := hs
  obtain ⟨sf, hsf, q1⟩ := saveFile_eq e1
  obtain ⟨d2, b2, hd2, hb2, hp2, q2⟩ := saveShm_blocks ok e2 (fun d hd => (fit.seg _ d hd).1)
  obtain ⟨d3, b3, hd3, hb3, hp3, q3⟩ := saveShm_blocks ok e3 (fun d hd => (fit.seg _ d hd).1)
  obtain ⟨d4, b4, hd4, hb4, hp4, q4⟩ := saveShm_blocks ok e4 (fun d hd => (fit.seg _ d hd).1)
  obtain ⟨d5, b5, hd5, hb5, hp5, q5⟩ := saveShm_blocks ok e5 (fun d hd => (fit.seg _ d hd).1)
  have hn : i32Count (alignedSize m.navyFileSize f.B / f.B) = blocksFor m.navyFileSize f.B := by
    rw [alignedSize_div ok.B_two]
    have := fit.navy
    unfold i32Count
    rw [Nat.mod_eq_of_lt (by omega), if_pos this]
  rw [hn] at e6
  obtain ⟨ds, nb, hl, hds, hnb, q6⟩ := saveNavyFiles_blocks ok junk h _ _ _ _ _ e6
  refine ⟨⟨sf, fun s => match s with | .info => d2 | .hashTable => d3 | .chainedItemHashTable => d4 | .cache => d5, ds⟩,
    le 8 L, (fun s => match s with | .info => b2 | .hashTable => b3 | .chainedItemHashTable => b4 | .cache => b5), nb,
    ⟨hsf, ?_, hl, ?_⟩, le_length _ _, Number_le ?_, ?_, ?_, hnb, ?_⟩
  · intro s; cases s <;> assumption
  · intro k hk
    have := hds k hk
    rwa [Nat.zero_add] at this
  · have := ok.len_lt
    simpa using this
  · intro s; cases s <;> assumption
  · intro s; cases s <;> assumption
  · simp only [Option.some.injEq] at hs
    rw [← hs, q6, q5, q4, q3, q2, q1]
    simp [stream, front, ok.header_len, kBegin, kMark, kEnd]

theorem navyNumBlock_eq {size B : Nat} (hB : 2 ≤ B) (h : size + B ≤ 2 ^ 32) :
    navyNumBlock size B = blocksFor size B := by
  have hm := Nat.mod_lt size (show 0 < B by omega)
  have e : navyNumBlock size B = i32Count (alignedSize size B / B) := by
    unfold navyNumBlock alignedSize
    simp only [Nat.mod_eq_of_lt (show size < 2 ^ 32 by omega)]
    split
    · rfl
    · rw [Nat.mod_eq_of_lt (show size + B - size % B < 2 ^ 32 by omega)]
  have hle : alignedSize size B < 2 ^ 32 := by
    unfold alignedSize
    split <;> omega
  have hq : alignedSize size B / B < 2 ^ 31 := by
    have h1 : alignedSize size B / B ≤ alignedSize size B / 2 := Nat.div_le_div_left hB (by omega)
    omega
  rw [e, alignedSize_div hB] at *
  unfold i32Count
  rw [Nat.mod_eq_of_lt (by omega), if_pos hq]

theorem versions_section {f : Fmt} {L : Nat} (ok : f.Ok L) {m m' : Mgr} {st : Bool} {r : List Byte} {h : Host}
    (hv : m'.versions.persistence = m.versions.persistence) :
    restoreSection f m' st .versions (f.encVersions m.versions).length (f.encVersions m.versions ++ r) h = .ok () r h := by
  simp only [restoreSection]
  rw [P.bind_ok (readExact_app _ _ _ _)]
  unfold validateVersions
  rw [ok.versions, P.bind_ok (show deser _ _ _ = _ from rfl), hv, beq_self_eq_true]
  rfl

theorem config_section {f : Fmt} {L : Nat} (ok : f.Ok L) {m m' : Mgr} {st : Bool} {r : List Byte} {h : Host}
    (hv : m'.name = m.name) :
    restoreSection f m' st .configs (f.encConfig m.name).length (f.encConfig m.name ++ r) h = .ok () r h := by
  simp only [restoreSection]
  rw [P.bind_ok (readExact_app _ _ _ _), ok.config, P.bind_ok (show deser _ _ _ = _ from rfl), hv, beq_self_eq_true]
  rfl

/-- The host after the state file was restored. -/
def withState (h : Host) (d : List Byte) : Host :=
  if d.length = 0 then h else { h with stateFile := some d }

theorem file_section {f : Fmt} {m : Mgr} {st : Bool} {d r : List Byte} {h : Host} :
    restoreSection f m st .nvmCacheState d.length (d ++ r) h = .ok () r (withState h d) := by
  simp only [restoreSection]
  rw [P.bind_ok (readExact_app _ _ _ _)]
  unfold restoreFile withState
  split <;> rfl

theorem prefix_good {st : Bool} {len8 r : List Byte} {L : Nat} {h : Host} (h8 : len8.length = 8) (hn : Number len8 L) :
    restorePrefix st (28 :: (len8 ++ r)) h = .ok L r h := by
  unfold restorePrefix
  rw [P.bind_ok (show readChar st (28 :: (len8 ++ r)) h = .ok 28 (len8 ++ r) h from rfl),
    P.bind_ok (show P.check (28 == kBegin) _ _ = .ok () _ _ from rfl)]
  have := readBuf_app st len8 r h
  rw [h8] at this
  rw [P.bind_ok this, if_neg (by omega), Number_iff.1 hn]
  rfl

/-- The type of the section of a segment. -/
def kindOf : Seg → Kind
  | .info => .shmInfo
  | .hashTable => .shmHT
  | .chainedItemHashTable => .shmChainedItemHT
  | .cache => .shmData

/-- The sections of these segments and then `tail`. -/
def segStream (f : Fmt) (i : Image) (body : Seg → List Byte) (tail : List Byte) : List Seg → List Byte
  | [] => tail
  | s :: l => f.encHeader (kindOf s) (i.seg s).length ++ (body s ++ (30 :: segStream f i body tail l))

theorem segStream_app (f : Fmt) (i : Image) (body : Seg → List Byte) (tail : List Byte) (l l' : List Seg) :
    segStream f i body tail (l ++ l') = segStream f i body (segStream f i body tail l') l := by
  induction l with
  | nil => rfl
  | cons s l ih => simp [segStream, ih]

/-- The host with these segments of the image. -/
def withSegs (i : Image) (l : List Seg) (h : Host) : Host := l.foldl (fun h s => setSeg h s (some (i.seg s))) h

theorem loop_segs {f : Fmt} {L : Nat} (ok : f.Ok L) {m : Mgr} {st : Bool} {i : Image} {body : Seg → List Byte}
    {tail : List Byte} (hseg : ∀ s, blocksFor (i.seg s).length f.B < 2 ^ 32 ∧ (i.seg s).length < 2 ^ 63) (F : Nat) :
    ∀ (l : List Seg) (h : Host), (∀ s ∈ l, Blocks f (blocksFor (i.seg s).length f.B) (i.seg s) (body s)) →
      restoreLoop f m st L (F + l.length) (segStream f i body tail l) h = restoreLoop f m st L F tail (withSegs i l h)
  | [], h, _ => rfl
  | s :: l, h, hb => by
    have h1 : restoreSection f m st (kindOf s) (i.seg s).length
        (body s ++ (30 :: segStream f i body tail l)) h = .ok () (30 :: segStream f i body tail l)
          (setSeg h s (some (i.seg s))) := by
      have := restoreShm_good (st := st) (s := s) (r := 30 :: segStream f i body tail l) (h := h) ok.B_two (hseg s).1
        (hb s (by simp))
      cases s <;> exact this
    have h2 := restoreOne_good ok (hseg s).2 h1 (readMark_more st _ _)
    rw [show F + (s :: l).length = F + l.length + 1 by simp [Nat.add_assoc]]
    refine (loop_more h2).trans ?_
    exact loop_segs ok hseg F l _ (fun x hx => hb x (by simp [hx]))

/-- The sections before those of the segments. -/
def headSections (f : Fmt) (m : Mgr) (stateFile tail : List Byte) : List Byte :=
  f.encHeader .versions (f.encVersions m.versions).length ++ (f.encVersions m.versions ++
    (30 :: (f.encHeader .configs (f.encConfig m.name).length ++ (f.encConfig m.name ++
      (30 :: (f.encHeader .nvmCacheState stateFile.length ++ (stateFile ++ (30 :: tail))))))))

theorem loop_head {f : Fmt} {L : Nat} (ok : f.Ok L) {m m' : Mgr} {st : Bool} {sf tail : List Byte} {h : Host}
    (hm : m.Ok f) (hv : m'.versions.persistence = m.versions.persistence) (hname : m'.name = m.name)
    (hfile : sf.length < 2 ^ 63) (F : Nat) :
    restoreLoop f m' st L (F + 3) (headSections f m sf tail) h = restoreLoop f m' st L F tail (withState h sf) := by
  refine (loop_more (restoreOne_good ok (k := .versions) hm.versions_lt (versions_section ok hv)
      (readMark_more st _ _))).trans ?_
  refine (loop_more (restoreOne_good ok (k := .configs) hm.config_lt (config_section ok hname)
    (readMark_more st _ _))).trans ?_
  exact loop_more (restoreOne_good ok (k := .nvmCacheState) hfile file_section (readMark_more st _ _))

/-- The segments in the order of the stream. -/
def segOrder : List Seg := [.info, .hashTable, .chainedItemHashTable, .cache]

theorem stream_eq (f : Fmt) (m : Mgr) (len8 : List Byte) (i : Image) (body : Seg → List Byte) (navy r : List Byte) :
    stream f m len8 i body navy ++ r = 28 :: (len8 ++ headSections f m i.stateFile
      (segStream f i body (f.encHeader .navyPartition m.navyFileSize ++ (navy ++ (31 :: r))) segOrder)) := by
  simp [stream, front, headSections, segOrder, segStream, kindOf]

theorem mid_segs (h : Host) (i : Image) (s : Seg) : (withSegs i segOrder h).segs s = some (i.seg s) := by
  simp only [withSegs, segOrder, List.foldl, setSeg]
  cases s <;> simp

theorem withSegs_rest (i : Image) : ∀ (l : List Seg) (h : Host),
    (withSegs i l h).stateFile = h.stateFile ∧ (withSegs i l h).navy = h.navy
  | [], _ => ⟨rfl, rfl⟩
  | s :: l, h => by
    have := withSegs_rest i l (setSeg h s (some (i.seg s)))
    exact this

/-- A run of `restoreCache` on a stream with a good beginning is the loop after it. -/
theorem restoreCache_eq {f : Fmt} {m : Mgr} {st : Bool} {len8 rest : List Byte} {L : Nat} {h : Host}
    (h8 : len8.length = 8) (hn8 : Number len8 L) :
    restoreCache f m st (28 :: (len8 ++ rest)) h =
      match restoreLoop f m st L (rest.length + 1) rest (dropSegs h) with
      | .ok a r' h'' => .ok a r' h''
      | .thrown h'' => .thrown (dropSegs h'')
      | .fault => .fault := by
  unfold restoreCache
  rw [prefix_good h8 hn8]
  rfl

/-- **Restoring what was saved gives it back.** On any host, with a manager of the same name, persistence version and
number of Navy files: the four segments are those that were saved, the state file too (an empty one is not written),
and each Navy file has the first `navyFileSize` bytes, rounded up to a block. Every byte is used; what follows the
stream is not looked at. Missing: Navy files of 4 GB less a block or more, for
which it is false (`violated_large_navy_files`). -/
theorem round_trip_partial {f : Fmt} {L : Nat} (ok : f.Ok L) {m m' : Mgr} {junk : Junk} {h : Host} {t : List Byte}
    (hs : saveCache f m junk h = some t) (fit : Fits f m h)
    (hv : m'.versions.persistence = m.versions.persistence) (hname : m'.name = m.name)
    (hnum : m'.numNavyFiles = m.numNavyFiles) (hnavy : m.numNavyFiles = 0 ∨ m.navyFileSize + f.B ≤ 2 ^ 32)
    (st : Bool) (extra : List Byte) (h2 : Host) :
    ∃ h', restoreCache f m' st (t ++ extra) h2 = .ok () extra h' ∧ h'.segs = h.segs ∧
      (h'.stateFile = h.stateFile ∨ (h.stateFile = some [] ∧ h'.stateFile = h2.stateFile)) ∧
      (∀ k, k < m.numNavyFiles →
        ∃ d, h.navy k = some d ∧ h'.navy k = some (d.take (blocksFor m.navyFileSize f.B * f.B))) ∧
      ∀ k, m.numNavyFiles ≤ k → h'.navy k = h2.navy k := by
  obtain ⟨i, len8, body, navy, ⟨on1, on2, on3, on4⟩, h8, hn8, hpos, hb, hnb, rfl⟩ := saved_format ok hs fit
  have hseg : ∀ s, blocksFor (i.seg s).length f.B < 2 ^ 32 ∧ (i.seg s).length < 2 ^ 63 := fun s => fit.seg s _ (on2 s)
  have hn0 : m.numNavyFiles = 0 → i.navy = [] := fun h0 => List.eq_nil_of_length_eq_zero (by omega)
  have hnb' : NavyBlocks f (navyNumBlock m.navyFileSize f.B) i.navy navy := by
    rcases hnavy with h0 | h0
    · rw [hn0 h0] at hnb ⊢
      cases hnb
      exact .nil
    · rw [navyNumBlock_eq ok.B_two h0]; exact hnb
  obtain ⟨h', en, s1, s2, s3, s4⟩ := restoreNavyFiles_good (st := st) hnb' 0 (31 :: extra)
    (withSegs i segOrder (withState (dropSegs h2) i.stateFile))
  have hrun : ∀ F, restoreLoop f m' st L (F + 8) (headSections f m i.stateFile (segStream f i body
      (f.encHeader .navyPartition m.navyFileSize ++ (navy ++ (31 :: extra))) segOrder)) (dropSegs h2) =
        .ok () extra h' := by
    intro F
    refine (loop_head ok fit.mgr hv hname (fit.file _ on1) (F + 5)).trans ?_
    refine (loop_segs ok hseg (F + 1) segOrder _ (fun s _ => hb s)).trans ?_
    refine loop_end (restoreOne_good ok (k := .navyPartition) fit.size ?_ (readMark_end st _ _))
    simp only [restoreSection]
    rw [hnum, ← on3]
    exact en
  refine ⟨h', ?_, ?_, ?_, ?_, ?_⟩
  · rw [stream_eq, restoreCache_eq h8 hn8]
    have hlen : 8 ≤ (headSections f m i.stateFile (segStream f i body
      (f.encHeader .navyPartition m.navyFileSize ++ (navy ++ (31 :: extra))) segOrder)).length := by
      simp only [headSections, segStream, segOrder, List.length_append, List.length_cons]; omega
    revert hrun hlen
    generalize headSections f m i.stateFile (segStream f i body
      (f.encHeader .navyPartition m.navyFileSize ++ (navy ++ (31 :: extra))) segOrder) = rest
    intro hrun hlen
    have := hrun (rest.length - 7)
    rw [show rest.length - 7 + 8 = rest.length + 1 by omega] at this
    rw [this]
  · rw [s1]; funext s; rw [mid_segs, on2 s]
  · rw [s2, (withSegs_rest _ _ _).1, on1]
    unfold withState
    by_cases h0 : i.stateFile.length = 0
    · rw [if_pos h0, List.eq_nil_of_length_eq_zero h0]; exact .inr ⟨rfl, rfl⟩
    · rw [if_neg h0]; exact .inl rfl
  · intro k hk
    have hk' : k < i.navy.length := by omega
    refine ⟨i.navy[k], by rw [on4 k hk, List.getElem?_eq_getElem hk'], ?_⟩
    have := s3 k i.navy[k] (List.getElem?_eq_getElem hk')
    rw [Nat.zero_add] at this
    rw [this]
    rcases hnavy with h0 | h0
    · omega
    · rw [navyNumBlock_eq ok.B_two h0]
  · intro k hk
    rw [s4 k (by omega), (withSegs_rest _ _ _).2]
    unfold withState
    split <;> rfl

/-- If the files are no larger than configured, nothing of them is lost. -/
theorem round_trip_whole_file {f : Fmt} {L : Nat} (ok : f.Ok L) {m : Mgr} {d : List Byte}
    (hd : d.length ≤ m.navyFileSize) : d.take (blocksFor m.navyFileSize f.B * f.B) = d := by
  apply List.take_of_length_le
  have := blocksFor_enough (size := m.navyFileSize) ok.B_two
  omega

theorem prefix_ok {t : List Byte} {h : Host} {L r h'} (e : restorePrefix true t h = .ok L r h') :
    h' = h ∧ ∃ len8, t = 28 :: (len8 ++ r) ∧ len8.length = 8 ∧ Number len8 L := by
  unfold restorePrefix at e
  obtain ⟨c, r1, h1, e1, ea⟩ := P.bind_eq_ok e
  obtain ⟨_, r2, h2, e2, eb⟩ := P.bind_eq_ok ea
  obtain ⟨buf, r3, h3, e3, ec⟩ := P.bind_eq_ok eb
  obtain ⟨hc, rfl, rfl⟩ := P.check_ok e2
  cases t with
  | nil => simp [readChar] at e1
  | cons x t =>
    simp only [readChar, Out.ok.injEq] at e1
    obtain ⟨rfl, rfl, rfl⟩ := e1
    have hx : x = 28 := by simpa [kBegin] using hc
    unfold readBuf at e3
    split at e3
    · rename_i hlen
      simp only [Out.ok.injEq] at e3
      obtain ⟨rfl, rfl, rfl⟩ := e3
      rw [if_neg (by rw [List.length_take]; omega)] at ec
      simp only [P.pure, Out.ok.injEq] at ec
      obtain ⟨rfl, rfl, rfl⟩ := ec
      refine ⟨rfl, t.take 8, by rw [hx, List.take_append_drop], by rw [List.length_take]; omega, Number_iff.2 rfl⟩
    · cases e3

theorem prefix_short {len8 q : List Byte} {h : Host} (h8 : len8.length = 8) (hq : q <+: 28 :: len8)
    (hl : q.length < 9) : restorePrefix true q h = .thrown h := by
  cases q with
  | nil => rfl
  | cons x q =>
    obtain ⟨z, hz⟩ := hq
    rw [List.cons_append, List.cons.injEq] at hz
    obtain ⟨rfl, hz⟩ := hz
    unfold restorePrefix
    rw [P.bind_ok (show readChar true (28 :: q) h = .ok 28 q h from rfl),
      P.bind_ok (show P.check (28 == kBegin) _ _ = .ok () _ _ from rfl)]
    have : readBuf true 8 q h = .thrown h := by
      unfold readBuf
      rw [if_neg (by simp only [List.length_cons] at hl; omega)]
      rfl
    rw [P.bind_thrown this]

/-- **A stream that was cut off anywhere is never taken for a saved cache**: whatever stream restores using all its
bytes, restoring any proper beginning of it throws; after the first nine bytes no segment is left to attach to, before
that the host is as it was. (Reader that throws at the end of its data.) -/
theorem cut_stream_rejected {f : Fmt} {m : Mgr} {t q : List Byte} {h h' : Host}
    (hr : restoreCache f m true t h = .ok () [] h') (hq : q <+: t) (hne : q ≠ t) :
    ∃ h2, restoreCache f m true q h = .thrown h2 ∧ (q.length < 9 → h2 = h) ∧ (9 ≤ q.length → ∀ s, h2.segs s = none) := by
  unfold restoreCache at hr
  cases hp : restorePrefix true t h with
  | thrown x => rw [hp] at hr; cases hr
  | fault => rw [hp] at hr; cases hr
  | ok L r h1 =>
    obtain ⟨rfl, len8, rfl, h8, hn8⟩ := prefix_ok hp
    rw [hp] at hr
    simp only at hr
    cases hl : restoreLoop f m true L (r.length + 1) r (dropSegs h1) with
    | thrown x => rw [hl] at hr; cases hr
    | fault => rw [hl] at hr; cases hr
    | ok a r' h2 =>
      rw [hl] at hr
      simp only [Out.ok.injEq] at hr
      obtain ⟨_, rfl, rfl⟩ := hr
      obtain ⟨u, hu, hok, hcut⟩ := Local.restoreLoop f m true L _ _ _ _ _ _ hl
      rw [List.append_nil] at hu
      subst hu
      have hsp := prefix_split (u := 28 :: len8) (v := r) (by simpa using hq) (by simpa using hne)
      rcases hsp with ⟨h3, h4⟩ | ⟨q2, rfl, h3, h4⟩
      · have hlen : q.length < 9 := by
          have := h3.length_le
          simp only [List.length_cons, h8] at this
          rcases Nat.lt_or_ge q.length 9 with h | h
          · exact h
          · exact absurd (h3.eq_of_length (by simp only [List.length_cons, h8]; omega)) h4
        refine ⟨h1, ?_, fun _ => rfl, fun h9 => absurd h9 (by omega)⟩
        unfold restoreCache
        rw [prefix_short h8 h3 hlen]
      · obtain ⟨h5, e5⟩ := hcut q2 h3 h4
        refine ⟨dropSegs h5, ?_, ?_, fun _ s => rfl⟩
        · rw [List.cons_append, restoreCache_eq h8 hn8]
          have hlq := h3.length_le
          have := restoreLoop_fuel' (f := f) (m := m) (st := true) (L := L) (n := q2.length + 1) (t := q2)
            (h := dropSegs h1) (by omega) (r.length - q2.length)
          rw [show q2.length + 1 + (r.length - q2.length) = r.length + 1 by omega, e5] at this
          rw [← this]
        · intro hlt
          simp only [List.length_append, List.length_cons, h8] at hlt
          omega

/-- In particular a saved stream. -/
theorem cut_save_rejected {f : Fmt} {L : Nat} (ok : f.Ok L) {m m' : Mgr} {junk : Junk} {h : Host} {t q : List Byte}
    (hs : saveCache f m junk h = some t) (fit : Fits f m h)
    (hv : m'.versions.persistence = m.versions.persistence) (hname : m'.name = m.name)
    (hnum : m'.numNavyFiles = m.numNavyFiles) (hnavy : m.numNavyFiles = 0 ∨ m.navyFileSize + f.B ≤ 2 ^ 32)
    (hq : q <+: t) (hne : q ≠ t) (h2 : Host) :
    ∃ h3, restoreCache f m' true q h2 = .thrown h3 ∧ (q.length < 9 → h3 = h2) ∧
      (9 ≤ q.length → ∀ s, h3.segs s = none) := by
  obtain ⟨h', e, -⟩ := round_trip_partial ok hs fit hv hname hnum hnavy true [] h2
  rw [List.append_nil] at e
  exact cut_stream_rejected e hq hne

/-! ## Other managers -/

theorem restoreOne_thrown {f : Fmt} {L : Nat} (ok : f.Ok L) {m : Mgr} {st : Bool} {k : Kind} {n : Nat} {t : List Byte}
    {h h' : Host} (hn : n < 2 ^ 63) (hs : restoreSection f m st k n t h = .thrown h') :
    restoreOne f m st L (f.encHeader k n ++ t) h = .thrown h' := by
  unfold restoreOne
  rw [P.bind_ok (readExact_app' (ok.header_len k n)), ok.header k n hn, P.bind_ok (show deser _ _ _ = _ from rfl),
    P.bind_thrown hs]

theorem loop_thrown {f : Fmt} {m : Mgr} {st : Bool} {L F : Nat} {t : List Byte} {h h' : Host}
    (e : restoreOne f m st L t h = .thrown h') : restoreLoop f m st L (F + 1) t h = .thrown h' := by
  rw [restoreLoop, P.bind_thrown e]

/-- **The image of another cache is not restored**: a saved stream throws in a manager with another cache name or
another persistence version, and no segment is left. -/
theorem other_cache_rejected {f : Fmt} {L : Nat} (ok : f.Ok L) {m m' : Mgr} {junk : Junk} {h : Host} {t : List Byte}
    (hs : saveCache f m junk h = some t) (fit : Fits f m h)
    (hne : m'.name ≠ m.name ∨ m'.versions.persistence ≠ m.versions.persistence) (st : Bool) (h2 : Host) :
    ∃ h3, restoreCache f m' st t h2 = .thrown h3 ∧ ∀ s, h3.segs s = none := by
  obtain ⟨i, len8, body, navy, -, h8, hn8, -, -, -, rfl⟩ := saved_format ok hs fit
  have hm := fit.mgr
  have e := stream_eq f m len8 i body navy []
  rw [List.append_nil] at e
  rw [e, restoreCache_eq h8 hn8]
  have hlen : 2 ≤ (headSections f m i.stateFile (segStream f i body
      (f.encHeader .navyPartition m.navyFileSize ++ (navy ++ (31 :: []))) segOrder)).length := by
    simp only [headSections, List.length_append, List.length_cons]; omega
  generalize segStream f i body (f.encHeader .navyPartition m.navyFileSize ++ (navy ++ (31 :: []))) segOrder = tail at *
  suffices hh : ∀ F, restoreLoop f m' st L (F + 2) (headSections f m i.stateFile tail) (dropSegs h2) =
      .thrown (dropSegs h2) by
    have := hh ((headSections f m i.stateFile tail).length - 1)
    rw [show (headSections f m i.stateFile tail).length - 1 + 2 = (headSections f m i.stateFile tail).length + 1 by
      omega] at this
    rw [this]
    exact ⟨_, rfl, fun _ => rfl⟩
  intro F
  by_cases hv : m'.versions.persistence = m.versions.persistence
  · have hname : m'.name ≠ m.name := by
      rcases hne with h | h
      · exact h
      · exact absurd hv h
    refine (loop_more (restoreOne_good ok (k := .versions) hm.versions_lt (versions_section ok hv)
      (readMark_more st _ _))).trans ?_
    refine loop_thrown (restoreOne_thrown ok hm.config_lt ?_)
    simp only [restoreSection]
    rw [P.bind_ok (readExact_app _ _ _ _), ok.config, P.bind_ok (show deser _ _ _ = _ from rfl)]
    rw [show (m.name == m'.name) = false by simpa using fun e => hname e.symm]
    rfl
  · refine loop_thrown (restoreOne_thrown ok hm.versions_lt ?_)
    simp only [restoreSection]
    rw [P.bind_ok (readExact_app _ _ _ _)]
    unfold validateVersions
    rw [ok.versions, P.bind_ok (show deser _ _ _ = _ from rfl)]
    rw [show (m.versions.persistence == m'.versions.persistence) = false by simpa using fun e => hv e.symm]
    rfl

/-! ## Damaged blocks -/

theorem damaged_app {f : Fmt} {n : Nat} {b : List Byte} (hd : Damaged f n b) (r : List Byte) : Damaged f n (b ++ r) := by
  induction hd with
  | @here n d c l pad x bs h1 h2 h3 h4 h5 h6 h7 =>
    have e : c ++ (l ++ (d ++ (pad ++ bs))) ++ r = c ++ (l ++ (d ++ (pad ++ (bs ++ r)))) := by simp
    rw [e]
    exact .here h1 h2 h3 h4 h5 h6 h7
  | @later n d c l pad bs h1 h2 h3 h4 h5 h6 _ ih =>
    have e : c ++ (l ++ (d ++ (pad ++ bs))) ++ r = c ++ (l ++ (d ++ (pad ++ (bs ++ r)))) := by simp
    rw [e]
    exact .later h1 h2 h3 h4 h5 h6 ih

theorem restoreBlocks_damaged {f : Fmt} {st : Bool} {s : Seg} {n : Nat} {b : List Byte} (hd : Damaged f n b) :
    ∀ (size : Nat) (done : List Byte) (h : Host), done.length + (n - 1) * f.B ≤ size →
      ∃ h', restoreBlocks f st s size n done b h = .thrown h' := by
  induction hd with
  | here h1 h2 h3 h4 h5 h6 h7 =>
    intro size done h _
    exact ⟨h, by rw [restoreBlocks, P.bind_thrown (readBlock_damaged h1 h2 h3 h4 h5 h6 h7)]⟩
  | @later n d c l pad bs h1 h2 h3 h4 h5 h6 hd ih =>
    intro size done h hsz
    have hn : 1 ≤ n := by cases hd <;> omega
    have e1 : (n + 1 - 1) * f.B = (n - 1) * f.B + f.B := by
      rw [show n + 1 - 1 = (n - 1) + 1 by omega, Nat.add_mul, Nat.one_mul]
    rw [e1] at hsz
    rw [restoreBlocks, P.bind_ok (readBlock_good h1 h2 h3 h4 h5 h6), if_neg (by omega),
      P.bind_ok (show P.modify _ _ _ = _ from rfl)]
    exact ih size (done ++ d) _ (by rw [List.length_append]; omega)

theorem restoreNavyBlocks_damaged {f : Fmt} {st : Bool} {i n : Nat} {b : List Byte} (hd : Damaged f n b) :
    ∀ (done : List Byte) (h : Host), ∃ h', restoreNavyBlocks f st i n done b h = .thrown h' := by
  induction hd with
  | here h1 h2 h3 h4 h5 h6 h7 =>
    intro done h
    exact ⟨h, by rw [restoreNavyBlocks, P.bind_thrown (readBlock_damaged h1 h2 h3 h4 h5 h6 h7)]⟩
  | later h1 h2 h3 h4 h5 h6 hd ih =>
    intro done h
    rw [restoreNavyBlocks, P.bind_ok (readBlock_good h1 h2 h3 h4 h5 h6), P.bind_ok (show P.modify _ _ _ = _ from rfl)]
    exact ih _ _

theorem blocksFor_tight {size B : Nat} (hB : 2 ≤ B) : (blocksFor size B - 1) * B ≤ size := by
  unfold blocksFor
  have hd := Nat.div_add_mod (size + (B - 1)) B
  rw [Nat.sub_mul, Nat.one_mul, Nat.mul_comm]
  generalize B * ((size + (B - 1)) / B) = x at *
  omega

/-- **Damage in a segment is found**: if in the stream of an image a block of segment `s` holds data that does not have
the checksum in front of it, restoring throws and no segment is left. -/
theorem damaged_segment_rejected {f : Fmt} {L : Nat} (ok : f.Ok L) {m m' : Mgr} {len8 : List Byte} {i : Image}
    {body : Seg → List Byte} {navy : List Byte} (s : Seg) (h8 : len8.length = 8) (hn8 : Number len8 L)
    (hm : m.Ok f) (hv : m'.versions.persistence = m.versions.persistence) (hname : m'.name = m.name)
    (hseg : ∀ s, blocksFor (i.seg s).length f.B < 2 ^ 32 ∧ (i.seg s).length < 2 ^ 63)
    (hfile : i.stateFile.length < 2 ^ 63)
    (hb : ∀ x, x ≠ s → Blocks f (blocksFor (i.seg x).length f.B) (i.seg x) (body x))
    (hd : Damaged f (blocksFor (i.seg s).length f.B) (body s)) (st : Bool) (h : Host) :
    ∃ h', restoreCache f m' st (stream f m len8 i body navy) h = .thrown h' ∧ ∀ x, h'.segs x = none := by
  have e := stream_eq f m len8 i body navy []
  rw [List.append_nil] at e
  rw [e, restoreCache_eq h8 hn8]
  have hlen : 8 ≤ (headSections f m i.stateFile (segStream f i body
      (f.encHeader .navyPartition m.navyFileSize ++ (navy ++ (31 :: []))) segOrder)).length := by
    simp only [headSections, segStream, segOrder, List.length_append, List.length_cons]; omega
  generalize (f.encHeader .navyPartition m.navyFileSize ++ (navy ++ (31 :: []))) = tail at *
  obtain ⟨l1, l2, hl, hnot⟩ : ∃ l1 l2, segOrder = l1 ++ s :: l2 ∧ ∀ x ∈ l1, x ≠ s := by
    cases s
    · exact ⟨[], _, rfl, by simp⟩
    · exact ⟨[.info], _, rfl, by simp⟩
    · exact ⟨[.info, .hashTable], _, rfl, by simp⟩
    · exact ⟨[.info, .hashTable, .chainedItemHashTable], _, rfl, by simp⟩
  have hl1 : l1.length ≤ 3 := by
    have := congrArg List.length hl
    simp [segOrder] at this
    omega
  have hh : ∀ F, ∃ h', restoreLoop f m' st L (F + 1 + l1.length + 3) (headSections f m i.stateFile
      (segStream f i body tail segOrder)) (dropSegs h) = .thrown h' := by
    intro F
    rw [loop_head ok hm hv hname hfile, hl, segStream_app, loop_segs ok hseg (F + 1) l1 _ (fun x hx => hb x (hnot x hx))]
    simp only [segStream]
    have hsec : ∃ h', restoreSection f m' st (kindOf s) (i.seg s).length
        (body s ++ (30 :: segStream f i body tail l2)) (withSegs i l1 (withState (dropSegs h) i.stateFile)) =
          .thrown h' := by
      have hshm : ∃ h', restoreShm f st s (i.seg s).length
          (body s ++ (30 :: segStream f i body tail l2)) (withSegs i l1 (withState (dropSegs h) i.stateFile)) =
            .thrown h' := by
        unfold restoreShm
        rw [P.bind_ok (show P.modify _ _ _ = _ from rfl), numBlock32_eq ok.B_two (hseg s).1]
        refine restoreBlocks_damaged (damaged_app hd _) _ _ _ ?_
        rw [List.length_nil, Nat.zero_add]
        exact blocksFor_tight ok.B_two
      cases s <;> exact hshm
    obtain ⟨h', e'⟩ := hsec
    exact ⟨h', loop_thrown (restoreOne_thrown ok (hseg s).2 e')⟩
  revert hh hlen
  generalize headSections f m i.stateFile (segStream f i body tail segOrder) = rest
  intro hlen hh
  obtain ⟨h', e'⟩ := hh (rest.length - 3 - l1.length)
  rw [show rest.length - 3 - l1.length + 1 + l1.length + 3 = rest.length + 1 by omega] at e'
  rw [e']
  exact ⟨_, rfl, fun _ => rfl⟩

/-- **Damage in a Navy file is found**, likewise: `done` are the files before it. -/
theorem damaged_navy_file_rejected {f : Fmt} {L : Nat} (ok : f.Ok L) {m m' : Mgr} {len8 : List Byte} {i : Image}
    {body : Seg → List Byte} {ds : List (List Byte)} {b1 b2 : List Byte} (h8 : len8.length = 8) (hn8 : Number len8 L)
    (hm : m.Ok f) (hv : m'.versions.persistence = m.versions.persistence) (hname : m'.name = m.name)
    (hseg : ∀ s, blocksFor (i.seg s).length f.B < 2 ^ 32 ∧ (i.seg s).length < 2 ^ 63)
    (hfile : i.stateFile.length < 2 ^ 63)
    (hb : ∀ x, Blocks f (blocksFor (i.seg x).length f.B) (i.seg x) (body x))
    (hsize : m.navyFileSize + f.B ≤ 2 ^ 32) (hds : ds.length < m'.numNavyFiles)
    (hb1 : NavyBlocks f (blocksFor m.navyFileSize f.B) ds b1)
    (hd : Damaged f (blocksFor m.navyFileSize f.B) b2) (st : Bool) (h : Host) :
    ∃ h', restoreCache f m' st (stream f m len8 i body (b1 ++ b2)) h = .thrown h' ∧ ∀ x, h'.segs x = none := by
  have e := stream_eq f m len8 i body (b1 ++ b2) []
  rw [List.append_nil] at e
  rw [e, restoreCache_eq h8 hn8]
  have hlen : 8 ≤ (headSections f m i.stateFile (segStream f i body
      (f.encHeader .navyPartition m.navyFileSize ++ (b1 ++ b2 ++ (31 :: []))) segOrder)).length := by
    simp only [headSections, segStream, segOrder, List.length_append, List.length_cons]; omega
  have hh : ∀ F, ∃ h', restoreLoop f m' st L (F + 8) (headSections f m i.stateFile
      (segStream f i body (f.encHeader .navyPartition m.navyFileSize ++ (b1 ++ b2 ++ (31 :: []))) segOrder))
        (dropSegs h) = .thrown h' := by
    intro F
    have e1 := loop_head (st := st) (tail := segStream f i body
      (f.encHeader .navyPartition m.navyFileSize ++ (b1 ++ b2 ++ (31 :: []))) segOrder) (h := dropSegs h)
        ok hm hv hname hfile (F + 5)
    have e2 := loop_segs (m := m') (st := st) (tail := f.encHeader .navyPartition m.navyFileSize ++ (b1 ++ b2 ++ (31 :: [])))
      ok hseg (F + 1) segOrder (withState (dropSegs h) i.stateFile) (fun s _ => hb s)
    rw [show F + 8 = F + 5 + 3 by omega, e1, show F + 5 = F + 1 + segOrder.length from rfl, e2]
    have hfiles : ∀ (ds : List (List Byte)) (b1 : List Byte), NavyBlocks f (blocksFor m.navyFileSize f.B) ds b1 →
        ∀ k i h, ds.length < k → ∃ h', restoreNavyFiles f st (blocksFor m.navyFileSize f.B) i k
          (b1 ++ b2 ++ (31 :: [])) h = .thrown h' := by
      intro ds b1 hb1
      induction hb1 with
      | nil =>
        intro k i h hk
        obtain ⟨k, rfl⟩ : ∃ j, k = j + 1 := ⟨k - 1, by simp at hk; omega⟩
        unfold restoreNavyFiles
        rw [P.bind_ok (show P.modify _ _ _ = _ from rfl)]
        obtain ⟨h', e'⟩ := restoreNavyBlocks_damaged (st := st) (i := i) (damaged_app hd (31 :: [])) [] (setNavy h i [])
        exact ⟨h', by rw [List.nil_append, P.bind_thrown e']⟩
      | @cons d ds b bs hgood _ ih =>
        intro k i h hk
        obtain ⟨k, rfl⟩ : ∃ j, k = j + 1 := ⟨k - 1, by simp at hk; omega⟩
        unfold restoreNavyFiles
        rw [P.bind_ok (show P.modify _ _ _ = _ from rfl)]
        have e3 : b ++ bs ++ b2 ++ (31 :: []) = b ++ (bs ++ b2 ++ (31 :: [])) := by simp
        rw [e3, P.bind_ok (restoreNavyBlocks_good hgood [] _ _ (by simp [setNavy]))]
        exact ih k (i + 1) _ (by simp at hk; omega)
    obtain ⟨h', e'⟩ := hfiles ds b1 hb1 m'.numNavyFiles 0
      (withSegs i segOrder (withState (dropSegs h) i.stateFile)) hds
    refine ⟨h', loop_thrown (restoreOne_thrown ok ?_ ?_)⟩
    · omega
    · simp only [restoreSection]
      rw [navyNumBlock_eq ok.B_two hsize]
      exact e'
  revert hh hlen
  generalize headSections f m i.stateFile (segStream f i body
    (f.encHeader .navyPartition m.navyFileSize ++ (b1 ++ b2 ++ (31 :: []))) segOrder) = rest
  intro hlen hh
  obtain ⟨h', e'⟩ := hh (rest.length - 7)
  rw [show rest.length - 7 + 8 = rest.length + 1 by omega] at e'
  rw [e']
  exact ⟨_, rfl, fun _ => rfl⟩

/-- **A restore that fails leaves no segments behind**, so that a cache cannot be attached to half of an image — unless
it failed in the first nine bytes, where nothing was changed. -/
theorem failed_restore {f : Fmt} {m : Mgr} {st : Bool} {t : List Byte} {h h' : Host}
    (e : restoreCache f m st t h = .thrown h') : h' = h ∨ ∀ s, h'.segs s = none := by
  unfold restoreCache at e
  cases hp : restorePrefix st t h with
  | fault => rw [hp] at e; cases e
  | thrown x =>
    rw [hp] at e
    simp only [Out.thrown.injEq] at e
    subst e
    left
    unfold restorePrefix P.bind readChar at hp
    cases t with
    | nil =>
      simp only at hp
      cases st
      · simpa [P.check, P.throw, kBegin] using hp.symm
      · simpa using hp.symm
    | cons c t =>
      simp only at hp
      by_cases hc : (c == kBegin) = true
      · simp only [hc, P.check, if_true, P.pure] at hp
        unfold readBuf at hp
        by_cases h8 : 8 ≤ t.length
        · simp only [h8, if_true] at hp
          revert hp
          split
          · intro hp; cases hp
          · intro hp; cases hp
        · simp only [h8, if_false] at hp
          cases st
          · simp [P.bad] at hp
          · simpa using hp.symm
      · have hc' : (c == kBegin) = false := by simpa using hc
        simp only [hc', P.check] at hp
        simpa [P.throw] using hp.symm
  | ok L r h1 =>
    rw [hp] at e
    simp only at e
    cases hl : restoreLoop f m st L (r.length + 1) r (dropSegs h1) with
    | fault => rw [hl] at e; cases e
    | ok a r' h2 => rw [hl] at e; cases e
    | thrown h2 =>
      rw [hl] at e
      simp only [Out.thrown.injEq] at e
      subst e
      exact .inr fun _ => rfl

end Verif.Persist
