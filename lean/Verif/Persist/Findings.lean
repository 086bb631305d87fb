import Verif.Persist.Checked

/-! # Concrete cases for the theorems of C56, and behaviours of the code outside their hypotheses -/

namespace Verif.Persist
open Spec

/-! ## Saving succeeds when everything is there -/

theorem saveNavyFiles_some {f : Fmt} {junk : Junk} {h : Host} {b : Nat} : ∀ (n i : Nat) (w : List Byte),
    (∀ k, k < i + n → ∃ d, h.navy k = some d) → ∃ t, saveNavyFiles f junk h b i n w = some t
  | 0, _, w, _ => ⟨w, rfl⟩
  | n + 1, i, w, hk => by
    obtain ⟨d, hd⟩ := hk i (by omega)
    unfold saveNavyFiles
    rw [hd]
    exact saveNavyFiles_some n (i + 1) _ (fun k hk' => hk k (by omega))

/-- `saveCache` succeeds if the state file, the Navy files and the segments exist and no segment is empty. -/
theorem save_succeeds {f : Fmt} {m : Mgr} {junk : Junk} {h : Host} (h1 : ∃ d, h.stateFile = some d)
    (h2 : ∀ s, ∃ d, h.segs s = some d ∧ 0 < d.length) (h3 : ∀ k, k < m.numNavyFiles → ∃ d, h.navy k = some d) :
    ∃ t, saveCache f m junk h = some t := by
  obtain ⟨sf, hsf⟩ := h1
  have hshm : ∀ k s w, ∃ t, saveShm f junk k (h.segs s) w = some t := by
    intro k s w
    obtain ⟨d, hd, hp⟩ := h2 s
    rw [hd]
    unfold saveShm
    simp only
    rw [if_neg (by omega)]
    exact ⟨_, rfl⟩
  unfold saveCache
  simp only [Option.bind_eq_bind, Option.pure_def, hsf, saveFile, Option.bind_some]
  generalize List.append _ _ = w at *
  obtain ⟨w2, e2⟩ := hshm .shmInfo .info (_ ++ _ ++ _ ++ _)
  rw [e2]; simp only [Option.bind_some]
  obtain ⟨w3, e3⟩ := hshm .shmHT .hashTable w2
  rw [e3]; simp only [Option.bind_some]
  obtain ⟨w4, e4⟩ := hshm .shmChainedItemHT .chainedItemHashTable w3
  rw [e4]; simp only [Option.bind_some]
  obtain ⟨w5, e5⟩ := hshm .shmData .cache w4
  rw [e5]; simp only [Option.bind_some]
  obtain ⟨w6, e6⟩ := saveNavyFiles_some (f := f) (junk := junk) (h := h)
    (b := i32Count (alignedSize m.navyFileSize f.B / f.B)) m.numNavyFiles 0
    (w5 ++ [kMark] ++ f.encHeader .navyPartition m.navyFileSize) (fun k hk => h3 k (by omega))
  rw [e6]
  exact ⟨_, rfl⟩

/-! ## A format -/

/-- A number for each type of section. -/
def demoCode : Kind → Byte
  | .versions => 0 | .configs => 1 | .nvmCacheState => 2 | .shmInfo => 3 | .shmHT => 4 | .shmChainedItemHT => 5
  | .shmData => 6 | .navyPartition => 7

def demoKind (b : Byte) : Option Kind :=
  [Kind.versions, .configs, .nvmCacheState, .shmInfo, .shmHT, .shmChainedItemHT, .shmData, .navyPartition].find?
    fun k => demoCode k = b

/-- Blocks of four bytes and simple encodings, for concrete runs. -/
def demo : Fmt where
  B := 4
  crc d := (7 * d.length + (d.map UInt8.toNat).sum) % 2 ^ 32
  encHeader k n := demoCode k :: le 8 n
  decHeader l := match l with
    | [] => none
    | b :: l => (demoKind b).map fun k => (k, de l)
  encVersions v := List.replicate v.persistence 1 ++ 0 :: (List.replicate v.allocator 1 ++ 0 :: (List.replicate v.ram 1 ++
    0 :: List.replicate v.nvm 1))
  decVersions l :=
    let r1 := (l.dropWhile (· = 1)).drop 1
    let r2 := (r1.dropWhile (· = 1)).drop 1
    let r3 := (r2.dropWhile (· = 1)).drop 1
    some ⟨(l.takeWhile (· = 1)).length, (r1.takeWhile (· = 1)).length, (r2.takeWhile (· = 1)).length, r3.length⟩
  encConfig c := c
  decConfig l := some l

theorem rep_takeWhile (n : Nat) (l : List Byte) :
    ((List.replicate n (1 : Byte) ++ 0 :: l).takeWhile (· = 1)).length = n ∧
      (List.replicate n (1 : Byte) ++ 0 :: l).dropWhile (· = 1) = 0 :: l := by
  induction n with
  | zero => constructor <;> simp
  | succ n ih => simp [List.replicate_succ, ih]

theorem demo_ok : demo.Ok 9 where
  B_two := by decide
  B_lt := by decide
  crc_lt := fun d => Nat.mod_lt _ (by decide)
  header_len := fun k n => by simp [demo, le_length]
  len_lt := by decide
  header := fun k n hn => by
    have e : de (le 8 n) = n := de_le 8 n (by omega)
    cases k <;> simp [demo, e, demoKind, demoCode, List.find?]
  versions := fun v => by
    obtain ⟨a, b, c, d⟩ := v
    simp only [demo]
    rw [(rep_takeWhile a _).1, (rep_takeWhile a _).2]
    simp only [List.drop_succ_cons, List.drop_zero]
    rw [(rep_takeWhile b _).1, (rep_takeWhile b _).2]
    simp only [List.drop_succ_cons, List.drop_zero]
    rw [(rep_takeWhile c _).1, (rep_takeWhile c _).2]
    simp
  config := fun c => rfl

def demoMgr : Mgr := ⟨⟨0, 1, 2, 3⟩, [65, 66], 2, 6⟩

def demoHost : Host where
  segs := fun s => match s with
    | .info => some [1, 2, 3]
    | .hashTable => some [4, 5, 6, 7]
    | .chainedItemHashTable => some [8, 9, 10, 11, 12]
    | .cache => some [13, 14, 15, 16, 17, 18, 19, 20, 21]
  stateFile := some [100, 101]
  navy := fun k => if k = 0 then some [22, 23, 24, 25, 26, 27] else some [28, 29]

def blank : Host := ⟨fun _ => none, none, fun _ => none⟩

def demoJunk : Junk := fun p k => UInt8.ofNat (p + k)

def demoStream : List Byte := (saveCache demo demoMgr demoJunk demoHost).getD []

theorem demoStream_eq : saveCache demo demoMgr demoJunk demoHost = some demoStream := by
  unfold demoStream
  cases h : saveCache demo demoMgr demoJunk demoHost with
  | some t => rfl
  | none => exact absurd (congrArg Option.isSome h) (by decide +kernel)

theorem demo_fits : Fits demo demoMgr demoHost where
  mgr := ⟨by decide, by decide⟩
  seg := fun s d h => by
    cases s <;> (simp only [demoHost, Option.some.injEq] at h; subst h; exact ⟨by decide, by decide⟩)
  file := fun d h => by simp only [demoHost, Option.some.injEq] at h; subst h; decide
  navy := by decide
  size := by decide

/-- How a restore ended, and what is on the host: 0 is success, 1 an exception, 2 a fault. -/
structure Report where
  code : Nat
  rest : List Byte
  segs : List (Option (List Byte))
  stateFile : Option (List Byte)
  navy : List (Option (List Byte))
  deriving DecidableEq, Repr

def report (o : Out Unit) : Report :=
  let of (c : Nat) (r : List Byte) (h : Host) : Report := ⟨c, r, segOrder.map h.segs, h.stateFile, [h.navy 0, h.navy 1]⟩
  match o with
  | .ok _ r h => of 0 r h
  | .thrown h => of 1 [] h
  | .fault => of 2 [] blank

/-- The hypotheses of `round_trip_partial`, `cut_save_rejected` and `other_cache_rejected` hold here. -/
example : ∃ h', restoreCache demo demoMgr true demoStream blank = .ok () [] h' ∧ h'.segs = demoHost.segs := by
  obtain ⟨h', e, e2, -⟩ := round_trip_partial demo_ok demoStream_eq demo_fits (m' := demoMgr) rfl rfl rfl (.inr (by decide)) true
    [] blank
  rw [List.append_nil] at e
  exact ⟨h', e, e2⟩

example : report (restoreCache demo demoMgr true demoStream blank) =
    ⟨0, [], [some [1, 2, 3], some [4, 5, 6, 7], some [8, 9, 10, 11, 12], some [13, 14, 15, 16, 17, 18, 19, 20, 21]],
      some [100, 101], [some [22, 23, 24, 25, 26, 27], some [28, 29]]⟩ := by decide +kernel

example : demoStream.length = 234 ∧
    (report (restoreCache demo demoMgr true (demoStream.take 233) blank)).code = 1 ∧
    (report (restoreCache demo demoMgr true (demoStream.take 5) demoHost)).segs = segOrder.map demoHost.segs := by
  decide +kernel

/-- A damaged byte of segment data: byte 91 is the first byte of the hash table. -/
example : demoStream[91]? = some 4 ∧
    (report (restoreCache demo demoMgr true (demoStream.set 91 9) blank)).code = 1 := by decide +kernel

/-- The hypotheses of `damaged_segment_rejected` hold of this image with a wrong checksum in its first segment. -/
example : ∃ i len8 body navy h', restoreCache demo demoMgr true (stream demo demoMgr len8 i body navy) blank = .thrown h' ∧
    i.On demoMgr demoHost := by
  obtain ⟨i, len8, body, navy, on, h8, hn8, -, hb, -, -⟩ := saved_format demo_ok demoStream_eq demo_fits
  have hi : i.seg .info = [1, 2, 3] := by
    have := on.2.1 .info
    simpa [demoHost] using this.symm
  obtain ⟨h', e, -⟩ := damaged_segment_rejected (m' := demoMgr) (navy := navy) (i := i)
    (body := fun s => if s = .info then [99, 0, 0, 0] ++ ([3, 0, 0, 0] ++ ([1, 2, 3] ++ ([0] ++ []))) else body s)
    demo_ok .info h8 hn8 demo_fits.mgr rfl rfl (fun s => demo_fits.seg s _ (on.2.1 s)) (demo_fits.file _ on.1)
    (fun x hx => by simp only [if_neg hx]; exact hb x)
    (by
      rw [hi]
      simp only [if_true]
      exact Damaged.here (f := demo) (n := 0) (d := [1, 2, 3]) (c := [99, 0, 0, 0]) (l := [3, 0, 0, 0]) (pad := [0])
        (x := 99) (bs := []) (by decide) rfl (Number_iff.2 (by decide)) (by decide) rfl (Number_iff.2 (by decide)) (by decide))
    true blank
  exact ⟨i, len8, _, navy, h', e, on⟩

/-! ## Behaviours outside the hypotheses -/

/-- `int32_t navyFileSize` (237) drops the upper 32 bits: no block is read for a file of 4 GB. -/
theorem navyNumBlock_4GB {f : Fmt} : navyNumBlock (2 ^ 32) f.B = 0 := by
  unfold navyNumBlock i32Count
  simp

theorem restoreNavyFiles_zero {f : Fmt} {st : Bool} : ∀ (n i : Nat) (t : List Byte) (h : Host),
    ∃ h', restoreNavyFiles f st 0 i n t h = .ok () t h' ∧ (∀ k, i ≤ k → k < i + n → h'.navy k = some []) ∧
      ∀ k, k < i → h'.navy k = h.navy k
  | 0, i, t, h => ⟨h, rfl, fun k h1 h2 => by omega, fun _ _ => rfl⟩
  | n + 1, i, t, h => by
    obtain ⟨h', e, h1, h2⟩ := restoreNavyFiles_zero (f := f) (st := st) n (i + 1) t (setNavy h i [])
    refine ⟨h', ?_, ?_, ?_⟩
    · unfold restoreNavyFiles
      rw [P.bind_ok (show P.modify _ _ _ = _ from rfl)]
      exact e
    · intro k hk1 hk2
      by_cases hki : k = i
      · subst hki
        rw [h2 k (by omega)]
        simp [setNavy]
      · exact h1 k (by omega) (by omega)
    · intro k hk
      rw [h2 k (by omega)]
      simp only [setNavy]
      rw [if_neg (by omega)]

/-- What happens when a saved cache has Navy files of 4 GB: if the checksum of the first block of the first file does
not happen to start with 30 or 31, the restore throws; if it starts with 31, the restore **succeeds with empty Navy
files**. (30 would be taken for the next section.) -/
theorem violated_large_navy_files {f : Fmt} {L : Nat} (ok : f.Ok L) {m : Mgr} {junk : Junk} {h : Host}
    {t d : List Byte} (hs : saveCache f m junk h = some t) (fit : Fits f m h) (hsize : m.navyFileSize = 2 ^ 32)
    (hnum : 0 < m.numNavyFiles) (hd : h.navy 0 = some d) (st : Bool) (h2 : Host) :
    (f.crc (d.take f.B) % 256 ≠ 30 ∧ f.crc (d.take f.B) % 256 ≠ 31 →
      ∃ h', restoreCache f m st t h2 = .thrown h') ∧
    (f.crc (d.take f.B) % 256 = 31 → ∃ r h', restoreCache f m st t h2 = .ok () r h' ∧
      ∀ k, k < m.numNavyFiles → h'.navy k = some []) := by
  obtain ⟨i, len8, body, navy, ⟨on1, on2, on3, on4⟩, h8, hn8, hpos, hb, hnb, rfl⟩ := saved_format ok hs fit
  have hseg : ∀ s, blocksFor (i.seg s).length f.B < 2 ^ 32 ∧ (i.seg s).length < 2 ^ 63 := fun s => fit.seg s _ (on2 s)
  -- the first byte of the Navy data
  obtain ⟨c0, navy', hnavy, hc0⟩ : ∃ c0 navy', navy = c0 :: navy' ∧ c0.toNat = f.crc (d.take f.B) % 256 := by
    have h0 := on4 0 hnum
    rw [hd] at h0
    clear on3 on4
    generalize i.navy = files at hnb h0
    cases hnb with
    | nil => simp at h0
    | @cons d' ds b bs hblk _ =>
      simp only [List.getElem?_cons_zero, Option.some.injEq] at h0
      subst h0
      rw [hsize] at hblk
      have hB := ok.B_two
      have hB2 := ok.B_lt
      have hne : blocksFor (2 ^ 32) f.B ≠ 0 := by
        intro h0
        have := blocksFor_enough (size := 2 ^ 32) hB
        rw [h0] at this
        omega
      generalize hq : d.take (blocksFor (2 ^ 32) f.B * f.B) = q at hblk
      generalize blocksFor (2 ^ 32) f.B = n at *
      cases hblk with
      | nil => exact absurd rfl hne
      | @cons n p rest c l pad bs' h1 h2 h3 h4 h5 h6 h7 hrest =>
        have hp : p = d.take f.B := by
          have e1 : (d.take ((n + 1) * f.B)).take f.B = d.take f.B := by
            rw [List.take_take, Nat.min_eq_left]
            rw [Nat.add_mul]; omega
          rw [hq] at e1
          rcases Nat.lt_or_ge p.length f.B with hlt | hge
          · rw [h2 hlt, List.append_nil, List.take_of_length_le (by omega)] at e1
            exact e1
          · have : p.length = f.B := by omega
            rw [← this, List.take_left, this] at e1
            exact e1
        match c, h3 with
        | [c0, c1, c2, c3], _ =>
          refine ⟨c0, _, rfl, ?_⟩
          have := Number_iff.1 h4
          simp only [de] at this
          have hlt := c0.toNat_lt
          rw [← hp]
          omega
  obtain ⟨h', en, n1, -⟩ := restoreNavyFiles_zero (f := f) (st := st) m.numNavyFiles 0 (navy ++ (31 :: []))
    (withSegs i segOrder (withState (dropSegs h2) i.stateFile))
  have e := stream_eq f m len8 i body navy []
  rw [List.append_nil] at e
  rw [e, restoreCache_eq h8 hn8]
  have hlen : 8 ≤ (headSections f m i.stateFile (segStream f i body
      (f.encHeader .navyPartition m.navyFileSize ++ (navy ++ (31 :: []))) segOrder)).length := by
    simp only [headSections, segStream, segOrder, List.length_append, List.length_cons]; omega
  have hone : restoreOne f m st L (f.encHeader .navyPartition m.navyFileSize ++ (navy ++ (31 :: [])))
      (withSegs i segOrder (withState (dropSegs h2) i.stateFile)) = readMark st (navy ++ (31 :: [])) h' := by
    unfold restoreOne
    rw [P.bind_ok (readExact_app' (ok.header_len _ _)), ok.header _ _ fit.size,
      P.bind_ok (show deser _ _ _ = _ from rfl)]
    simp only [restoreSection]
    rw [hsize, navyNumBlock_4GB, P.bind_ok en]
  have hrun : ∀ F, restoreLoop f m st L (F + 8) (headSections f m i.stateFile (segStream f i body
      (f.encHeader .navyPartition m.navyFileSize ++ (navy ++ (31 :: []))) segOrder)) (dropSegs h2) =
        restoreLoop f m st L (F + 1) (f.encHeader .navyPartition m.navyFileSize ++ (navy ++ (31 :: [])))
          (withSegs i segOrder (withState (dropSegs h2) i.stateFile)) := by
    intro F
    refine (loop_head ok fit.mgr rfl rfl (fit.file _ on1) (F + 5)).trans ?_
    exact loop_segs ok hseg (F + 1) segOrder _ (fun s _ => hb s)
  revert hrun hlen
  generalize headSections f m i.stateFile (segStream f i body
    (f.encHeader .navyPartition m.navyFileSize ++ (navy ++ (31 :: []))) segOrder) = rest
  intro hlen hrun
  have := hrun (rest.length - 7)
  rw [show rest.length - 7 + 8 = rest.length + 1 by omega] at this
  rw [this]
  subst hnavy
  constructor
  · rintro ⟨a1, a2⟩
    have : readMark st (c0 :: navy' ++ (31 :: [])) h' = .thrown h' := by
      unfold readMark
      rw [List.cons_append, P.bind_ok (show readChar st (c0 :: (navy' ++ (31 :: []))) h' = .ok c0 _ h' from rfl)]
      rw [if_neg (by rintro rfl; exact a1 (by rw [← hc0]; rfl)), if_neg (by rintro rfl; exact a2 (by rw [← hc0]; rfl))]
      rfl
    rw [loop_thrown (hone.trans this)]
    exact ⟨_, rfl⟩
  · intro a
    have hc : c0 = 31 := by
      apply UInt8.toNat_inj.1
      rw [hc0, a]; rfl
    subst hc
    have : readMark st (31 :: navy' ++ (31 :: [])) h' = .ok false (navy' ++ (31 :: [])) h' := rfl
    rw [loop_end (hone.trans this)]
    exact ⟨_, h', rfl, fun k hk => n1 k (by omega) (by omega)⟩

/-- Such a cache: everything is there, the first Navy file has one byte whose checksum is 31. -/
example : ∃ t r h', saveCache demo { demoMgr with navyFileSize := 2 ^ 32 } demoJunk
      { demoHost with navy := fun _ => some [24] } = some t ∧
    restoreCache demo { demoMgr with navyFileSize := 2 ^ 32 } true t blank = .ok () r h' ∧
    h'.navy 0 = some [] := by
  obtain ⟨t, ht⟩ := save_succeeds (f := demo) (m := { demoMgr with navyFileSize := 2 ^ 32 }) (junk := demoJunk)
    (h := { demoHost with navy := fun _ => some [24] }) ⟨_, rfl⟩
    (by intro s; cases s <;> exact ⟨_, rfl, by decide⟩) (fun k _ => ⟨_, rfl⟩)
  have fit : Fits demo { demoMgr with navyFileSize := 2 ^ 32 } { demoHost with navy := fun _ => some [24] } :=
    { mgr := ⟨by decide, by decide⟩, seg := demo_fits.seg, file := demo_fits.file, navy := by decide, size := by decide }
  obtain ⟨r, h', e, hk⟩ := (violated_large_navy_files demo_ok ht fit rfl (by decide) rfl true blank).2 (by decide)
  exact ⟨t, r, h', ht, e, hk 0 (by decide)⟩

/-- An empty state file is not restored: the old one stays (307-309). -/
theorem violated_empty_state_file :
    (saveCache demo demoMgr demoJunk { demoHost with stateFile := some [] }).map
        (fun t => (report (restoreCache demo demoMgr true t { blank with stateFile := some [7, 7] })).stateFile) =
      some (some [7, 7]) := by decide +kernel

/-- The length of a block is used before it is checked: with a damaged length, `validate` reads outside the buffer.
Byte 87 is the length of the block of the hash table. -/
theorem violated_damaged_length :
    demoStream[87]? = some 4 ∧ (report (restoreCache demo demoMgr true (demoStream.set 87 5) blank)).code = 2 := by
  decide +kernel

/-- The state file has no checksum: a damaged byte is restored. -/
theorem violated_state_file_unchecked :
    demoStream[49]? = some 100 ∧
      (report (restoreCache demo demoMgr true (demoStream.set 49 9) blank)).code = 0 ∧
      (report (restoreCache demo demoMgr true (demoStream.set 49 9) blank)).stateFile = some [9, 101] := by
  decide +kernel

/-- The length of the first buffer is not checked: with a reader that returns an empty buffer at the end of its data, as
that of the repository's tests does, a stream cut in the first nine bytes makes `cast` read outside the buffer. -/
theorem violated_short_first_read :
    ∀ n, 0 < n → n < 9 → (report (restoreCache demo demoMgr false (demoStream.take n) blank)).code = 2 := by
  have : ∀ n : Fin 9, 0 < n.1 → (report (restoreCache demo demoMgr false (demoStream.take n.1) blank)).code = 2 := by
    decide +kernel
  exact fun n h1 h2 => this ⟨n, h2⟩ h1

end Verif.Persist
