import Verif.Persist.Lemmas

namespace Verif.Persist
open Spec

/-! ## What saving writes -/

theorem blockHeader_num {f : Fmt} {L : Nat} (ok : f.Ok L) {d : List Byte} (hd : d.length ≤ f.B) :
    (le 4 (f.crc d)).length = 4 ∧ Number (le 4 (f.crc d)) (f.crc d) ∧ (le 4 d.length).length = 4 ∧
      Number (le 4 d.length) d.length := by
  have hb := ok.B_lt
  have hc := ok.crc_lt d
  refine ⟨le_length _ _, Number_le ?_, le_length _ _, Number_le ?_⟩
  · simpa using hc
  · have : d.length < 2 ^ 32 := by omega
    simpa using this

theorem saveBlocks_blocks {f : Fmt} {L : Nat} (ok : f.Ok L) (junk : Junk) : ∀ (n : Nat) (data w : List Byte),
    data.length ≤ n * f.B → ∃ bs, saveBlocks f junk n data w = w ++ bs ∧ Blocks f n data bs
  | 0, data, w, h => by
    have : data = [] := List.eq_nil_of_length_eq_zero (by omega)
    subst this
    exact ⟨[], by simp [saveBlocks], .nil⟩
  | n + 1, data, w, h => by
    unfold saveBlocks
    split
    · rename_i hlt
      obtain ⟨bs, e, hb⟩ := saveBlocks_blocks ok junk n (data.drop data.length) (w ++ dataBlock f junk w.length data)
        (by simp)
      rw [List.drop_length] at hb
      obtain ⟨h1, h2, h3, h4⟩ := blockHeader_num ok (Nat.le_of_lt hlt)
      refine ⟨?w, ?a, ?b⟩
      case b =>
        have := Blocks.cons (f := f) (Nat.le_of_lt hlt) (fun _ => rfl) h1 h2 h3 h4
          (pad := (List.range (f.B - data.length)).map (junk w.length)) (by simp) hb
        rw [List.append_nil] at this
        exact this
      · rw [e]; simp [dataBlock, blockHeader]
    · rename_i hge
      have hge : f.B ≤ data.length := by omega
      obtain ⟨bs, e, hb⟩ := saveBlocks_blocks ok junk n (data.drop f.B)
        (w ++ (blockHeader f (data.take f.B) ++ data.take f.B))
        (by rw [List.length_drop]; rw [Nat.add_mul] at h; omega)
      have hl : (data.take f.B).length = f.B := by rw [List.length_take]; omega
      obtain ⟨h1, h2, h3, h4⟩ := blockHeader_num ok (d := data.take f.B) (by omega)
      refine ⟨?w2, ?a2, ?b2⟩
      case b2 =>
        have := Blocks.cons (f := f) (d := data.take f.B) (by omega) (fun hlt => absurd hlt (by omega)) h1 h2 h3 h4
          (pad := []) (by rw [List.length_nil]; omega) hb
        rw [List.take_append_drop] at this
        exact this
      · rw [e]; simp [blockHeader]

theorem saveNavyBlocks_blocks {f : Fmt} {L : Nat} (ok : f.Ok L) (junk : Junk) : ∀ (n : Nat) (data w : List Byte),
    ∃ bs, saveNavyBlocks f junk n data w = w ++ bs ∧ Blocks f n (data.take (n * f.B)) bs
  | 0, data, w => ⟨[], by simp [saveNavyBlocks], by simp only [Nat.zero_mul, List.take_zero]; exact .nil⟩
  | n + 1, data, w => by
    unfold saveNavyBlocks
    obtain ⟨bs, e, hb⟩ := saveNavyBlocks_blocks ok junk n (data.drop f.B)
      (w ++ dataBlock f junk w.length (data.take f.B))
    have hl : (data.take f.B).length ≤ f.B := List.length_take_le _ _
    obtain ⟨h1, h2, h3, h4⟩ := blockHeader_num ok hl
    have hsplit : data.take ((n + 1) * f.B) = data.take f.B ++ (data.drop f.B).take (n * f.B) := by
      rw [Nat.add_mul, Nat.one_mul, Nat.add_comm, List.take_add]
    refine ⟨?w, ?a, ?b⟩
    case b =>
      rw [hsplit]
      refine Blocks.cons (f := f) hl ?_ h1 h2 h3 h4
        (pad := (List.range (f.B - (data.take f.B).length)).map (junk w.length)) (by simp) hb
      intro hlt
      have : data.drop f.B = [] := by
        apply List.drop_eq_nil_of_le
        rw [List.length_take] at hlt; omega
      rw [this, List.take_nil]
    · rw [e]; simp [dataBlock, blockHeader]

theorem saveNavyFiles_blocks {f : Fmt} {L : Nat} (ok : f.Ok L) (junk : Junk) (h : Host) (n : Nat) :
    ∀ (k i : Nat) (w w' : List Byte), saveNavyFiles f junk h n i k w = some w' →
      ∃ ds bs, ds.length = k ∧ (∀ j, j < k → h.navy (i + j) = ds[j]?) ∧ NavyBlocks f n ds bs ∧ w' = w ++ bs
  | 0, i, w, w', e => by
    simp only [saveNavyFiles, Option.some.injEq] at e
    exact ⟨[], [], rfl, by intro j hj; omega, .nil, by simp [e]⟩
  | k + 1, i, w, w', e => by
    unfold saveNavyFiles at e
    cases hn : h.navy i with
    | none => rw [hn] at e; cases e
    | some data =>
      rw [hn] at e
      simp only at e
      obtain ⟨bs, e1, hb⟩ := saveNavyBlocks_blocks ok junk n data w
      rw [e1] at e
      obtain ⟨ds, bs', hl, hd, hnb, hw⟩ := saveNavyFiles_blocks ok junk h n k (i + 1) _ _ e
      refine ⟨data :: ds, bs ++ bs', by simp [hl], ?_, .cons hb hnb, by rw [hw]; simp⟩
      intro j hj
      cases j with
      | zero => simpa using hn
      | succ j =>
        have := hd j (by omega)
        rw [show i + (j + 1) = i + 1 + j by omega, this]
        simp

theorem alignedSize_div {size B : Nat} (hB : 2 ≤ B) : alignedSize size B / B = blocksFor size B := by
  unfold alignedSize blocksFor
  have hd := Nat.div_add_mod size B
  have hm := Nat.mod_lt size (show 0 < B by omega)
  generalize size / B = q at *
  generalize size % B = r at *
  split
  · rename_i h0
    subst h0
    have : size = B * q := by omega
    subst this
    rw [Nat.mul_div_cancel_left _ (by omega), Nat.add_comm, Nat.add_mul_div_left _ _ (by omega),
      Nat.div_eq_of_lt (by omega)]
    omega
  · have e1 : size + B - r = B * (q + 1) := by rw [Nat.mul_add]; omega
    have e2 : size + (B - 1) = (r - 1) + B * (q + 1) := by rw [Nat.mul_add]; omega
    rw [e1, e2, Nat.mul_div_cancel_left _ (by omega), Nat.add_mul_div_left _ _ (by omega),
      Nat.div_eq_of_lt (by omega)]
    omega

theorem blocksFor_enough {size B : Nat} (hB : 2 ≤ B) : size ≤ blocksFor size B * B := by
  unfold blocksFor
  have hd := Nat.div_add_mod (size + (B - 1)) B
  have hm := Nat.mod_lt (size + (B - 1)) (show 0 < B by omega)
  rw [Nat.mul_comm]
  generalize B * ((size + (B - 1)) / B) = x at *
  omega

theorem numBlock32_eq {size B : Nat} (hB : 2 ≤ B) (h : blocksFor size B < 2 ^ 32) :
    numBlock32 size B = blocksFor size B := by
  unfold numBlock32
  rw [alignedSize_div hB, Nat.mod_eq_of_lt h]

theorem saveShm_blocks {f : Fmt} {L : Nat} (ok : f.Ok L) {junk : Junk} {k : Kind} {seg w w'}
    (e : saveShm f junk k seg w = some w') (hs : ∀ d, seg = some d → blocksFor d.length f.B < 2 ^ 32) :
    ∃ data bs, seg = some data ∧ Blocks f (blocksFor data.length f.B) data bs ∧ 0 < data.length ∧
      w' = w ++ (30 :: (f.encHeader k data.length ++ bs)) := by
  unfold saveShm at e
  cases seg with
  | none => cases e
  | some data =>
    simp only at e
    split at e
    · cases e
    · rename_i h0
      rw [numBlock32_eq ok.B_two (hs _ rfl)] at e
      obtain ⟨bs, e1, hb⟩ := saveBlocks_blocks ok junk (blocksFor data.length f.B) data
        (w ++ [kMark] ++ f.encHeader k data.length) (blocksFor_enough ok.B_two)
      rw [e1] at e
      simp only [Option.some.injEq] at e
      refine ⟨data, bs, rfl, hb, by omega, ?_⟩
      rw [← e]; simp [kMark]

theorem saveFile_eq {f : Fmt} {k : Kind} {file w w'} (e : saveFile f k file w = some w') :
    ∃ data, file = some data ∧ w' = w ++ (30 :: (f.encHeader k data.length ++ data)) := by
  unfold saveFile at e
  cases file with
  | none => cases e
  | some data =>
    simp only [Option.some.injEq] at e
    exact ⟨data, rfl, by rw [← e]; simp [kMark]⟩

/-! ## What restoring reads -/

theorem setSeg_setSeg (h : Host) (s : Seg) (a b) : setSeg (setSeg h s a) s b = setSeg h s b := by
  unfold setSeg
  simp only [Host.mk.injEq, and_self, and_true]
  funext x
  split <;> rfl

theorem setSeg_self {h : Host} {s : Seg} {a} (e : h.segs s = a) : setSeg h s a = h := by
  obtain ⟨segs, sf, nv⟩ := h
  simp only [setSeg, Host.mk.injEq, and_self, and_true]
  simp only at e
  funext x
  split
  · rename_i hx; rw [hx, e]
  · rfl

theorem setSeg_same (h : Host) (s : Seg) (a) : (setSeg h s a).segs s = a := by simp [setSeg]

theorem setNavy_setNavy (h : Host) (i : Nat) (a b) : setNavy (setNavy h i a) i b = setNavy h i b := by
  unfold setNavy
  simp only [Host.mk.injEq, true_and]
  funext x
  split <;> rfl

theorem setNavy_self {h : Host} {i : Nat} {a} (e : h.navy i = some a) : setNavy h i a = h := by
  obtain ⟨segs, sf, nv⟩ := h
  simp only [setNavy, Host.mk.injEq, true_and]
  simp only at e
  funext x
  split
  · rename_i hx; rw [hx, e]
  · rfl

theorem restoreBlocks_good {f : Fmt} {st : Bool} {s : Seg} {n : Nat} {data bs : List Byte} (hb : Blocks f n data bs) :
    ∀ (size : Nat) (done r : List Byte) (h : Host), size = done.length + data.length →
      h.segs s = some (done ++ List.replicate (size - done.length) 0) →
      restoreBlocks f st s size n done (bs ++ r) h = .ok () r (setSeg h s (some (done ++ data))) := by
  induction hb with
  | nil =>
    intro size done r h hsz hseg
    simp only [List.length_nil, Nat.add_zero] at hsz
    subst hsz
    simp only [Nat.sub_self, List.replicate_zero] at hseg
    rw [setSeg_self hseg]
    rfl
  | @cons n d rest c l pad bs h1 h2 h3 h4 h5 h6 h7 hb ih =>
    intro size done r h hsz hseg
    unfold restoreBlocks
    have e : c ++ (l ++ (d ++ (pad ++ bs))) ++ r = c ++ (l ++ (d ++ (pad ++ (bs ++ r)))) := by simp
    rw [e, P.bind_ok (readBlock_good h1 h3 h4 h5 h6 h7)]
    simp only [List.length_append] at hsz
    rw [if_neg (by omega), P.bind_ok (show P.modify _ _ _ = _ from rfl)]
    rw [ih size (done ++ d) r _ (by simp; omega) (setSeg_same _ _ _), setSeg_setSeg, List.append_assoc]

theorem restoreShm_good {f : Fmt} {st : Bool} {s : Seg} {data bs r : List Byte} {h : Host} (hB : 2 ≤ f.B)
    (hs : blocksFor data.length f.B < 2 ^ 32) (hb : Blocks f (blocksFor data.length f.B) data bs) :
    restoreShm f st s data.length (bs ++ r) h = .ok () r (setSeg h s (some data)) := by
  unfold restoreShm
  rw [P.bind_ok (show P.modify _ _ _ = _ from rfl), numBlock32_eq hB hs,
    restoreBlocks_good hb _ _ _ _ (by simp) (by rw [setSeg_same]; simp), setSeg_setSeg, List.nil_append]

theorem restoreNavyBlocks_good {f : Fmt} {st : Bool} {i n : Nat} {data bs : List Byte} (hb : Blocks f n data bs) :
    ∀ (done r : List Byte) (h : Host), h.navy i = some done →
      restoreNavyBlocks f st i n done (bs ++ r) h = .ok () r (setNavy h i (done ++ data)) := by
  induction hb with
  | nil =>
    intro done r h hn
    rw [List.append_nil, setNavy_self hn]
    rfl
  | @cons n d rest c l pad bs h1 h2 h3 h4 h5 h6 h7 hb ih =>
    intro done r h hn
    unfold restoreNavyBlocks
    have e : c ++ (l ++ (d ++ (pad ++ bs))) ++ r = c ++ (l ++ (d ++ (pad ++ (bs ++ r)))) := by simp
    rw [e, P.bind_ok (readBlock_good h1 h3 h4 h5 h6 h7), P.bind_ok (show P.modify _ _ _ = _ from rfl)]
    rw [ih (done ++ d) r _ (by simp [setNavy]), setNavy_setNavy, List.append_assoc]

theorem restoreNavyFiles_good {f : Fmt} {st : Bool} {n : Nat} {ds : List (List Byte)} {bs : List Byte}
    (hb : NavyBlocks f n ds bs) : ∀ (i : Nat) (r : List Byte) (h : Host),
      ∃ h', restoreNavyFiles f st n i ds.length (bs ++ r) h = .ok () r h' ∧ h'.segs = h.segs ∧
        h'.stateFile = h.stateFile ∧ (∀ j (d : List Byte), ds[j]? = some d → h'.navy (i + j) = some (d.take (n * f.B))) ∧
        ∀ j, (j < i ∨ i + ds.length ≤ j) → h'.navy j = h.navy j := by
  induction hb with
  | nil =>
    intro i r h
    exact ⟨h, rfl, rfl, rfl, by simp, fun _ _ => rfl⟩
  | @cons d ds b bs hb hnb ih =>
    intro i r h
    simp only [List.length_cons]
    unfold restoreNavyFiles
    rw [P.bind_ok (show P.modify _ _ _ = _ from rfl), List.append_assoc,
      P.bind_ok (restoreNavyBlocks_good hb [] (bs ++ r) _ (by simp [setNavy])), setNavy_setNavy]
    obtain ⟨h', e, h1, h2, h3, h4⟩ := ih (i + 1) r (setNavy h i ([] ++ d.take (n * f.B)))
    refine ⟨h', e, h1, h2, ?_, ?_⟩
    · intro j d' hj
      cases j with
      | zero =>
        simp only [List.getElem?_cons_zero, Option.some.injEq] at hj
        subst hj
        rw [h4 (i + 0) (by omega)]
        simp [setNavy]
      | succ j =>
        have := h3 j d' (by simpa using hj)
        rw [show i + (j + 1) = i + 1 + j by omega]
        exact this
    · intro j hj
      rw [h4 j (by omega)]
      simp only [setNavy]
      rw [if_neg (by omega)]

theorem readMark_more (st : Bool) (r : List Byte) (h : Host) : readMark st (30 :: r) h = .ok true r h := rfl
theorem readMark_end (st : Bool) (r : List Byte) (h : Host) : readMark st (31 :: r) h = .ok false r h := rfl

/-- An iteration over a good section. -/
theorem restoreOne_good {f : Fmt} {L : Nat} (ok : f.Ok L) {m : Mgr} {st : Bool} {k : Kind} {n : Nat} {body r r' : List Byte}
    {b : Bool} {h h' : Host} (hn : n < 2 ^ 63) (hs : restoreSection f m st k n (body ++ r) h = .ok () r h')
    (hm : readMark st r h' = .ok b r' h') :
    restoreOne f m st L (f.encHeader k n ++ (body ++ r)) h = .ok b r' h' := by
  unfold restoreOne
  rw [P.bind_ok (readExact_app' (ok.header_len k n)), ok.header k n hn, P.bind_ok (show deser _ _ _ = _ from rfl),
    P.bind_ok hs, hm]

theorem loop_more {f : Fmt} {m : Mgr} {st : Bool} {L F : Nat} {t r : List Byte} {h h' : Host}
    (e : restoreOne f m st L t h = .ok true r h') : restoreLoop f m st L (F + 1) t h = restoreLoop f m st L F r h' := by
  rw [restoreLoop, P.bind_ok e]; rfl

theorem loop_end {f : Fmt} {m : Mgr} {st : Bool} {L F : Nat} {t r : List Byte} {h h' : Host}
    (e : restoreOne f m st L t h = .ok false r h') : restoreLoop f m st L (F + 1) t h = .ok () r h' := by
  rw [restoreLoop, P.bind_ok e]; rfl

end Verif.Persist
