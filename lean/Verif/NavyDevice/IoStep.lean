import Verif.NavyDevice.Steps
namespace Verif.NavyDevice

variable {c : Cfg} {E D : Nat → (Nat → Byte) → Nat → Byte}

theorem flat_write {d : Nat → Nat → Byte} {op : Op} {base len : Nat} {l : Nat → Byte} (hm : Made c) (ha : op.At c base len) :
    (∀ j, j < op.size → flat c (fun f => if f = op.fd then splice (d f) op.off op.size l else d f) (base + op.buf + j) = l j) ∧
    ∀ o, ¬ (base + op.buf ≤ o ∧ o < base + op.buf + op.size) →
      flat c (fun f => if f = op.fd then splice (d f) op.off op.size l else d f) o = flat c d o := by
  constructor
  · intro j hj
    unfold flat
    rw [ha.2 j hj]
    dsimp only
    rw [if_pos rfl, splice_in ⟨by omega, by omega⟩]
    congr 1; omega
  · intro o ho
    unfold flat
    dsimp only
    split
    · rename_i hf
      apply splice_out
      rintro ⟨h1, h2⟩
      have hj : (c.loc o).2 - op.off < op.size := by omega
      have e := ha.2 _ hj
      have e2 : c.loc o = (op.fd, op.off + ((c.loc o).2 - op.off)) := by
        rw [← hf]
        have : op.off + ((c.loc o).2 - op.off) = (c.loc o).2 := by omega
        rw [this]
      rw [← e2] at e
      have := loc_inj hm.stripe e
      omega
    · rfl

/-- What an operation does to the device and the buffer of its call. -/
theorem io_effect {d : Nat → Nat → Byte} {x : Call} {r : Req} {op : Op} {full : Bool} {junk : Nat → Byte} (hm : Made c)
    (hi : CallInv c E d x) (hr : x.req = some r) (ha : op.At c (x.off + x.pos) r.len) (d' : Nat → Nat → Byte) (data' : Nat → Byte)
    (hd : d' = if x.wr then
            fun f => if f = op.fd then splice (d f) op.off op.size (if full then fun i => x.data (x.pos + op.buf + i) else junk)
              else d f
          else d)
    (hdata : data' = if x.wr then x.data
          else splice x.data (x.pos + op.buf) op.size (if full then fun i => d op.fd (op.off + i) else junk)) :
    (∀ i, ¬ (x.pos + op.buf ≤ i ∧ i < x.pos + op.buf + op.size) → flat c d' (x.off + i) = flat c d (x.off + i) ∧ data' i = x.data i) ∧
    (full = true → ∀ i, x.pos + op.buf ≤ i → i < x.pos + op.buf + op.size → flat c d' (x.off + i) = data' i) ∧
    (∀ o, flat c d' o ≠ flat c d o → x.wr = true ∧ c.InSpan x.uoff x.usize o) ∧
    (x.wr = true → data' = x.data) := by
  have hlen := (hi.req r hr).1
  have hb := ha.1
  cases hw : x.wr with
  | true =>
    rw [hw] at hd hdata
    simp only [if_true] at hd hdata
    obtain ⟨f1, f2⟩ := flat_write (d := d) (l := if full then fun i => x.data (x.pos + op.buf + i) else junk) hm ha
    rw [← hd] at f1 f2
    refine ⟨?_, ?_, ?_, fun _ => hdata⟩
    · intro i hni
      refine ⟨f2 _ (by omega), by rw [hdata]⟩
    · intro hfull i h1 h2
      have e := f1 (i - (x.pos + op.buf)) (by omega)
      have e2 : x.off + x.pos + op.buf + (i - (x.pos + op.buf)) = x.off + i := by omega
      rw [e2, hfull] at e
      rw [e, hdata]
      simp only [if_true]
      congr 1; omega
    · intro o hne
      refine ⟨rfl, ?_⟩
      have ho : x.off + x.pos + op.buf ≤ o ∧ o < x.off + x.pos + op.buf + op.size :=
        Classical.byContradiction fun hno => hne (f2 o hno)
      have := hi.wrEq hw
      exact ⟨o, by omega, by omega, rfl⟩
  | false =>
    rw [hw] at hd hdata
    simp only [Bool.false_eq_true, if_false] at hd hdata
    subst hd
    refine ⟨?_, ?_, ?_, fun h => by cases h⟩
    · intro i hni
      refine ⟨rfl, ?_⟩
      rw [hdata, splice_out hni]
    · intro hfull i h1 h2
      rw [hdata, splice_in ⟨h1, h2⟩, hfull]
      simp only [if_true]
      have e := ha.2 (i - (x.pos + op.buf)) (by omega)
      have e2 : x.off + x.pos + op.buf + (i - (x.pos + op.buf)) = x.off + i := by omega
      unfold flat
      rw [← e2, e]
    · intro o hne; exact absurd rfl hne

theorem doneLen_full {fdp : Bool} {size : Nat} {res : Int} (h : (doneLen fdp size res == (size : Int)) = true) :
    hwFull fdp size res = true ∨ size = 0 := by
  unfold doneLen at h
  unfold hwFull
  cases fdp with
  | true =>
    simp only [if_true] at h ⊢
    split at h
    · left; assumption
    · right
      have := eq_of_beq h
      omega
  | false =>
    simp only [Bool.false_eq_true, if_false] at h ⊢
    exact Or.inl h

theorem getElem_set_mem {l : List (Op × Nat)} {k : Nat} {op : Op} {n m : Nat} (h : l[k]? = some (op, n)) :
    ∀ y ∈ l.set k (op, m), ∃ y' ∈ l, y'.1 = y.1 := by
  intro y hy
  rcases List.mem_or_eq_of_mem_set hy with hy | rfl
  · exact ⟨y, hy, rfl⟩
  · exact ⟨_, List.mem_of_getElem? h, rfl⟩

theorem covered_set {l : List (Op × Nat)} {k : Nat} {op : Op} {n m i : Nat} (h : l[k]? = some (op, n)) (hc : Covered l i) :
    Covered (l.set k (op, m)) i := by
  obtain ⟨y, hy, h1⟩ := hc
  obtain ⟨j, hj⟩ := List.mem_iff_getElem?.1 hy
  by_cases hk : k = j
  · subst hk
    rw [h] at hj; injection hj with hj; subst hj
    obtain ⟨hlt, _⟩ := List.getElem?_eq_some_iff.1 h
    exact ⟨(op, m), List.mem_set hlt _, h1⟩
  · refine ⟨y, List.mem_iff_getElem?.2 ⟨j, ?_⟩, h1⟩
    rw [List.getElem?_set_ne hk]; exact hj

theorem covered_erase {l : List (Op × Nat)} {k : Nat} {op : Op} {n i : Nat} (h : l[k]? = some (op, n)) (hc : Covered l i)
    (hn : ¬ (op.buf ≤ i ∧ i < op.buf + op.size)) : Covered (l.eraseIdx k) i := by
  obtain ⟨y, hy, h1⟩ := hc
  obtain ⟨j, hj⟩ := List.mem_iff_getElem?.1 hy
  have hk : j ≠ k := by
    intro e; subst e
    rw [h] at hj; injection hj with hj; subst hj
    exact hn h1
  exact ⟨y, List.mem_eraseIdx_iff_getElem?.2 ⟨j, hk, hj⟩, h1⟩

theorem Inv.io {w w' : World} {id k : Nat} {res : Int} {junk : Nat → Byte} (hm : Made c) (h : Inv c E w)
    (he : w.io c id k res junk = some w') : Inv c E w' := by
  unfold World.io at he
  split at he
  · cases he
  · rename_i x hx
    split at he
    · cases he
    · rename_i r hr
      split at he
      · cases he
      · rename_i op cnt hp
        split at he
        · cases he
        · rename_i hsync
          have hi := h.calls id x hx
          obtain ⟨q1, q2, q3⟩ := hi.req r hr
          have ha := q2 _ (List.mem_of_getElem? hp)
          dsimp only at he ha
          obtain ⟨F1, F2, F3, F4⟩ := io_effect (full := hwFull (c.fdp && !r.sync) op.size res) (junk := junk) hm hi hr ha _ _ rfl rfl
          revert he
          generalize hd' : (if x.wr then
              fun f => if f = op.fd then splice (w.disk f) op.off op.size
                  (if hwFull (c.fdp && !r.sync) op.size res then fun i => x.data (x.pos + op.buf + i) else junk)
                else w.disk f
            else w.disk) = d' at *
          generalize hdat' : (if x.wr then x.data
            else splice x.data (x.pos + op.buf) op.size
              (if hwFull (c.fdp && !r.sync) op.size res then fun i => w.disk op.fd (op.off + i) else junk)) = data' at *
          intro he
          injection he with he; subst he
          refine h.modify hm.blk_pos hx rfl rfl rfl ?_ F3
          have hdone : ∀ i, ¬ (x.pos + op.buf ≤ i ∧ i < x.pos + op.buf + op.size) → Done c w.disk x i →
              ∀ rq, Done c d' { x with data := data', req := rq } i := by
            intro i hni hdn rq hs
            dsimp only at hs ⊢
            rw [(F1 i hni).1, (F1 i hni).2]
            exact hdn hs
          refine { hi with done := ?_, req := ?_, encd := ?_ }
          · intro hw; dsimp only; rw [F4 hw]; exact hi.encd hw
          · intro i hi'
            exact hdone i (by dsimp only at hi'; omega) (hi.done i hi') _
          · intro r' hr'
            injection hr' with hr'
            dsimp only
            split at hr'
            · subst hr'
              refine ⟨q1, ?_, ?_⟩
              · intro y hy
                obtain ⟨y', hy', e⟩ := getElem_set_mem hp y hy
                rw [← e]; exact q2 y' hy'
              · intro i hi'
                rcases q3 i hi' with hc | hc
                · exact Or.inl (covered_set hp hc)
                · by_cases hin : op.buf ≤ i ∧ i < op.buf + op.size
                  · exact Or.inl (covered_set hp ⟨_, List.mem_of_getElem? hp, hin⟩)
                  · exact Or.inr fun hok => hdone _ (by omega) (hc hok) _
            · subst hr'
              refine ⟨q1, ?_, ?_⟩
              · intro y hy
                dsimp only at hy
                split at hy
                · cases hy
                · exact q2 y (List.mem_of_mem_eraseIdx hy)
              · intro i hi'
                dsimp only
                cases hres : (doneLen (c.fdp && !r.sync) op.size res == (op.size : Int)) with
                | false =>
                  right; intro hok
                  rw [Bool.and_false] at hok; cases hok
                | true =>
                  simp only [Bool.not_true, Bool.and_false, Bool.false_eq_true, if_false]
                  by_cases hin : op.buf ≤ i ∧ i < op.buf + op.size
                  · right; intro _
                    have hfull : hwFull (c.fdp && !r.sync) op.size res = true := by
                      rcases doneLen_full hres with h1 | h1
                      · exact h1
                      · omega
                    intro _
                    exact F2 hfull _ (by omega) (by omega)
                  · rcases q3 i hi' with hc | hc
                    · exact Or.inl (covered_erase hp hc hin)
                    · right; intro hok
                      rw [Bool.and_true] at hok
                      exact hdone _ (by omega) (hc hok) _

theorem Inv.chunkDone {w w' : World} {id : Nat} (hm : Made c) (h : Inv c E w) (he : w.chunkDone id = some w') : Inv c E w' := by
  unfold World.chunkDone at he
  split at he
  · cases he
  · rename_i x hx
    split at he
    · cases he
    · rename_i r hr
      have hi := h.calls id x hx
      obtain ⟨q1, q2, q3⟩ := hi.req r hr
      split at he
      · cases he
      · rename_i hp
        split at he
        · rename_i hok
          injection he with he; subst he
          refine h.modify' hm.blk_pos hx rfl rfl rfl ?_
          refine { hi with posLe := q1, done := ?_, req := ?_ }
          · intro i hi'
            dsimp only at hi'
            by_cases h1 : i < x.pos
            · exact hi.done i h1
            · rcases q3 (i - x.pos) (by omega) with hc | hc
              · rw [hp] at hc
                obtain ⟨y, hy, _⟩ := hc
                cases hy
              · have := hc hok
                have e : x.pos + (i - x.pos) = i := by omega
                rw [e] at this; exact this
          · intro r' hr'; cases hr'
        · injection he with he; subst he
          refine h.finish (x := x) hm.blk_pos hx ?_ ?_ ?_ ?_
          · intro off size d ok e
            unfold Call.failed at e
            split at e
            · rename_i hw
              injection e with e1 e2
              subst e1; subst e2
              rw [← (hi.wrEq hw).1, ← (hi.wrEq hw).2]
              exact ⟨hi.offB, hi.sizeB⟩
            · cases e
          · intro off size f e
            unfold Call.failed at e
            split at e
            · cases e
            · injection e with _ _ e; cases e
          · intro B hB hs j hj ht
            unfold Call.failed at ht
            split at ht
            · rename_i hw
              exact hs ⟨hw, (span_block hm.blk_pos hB hj).1 ⟨B + j, ht.1, ht.2, rfl⟩⟩
            · exact ht
          · intro B p hB hw hs hp' j hj
            have h2 := hp' j hj
            unfold Call.failed at h2
            rw [hw] at h2
            simp only [if_true] at h2
            refine absurd ?_ h2.failed
            have e := hi.wrEq hw
            have o1 := hi.offB
            have o2 := hi.sizeB
            rw [e.1] at o1; rw [e.2] at o2
            exact (span_aligned hm.blk_pos o1 o2).1 ((span_block hm.blk_pos hB hj).2 hs)

theorem Inv.ret {w w' : World} {id : Nat} (hm : Made c) (hg : Good c E D) (h : Inv c E w) (he : w.ret c id = some w') : Inv c E w' := by
  unfold World.ret at he
  split at he
  · cases he
  · rename_i x hx
    have hi := h.calls id x hx
    have hb := hm.blk_pos
    split at he
    · cases he
    · split at he
      · cases he
      · rename_i hpos
        have hall : ∀ i, i < x.size → Done c w.disk x i := fun i hi' => hi.done i (by omega)
        split at he
        · rename_i hw
          injection he with he; subst he
          have e := hi.wrEq hw
          have o1 := hi.offB
          have o2 := hi.sizeB
          refine h.finish (x := x) hb hx ?_ ?_ ?_ ?_
          · intro off size d ok e'
            injection e' with e1 e2
            subst e1; subst e2
            rw [← e.1, ← e.2]
            exact ⟨o1, o2⟩
          · intro off size f e'; cases e'
          · intro B hB hs j hj ht
            exact hs ⟨hw, (span_block hb hB hj).1 ⟨B + j, ht.1, ht.2, rfl⟩⟩
          · intro B p hB _ hs hp j hj
            have hin : ∀ k, k < c.blk → x.uoff ≤ B + k ∧ B + k < x.uoff + x.usize := by
              intro k hk
              rw [e.1] at o1; rw [e.2] at o2
              exact (span_aligned hb o1 o2).1 ((span_block hb hB hk).2 hs)
            have hpk : ∀ k, k < c.blk → x.udata (B - x.off + k) = p k := by
              intro k hk
              have := (hp k hk).here (hin k hk)
              rw [← this]
              congr 1
              have := hin 0 hb
              omega
            have hB0 := hin 0 hb
            have hBm : (B - x.off) % c.blk = 0 := by
              obtain ⟨q, hq⟩ := Nat.dvd_of_mod_eq_zero hB
              obtain ⟨t, ht⟩ := Nat.dvd_of_mod_eq_zero o1
              rw [hq, ht, ← Nat.mul_sub]; exact Nat.mul_mod_right _ _
            have hd := hall (B - x.off + j) (by have := hin j hj; omega)
            have eo : x.off + (B - x.off + j) = B + j := by omega
            unfold Done at hd
            rw [eo] at hd
            rw [hd ((span_block hb hB hj).2 hs)]
            have hl := hin (c.blk - 1) (by omega)
            rw [hi.encd hw (B - x.off) j hBm (by omega) hj]
            have eb : x.off + (B - x.off) = B := by omega
            rw [eb]
            exact hg.cong _ _ _ hpk j hj
        · rename_i hw
          have hw' : x.wr = false := by simpa using hw
          split at he
          · cases he
          · injection he with he; subst he
            refine h.finish (x := x) hb hx (fun _ _ _ _ e' => by cases e') ?_ (fun _ _ _ _ _ ht => ht) ?_
            · intro off size f e'; injection e' with _ _ e'; cases e'
            · intro B p _ hw2; rw [hw'] at hw2; cases hw2
          · rename_i d hdec
            injection he with he; subst he
            refine h.finish (x := x) hb hx (fun _ _ _ _ e' => by cases e') ?_ (fun _ _ _ _ _ ht => ht) ?_
            · intro off size f e' i b hi' hlw
              injection e' with e1 e2 e3
              subst e1; subst e2; injection e3 with e3; subst e3
              -- the block of the byte
              have hlo := hi.lo
              have hhi := hi.hi
              have key : ∀ o, o = x.uoff + i → d (o - x.off) = b := by
                intro o ho
                have hdm := Nat.div_add_mod o c.blk
                have hml := Nat.mod_lt o hb
                generalize hBB : c.blk * (o / c.blk) = B at hdm
                have hBm : B % c.blk = 0 := by rw [← hBB]; exact Nat.mul_mod_right _ _
                generalize hjj : o % c.blk = j at hdm hml
                rw [← ho, ← hdm] at hlw
                obtain ⟨p, hpj, hpk⟩ := lastWrote_block hb h.logB hBm hml hlw
                have hspan : c.InSpan x.uoff x.usize B :=
                  (span_block hb hBm hml).1 ⟨B + j, by omega, by omega, rfl⟩
                have hfl := h.known B p hBm hpk ?_
                · -- the range of the call consists of whole blocks
                  have hraw : ∀ k, k < c.blk → x.off ≤ B + k ∧ B + k < x.off + x.size := by
                    intro k hk
                    refine (span_aligned hb hi.offB hi.sizeB).1 ((span_block hb hBm hk).2 ?_)
                    obtain ⟨u, u1, u2, u3⟩ := hspan
                    exact ⟨u, by omega, by omega, u3⟩
                  have hB0 := hraw 0 hb
                  have hBe : (B - x.off) % c.blk = 0 := by
                    obtain ⟨q, hq⟩ := Nat.dvd_of_mod_eq_zero hBm
                    obtain ⟨t, ht⟩ := Nat.dvd_of_mod_eq_zero hi.offB
                    rw [hq, ht, ← Nat.mul_sub]; exact Nat.mul_mod_right _ _
                  have hl := hraw (c.blk - 1) (by omega)
                  have hD := hg.dec x.data x.size x.off d hi.sizeB hdec (B - x.off) j hBe (by omega) hml
                  have eo : o - x.off = B - x.off + j := by omega
                  rw [eo, hD]
                  have eb : x.off + (B - x.off) = B := by omega
                  rw [eb, ← hpj]
                  refine hg.inv B p _ ?_ j hml
                  intro k hk
                  have hd := hall (B - x.off + k) (by have := hraw k hk; omega)
                  unfold Done at hd
                  have e2 : x.off + (B - x.off + k) = B + k := by omega
                  rw [e2] at hd
                  rw [← hd ((span_block hb hBm hk).2 hspan)]
                  exact hfl k hk
                · intro id' x' hx' hw2 hs'
                  by_cases hid : id' = id
                  · subst hid
                    rw [hx] at hx'; injection hx' with hx'; subst hx'
                    rw [hw'] at hw2; cases hw2
                  · exact h.compat id' x' id x hx' hx hid (Or.inl hw2) B ⟨hs', hspan⟩
              have := key _ rfl
              unfold Call.trimmed
              have e3 : x.uoff - x.off + i = x.uoff + i - x.off := by omega
              rw [e3]; exact this
            · intro B p _ hw2; rw [hw'] at hw2; cases hw2

theorem Inv.exec {w w' : World} {a : Act} (hm : Made c) (hg : Good c E D) (h : Inv c E w) (ha : Allowed c w a)
    (he : w.exec c a = some w') : Inv c E w' := by
  cases a with
  | writeBuffer id off size data => exact h.writeBuffer hg (fun _ _ => rfl) ha he
  | writeView id off size data pad => exact h.writeView hm hg ha he
  | readBuffer id off size mem => injection he with he; subst he; exact h.readBuffer hm ha
  | readInto id off size mem => injection he with he; subst he; exact h.readInto hm ha
  | chunk id sync limit => exact h.chunk hm he
  | io id k res junk => exact h.io hm he
  | chunkDone id => exact h.chunkDone hm he
  | ret id => exact h.ret hm hg he

theorem Inv.initial (disk : Nat → Nat → Byte) : Inv c E { disk } := by
  constructor
  · intro id x hx; cases hx
  · intro id x id' x' hx; cases hx
  · intro off size d ok hm; cases hm
  · intro B p _ hp _ j hj
    obtain ⟨l1, l2, off, size, data, e, _⟩ := hp j hj
    simp at e
  · intro later earlier off size f e
    simp at e

theorem Reach.inv {w : World} (hm : Made c) (hg : Good c E D) (h : Reach c w) : Inv c E w := by
  induction h with
  | init disk => exact Inv.initial disk
  | step a _ ha he ih => exact ih.exec hm hg ha he

end Verif.NavyDevice
