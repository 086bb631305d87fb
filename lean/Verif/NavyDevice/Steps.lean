import Verif.NavyDevice.Inv
namespace Verif.NavyDevice

variable {c : Cfg} {E D : Nat → (Nat → Byte) → Nat → Byte}

theorem setCall_calls (w : World) (id : Nat) (x : Option Call) (i : Nat) :
    (w.setCall id x).calls i = if i = id then x else w.calls i := rfl

theorem CallInv.congr {d d' : Nat → Nat → Byte} {x : Call} (h : CallInv c E d x)
    (hd : ∀ o, c.InSpan x.uoff x.usize o → flat c d' o = flat c d o) : CallInv c E d' x := by
  have hD : ∀ i, Done c d x i → Done c d' x i := fun i h1 h2 => by rw [hd _ h2]; exact h1 h2
  exact { h with
    done := fun i hi => hD i (h.done i hi)
    req := fun r hr => ⟨(h.req r hr).1, (h.req r hr).2.1, fun i hi => ((h.req r hr).2.2 i hi).imp id (fun h1 h2 => hD _ (h1 h2))⟩ }

theorem Inv.start {w : World} {id : Nat} {y : Call} (h : Inv c E w) (hn : w.calls id = none) (hy : CallInv c E w.disk y)
    (hf : w.Free c y.wr y.uoff y.usize) : Inv c E (w.setCall id (some y)) := by
  constructor
  · intro i x hx
    rw [setCall_calls] at hx
    split at hx
    · injection hx with hx; subst hx; exact hy
    · exact h.calls i x hx
  · intro i x i' x' hx hx' hne hw o ho
    rw [setCall_calls] at hx hx'
    split at hx <;> split at hx'
    · omega
    · injection hx with hx; subst hx
      exact hf i' x' hx' hw o ho
    · injection hx' with hx'; subst hx'
      exact hf i x hx hw.symm o ho.symm
    · exact h.compat i x i' x' hx hx' hne hw o ho
  · exact h.logB
  · intro B p hB hp hc
    refine h.known B p hB hp ?_
    intro i x hx hw
    refine hc i x ?_ hw
    rw [setCall_calls, if_neg ?_, hx]
    intro e; subst e; rw [hn] at hx; cases hx
  · exact h.reads

theorem Inv.modify {w : World} {id : Nat} {x y : Call} {d' : Nat → Nat → Byte} (hb : 0 < c.blk) (h : Inv c E w)
    (hx : w.calls id = some x) (e1 : y.wr = x.wr) (e2 : y.uoff = x.uoff) (e3 : y.usize = x.usize) (hy : CallInv c E d' y)
    (hd : ∀ o, flat c d' o ≠ flat c w.disk o → x.wr = true ∧ c.InSpan x.uoff x.usize o) :
    Inv c E (({ w with disk := d' } : World).setCall id (some y)) := by
  constructor
  · intro i z hz
    rw [setCall_calls] at hz
    split at hz
    · injection hz with hz; subst hz; exact hy
    · rename_i hi
      refine (h.calls i z hz).congr ?_
      intro o ho
      refine Classical.byContradiction fun hne => ?_
      have := hd o hne
      exact h.compat i z id x hz hx hi (Or.inr this.1) o ⟨ho, this.2⟩
  · intro i z i' z' hz hz' hne hw o ho
    rw [setCall_calls] at hz hz'
    split at hz <;> split at hz'
    · omega
    · injection hz with hz; subst hz
      rw [e1] at hw; rw [e2, e3] at ho
      exact h.compat id x i' z' hx hz' (by omega) hw o ho
    · injection hz' with hz'; subst hz'
      rw [e1] at hw; rw [e2, e3] at ho
      exact h.compat i z id x hz hx (by omega) hw o ho
    · exact h.compat i z i' z' hz hz' hne hw o ho
  · exact h.logB
  · intro B p hB hp hc j hj
    have hk := h.known B p hB hp ?_ j hj
    · rw [← hk]
      refine Classical.byContradiction fun hne => ?_
      have hs := hd (B + j) hne
      refine hc id y ?_ (by rw [e1]; exact hs.1) ?_
      · rw [setCall_calls, if_pos rfl]
      · rw [e2, e3]; exact (span_block hb hB hj).1 hs.2
    · intro i z hz hw
      by_cases hi : i = id
      · subst hi
        rw [hx] at hz; injection hz with hz; subst hz
        have := hc i y (by rw [setCall_calls, if_pos rfl]) (by rw [e1]; exact hw)
        rw [e2, e3] at this; exact this
      · exact hc i z (by rw [setCall_calls, if_neg hi]; exact hz) hw
  · exact h.reads

theorem Inv.modify' {w : World} {id : Nat} {x y : Call} (hb : 0 < c.blk) (h : Inv c E w)
    (hx : w.calls id = some x) (e1 : y.wr = x.wr) (e2 : y.uoff = x.uoff) (e3 : y.usize = x.usize) (hy : CallInv c E w.disk y) :
    Inv c E (w.setCall id (some y)) :=
  h.modify (d' := w.disk) hb hx e1 e2 e3 hy (fun _ hne => absurd rfl hne)

/-- A call returns. -/
theorem Inv.finish {w : World} {id : Nat} {x : Call} {e : Ev} (hb : 0 < c.blk) (h : Inv c E w) (hx : w.calls id = some x)
    (he : ∀ off size d ok, e = .wrote off size d ok → off % c.blk = 0 ∧ size % c.blk = 0)
    (hr : ∀ off size f, e = .didRead off size (some f) → ∀ i b, i < size → LastWrote w.log (off + i) b → f i = b)
    (ht : ∀ B, B % c.blk = 0 → ¬ (x.wr = true ∧ c.InSpan x.uoff x.usize B) → ∀ j, j < c.blk → ¬ e.touches (B + j))
    (hk : ∀ B p, B % c.blk = 0 → x.wr = true → c.InSpan x.uoff x.usize B → (∀ j, j < c.blk → LastWrote (e :: w.log) (B + j) (p j)) →
      ∀ j, j < c.blk → flat c w.disk (B + j) = E B p j) :
    Inv c E { w.setCall id none with log := e :: w.log } := by
  constructor
  · intro i z hz
    change (w.setCall id none).calls i = some z at hz
    rw [setCall_calls] at hz
    split at hz
    · cases hz
    · exact h.calls i z hz
  · intro i z i' z' hz hz' hne hw o ho
    change (w.setCall id none).calls i = some z at hz
    change (w.setCall id none).calls i' = some z' at hz'
    rw [setCall_calls] at hz hz'
    split at hz
    · cases hz
    · split at hz'
      · cases hz'
      · exact h.compat i z i' z' hz hz' hne hw o ho
  · intro off size d ok hm
    rcases List.mem_cons.1 hm with hm | hm
    · exact he off size d ok hm.symm
    · exact h.logB off size d ok hm
  · intro B p hB hp hc j hj
    by_cases hs : x.wr = true ∧ c.InSpan x.uoff x.usize B
    · exact hk B p hB hs.1 hs.2 hp j hj
    · refine h.known B p hB (fun k hk' => (hp k hk').cons_not (ht B hB hs k hk')) ?_ j hj
      intro i z hz hw
      by_cases hi : i = id
      · subst hi
        rw [hx] at hz; injection hz with hz; subst hz
        intro h2; exact hs ⟨hw, h2⟩
      · exact hc i z (by change (w.setCall id none).calls i = some z; rw [setCall_calls, if_neg hi]; exact hz) hw
  · exact h.reads.cons hr

/-- A write fails before anything is written. -/
theorem Inv.refused {w : World} {off size : Nat} {d : Nat → Byte} (h : Inv c E w) (h1 : off % c.blk = 0) (h2 : size % c.blk = 0) :
    Inv c E { w with log := .wrote off size d false :: w.log } := by
  constructor
  · exact h.calls
  · exact h.compat
  · intro off' size' d' ok hm
    rcases List.mem_cons.1 hm with hm | hm
    · injection hm with a b; subst a; subst b; exact ⟨h1, h2⟩
    · exact h.logB _ _ _ _ hm
  · intro B p hB hp hc j hj
    refine h.known B p hB (fun k hk => ?_) hc j hj
    exact (hp k hk).cons_not (hp k hk).failed
  · exact h.reads.cons (fun _ _ _ e => by cases e)

/-! ### The steps -/

theorem Inv.writeBuffer {w w' : World} {id off size : Nat} {udata data : Nat → Byte} (hg : Good c E D) (h : Inv c E w)
    (hd : ∀ k, k < size → data k = udata k)
    (ha : w.calls id = none ∧ off + size ≤ c.size ∧ off % c.blk = 0 ∧ size % c.blk = 0 ∧ (c.maxWrite = 0 → size < 4294967296) ∧
      w.Free c true off size) (he : w.writeBuffer c id off size udata off size data = some w') : Inv c E w' := by
  obtain ⟨a1, a2, a3, a4, a5, a6⟩ := ha
  unfold World.writeBuffer at he
  split at he
  · cases he
  · injection he with he; subst he
    exact h.refused a3 a4
  · rename_i d hd'
    injection he with he; subst he
    refine h.start a1 ?_ a6
    constructor
    · exact a3
    · exact a4
    · exact Nat.le_refl _
    · exact Nat.le_refl _
    · exact Nat.zero_le _
    · exact a2
    · exact fun _ => a5
    · intro e; cases e
    · exact fun _ => ⟨rfl, rfl⟩
    · intro _ B j hB hl hj
      dsimp only at hl ⊢
      rw [hg.enc data size off d a4 hd' B j hB hl hj]
      exact hg.cong _ _ _ (fun k hk => hd _ (by omega)) j hj
    · intro i hi; exact absurd hi (Nat.not_lt_zero _)
    · intro r hr; cases hr

theorem splice_in {m l : Nat → Byte} {off n o : Nat} (h : off ≤ o ∧ o < off + n) : splice m off n l o = l (o - off) := by
  simp [splice, h]

theorem splice_out {m l : Nat → Byte} {off n o : Nat} (h : ¬ (off ≤ o ∧ o < off + n)) : splice m off n l o = m o := by
  unfold splice
  rw [if_neg h]

theorem pow2_align_of_aligned {x a : Nat} (ha : Pow2 a) (hx : x + a ≤ 2 ^ 64) (h : x % a = 0) : powTwoAlign x a = x := by
  rw [powTwoAlign_eq ha hx]
  have hp := ha.pos
  obtain ⟨q, rfl⟩ := Nat.dvd_of_mod_eq_zero h
  rw [Nat.mul_add_div hp, Nat.div_eq_of_lt (by omega), Nat.add_zero, Nat.mul_comm]

theorem Made.encBlk (hm : Made c) {e : Encryptor} (he : c.enc = some e) : c.blk = c.align ∧ e.block = c.align := by
  have h1 := hm.accepted
  unfold Cfg.accepted at h1
  simp only [he, Bool.and_eq_true, beq_iff_eq] at h1
  exact ⟨by simp [Cfg.blk, he]; exact h1.1.1.1.2, h1.1.1.1.2⟩

theorem Inv.writeView {w w' : World} {id off size : Nat} {data pad : Nat → Byte} (hm : Made c) (hg : Good c E D) (h : Inv c E w)
    (ha : w.calls id = none ∧ off + size ≤ c.size ∧ off % c.blk = 0 ∧ size % c.blk = 0 ∧ (c.maxWrite = 0 → size < 4294967296) ∧
      w.Free c true off size) (he : w.writeView c id off size data pad = some w') : Inv c E w' := by
  unfold World.writeView at he
  split at he
  · rename_i hs
    obtain ⟨e, he'⟩ := Option.isSome_iff_exists.1 hs
    have hb := (hm.encBlk he').1
    have hsz : powTwoAlign size c.align = size := by
      refine pow2_align_of_aligned hm.pow2 ?_ (by rw [← hb]; exact ha.2.2.2.1)
      have h1 := hm.sizes.1
      have h2 := hm.pow2.le
      have h3 := ha.2.1
      have e63 : (2 : Nat) ^ 63 = 9223372036854775808 := by decide
      have e64 : (2 : Nat) ^ 64 = 18446744073709551616 := by decide
      rw [e63] at h1; rw [e64]; omega
    rw [hsz] at he
    refine h.writeBuffer hg ?_ ha he
    intro k hk
    rw [splice_in ⟨Nat.zero_le _, by omega⟩, Nat.sub_zero]
  · rename_i hs
    have hn : c.enc = none := by
      cases h0 : c.enc with
      | none => rfl
      | some e => rw [h0] at hs; exact absurd rfl hs
    refine h.writeBuffer hg (udata := data) (data := data) (fun _ _ => rfl) ha ?_
    unfold World.writeBuffer Cfg.encrypt
    rw [hn]; exact he

/-- The start of a read. -/
theorem Inv.startRead {w : World} {id uoff usize off size : Nat} {mem udata : Nat → Byte} (h : Inv c E w) (hn : w.calls id = none)
    (hf : w.Free c false uoff usize) (h1 : off % c.blk = 0) (h2 : size % c.blk = 0) (h3 : off ≤ uoff) (h4 : uoff + usize ≤ off + size)
    (h5 : off + size ≤ c.size) (h6 : size < 4294967296) :
    Inv c E (w.setCall id (some { wr := false, uoff, usize, udata, off, size, data := mem })) := by
  refine h.start hn ?_ hf
  constructor
  · exact h1
  · exact h2
  · exact h3
  · exact h4
  · exact Nat.zero_le _
  · exact h5
  · intro e; cases e
  · exact fun _ => h6
  · intro e; cases e
  · intro e; cases e
  · intro i hi; exact absurd hi (Nat.not_lt_zero _)
  · intro r hr; cases hr

theorem mod_of_mul {a b q : Nat} (h : a % b = 0) : q * a % b = 0 := by
  obtain ⟨r, rfl⟩ := Nat.dvd_of_mod_eq_zero h
  rw [Nat.mul_left_comm]; exact Nat.mul_mod_right _ _

/-- The numbers of a read into a Buffer. -/
theorem read_numbers (hm : Made c) {off size : Nat} (h1 : off + size ≤ c.size) (h2 : size + 2 * c.align ≤ 4294967296) :
    maskDown off c.align = off / c.align * c.align ∧
    ∃ q, powTwoAlign ((off &&& (c.align - 1)) + size) c.align = q * c.align ∧ q * c.align < 4294967296 ∧
      u32 (powTwoAlign ((off &&& (c.align - 1)) + size) c.align) = q * c.align ∧
      off + size ≤ off / c.align * c.align + q * c.align ∧ off / c.align * c.align + q * c.align ≤ c.size := by
  have hs := hm.sizes.1
  have hp := hm.pow2.pos
  have hl := hm.pow2.le
  have e63 : (2 : Nat) ^ 63 = 9223372036854775808 := by decide
  have e64 : (2 : Nat) ^ 64 = 18446744073709551616 := by decide
  have hmod := Nat.mod_lt off hp
  have hdm := Nat.div_add_mod off c.align
  refine ⟨maskDown_eq hm.pow2 (by rw [e64]; rw [e63] at hs; omega), ?_⟩
  have hpa := powTwoAlign_eq (x := off % c.align + size) hm.pow2 (by rw [e64]; omega)
  rw [lowBits_eq hm.pow2, hpa]
  refine ⟨(off % c.align + size + (c.align - 1)) / c.align, rfl, ?_⟩
  have hlt := Nat.div_mul_le_self (off % c.align + size + (c.align - 1)) c.align
  have hge : off % c.align + size ≤ (off % c.align + size + (c.align - 1)) / c.align * c.align := by
    have e1 := Nat.div_add_mod (off % c.align + size + (c.align - 1)) c.align
    have e2 := Nat.mod_lt (off % c.align + size + (c.align - 1)) hp
    rw [Nat.mul_comm] at e1
    omega
  have hlt2 : (off % c.align + size + (c.align - 1)) / c.align * c.align < 4294967296 := by omega
  refine ⟨hlt2, ?_, ?_, ?_⟩
  · unfold u32; exact Nat.mod_eq_of_lt hlt2
  · rw [Nat.mul_comm] at hdm
    omega
  · have hal : c.size % c.align = 0 := by
      unfold Cfg.size; rw [Nat.mul_comm]; exact mod_of_mul hm.aligned
    obtain ⟨t, ht⟩ := Nat.dvd_of_mod_eq_zero hal
    rw [ht] at h1 ⊢
    rw [← Nat.add_mul, Nat.mul_comm]
    refine Nat.mul_le_mul_left _ ?_
    refine Nat.le_of_lt_succ ?_
    have : (off / c.align + (off % c.align + size + (c.align - 1)) / c.align) * c.align < (t + 1) * c.align := by
      rw [Nat.add_mul, Nat.add_mul, Nat.mul_comm t, Nat.mul_comm (off / c.align)]
      omega
    exact Nat.lt_of_mul_lt_mul_right this

theorem Inv.readBuffer {w : World} {id off size : Nat} {mem : Nat → Byte} (hm : Made c) (h : Inv c E w)
    (ha : w.calls id = none ∧ off + size ≤ c.size ∧ size + 2 * c.align ≤ 4294967296 ∧ w.Free c false off size) :
    Inv c E (w.readBuffer c id off size mem) := by
  obtain ⟨a1, a2, a3, a4⟩ := ha
  obtain ⟨n1, q, n2, n3, n4, n5, n6⟩ := read_numbers hm a2 a3
  unfold World.readBuffer
  dsimp only
  rw [n1, n4]
  exact h.startRead a1 a4 (mod_of_mul hm.blk_dvd) (mod_of_mul hm.blk_dvd) (Nat.div_mul_le_self _ _) n5 n6 n3

theorem mod_trans {x a b : Nat} (h : x % a = 0) (h2 : a % b = 0) : x % b = 0 := by
  obtain ⟨q, rfl⟩ := Nat.dvd_of_mod_eq_zero h
  rw [Nat.mul_comm]; exact mod_of_mul h2

theorem Inv.readInto {w : World} {id off size : Nat} {mem : Nat → Byte} (hm : Made c) (h : Inv c E w)
    (ha : w.calls id = none ∧ off + size ≤ c.size ∧ off % c.align = 0 ∧ size % c.align = 0 ∧ size < 4294967296 ∧
      w.Free c false off size) : Inv c E (w.readInto id off size mem) := by
  obtain ⟨a1, a2, a3, a4, a5, a6⟩ := ha
  unfold World.readInto
  have : u32 size = size := Nat.mod_eq_of_lt a5
  rw [this]
  exact h.startRead a1 a6 (mod_trans a3 hm.blk_dvd) (mod_trans a4 hm.blk_dvd) (Nat.le_refl _) (Nat.le_refl _) a2 a5

theorem chunk_le (x : Call) : x.chunk c ≤ x.size - x.pos := by
  unfold Call.chunk
  exact Nat.min_le_right _ _

theorem chunk_small (hm : Made c) {d : Nat → Nat → Byte} {x : Call} (h : CallInv c E d x) : u32 (x.chunk c) = x.chunk c := by
  refine Nat.mod_eq_of_lt ?_
  have h1 := chunk_le (c := c) x
  have h2 : x.chunk c ≤ (if (if x.wr then c.maxWrite else c.maxIO) = 0 then x.size else (if x.wr then c.maxWrite else c.maxIO)) :=
    Nat.min_le_left _ _
  have h3 := hm.sizes
  cases hw : x.wr with
  | true =>
    have h4 := h.small hw
    rw [hw] at h2
    simp only [if_true] at h2
    split at h2
    · have := h4 (by assumption); omega
    · omega
  | false =>
    have := h.smallR hw
    omega

theorem Inv.chunk {w w' : World} {id limit : Nat} {sync : Bool} (hm : Made c) (h : Inv c E w)
    (he : w.chunk c id sync limit = some w') : Inv c E w' := by
  unfold World.chunk at he
  split at he
  · rename_i x hx
    split at he
    · cases he
    · rename_i hr
      split at he
      · rename_i hp
        injection he with he; subst he
        have hi := h.calls id x hx
        refine h.modify' hm.blk_pos hx rfl rfl rfl ?_
        refine { hi with req := ?_, done := fun i hi' => hi.done i hi' }
        intro r hr'
        injection hr' with hr'; subst hr'
        dsimp only
        rw [chunk_small hm hi]
        have hle := chunk_le (c := c) x
        refine ⟨by have := hi.posLe; omega, ?_, ?_⟩
        · intro y hy
          obtain ⟨op, ho, rfl⟩ := List.mem_map.1 hy
          exact ops_at hm.stripe op ho
        · intro i hi'
          left
          obtain ⟨op, ho, h1, h2⟩ := ops_cover hm.stripe (base := x.off + x.pos) hi'
          exact ⟨(op, 0), List.mem_map.2 ⟨op, ho, rfl⟩, h1, h2⟩
      · cases he
  · cases he

end Verif.NavyDevice
