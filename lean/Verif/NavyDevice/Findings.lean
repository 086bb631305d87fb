import Verif.NavyDevice.Fdp
/-
Concrete histories, and what does not hold.
-/
namespace Verif.NavyDevice

/-- A check of `Allowed` for devices without encryptor, where calls have numbers below `n`. -/
def allowedB (c : Cfg) (n : Nat) (w : World) (a : Act) : Bool :=
  let free (wr : Bool) (off size : Nat) : Bool := (List.range n).all fun i =>
    match w.calls i with
    | none => true
    | some x => (!wr && !x.wr) || decide (off + size ≤ x.uoff) || decide (x.uoff + x.usize ≤ off)
  match a with
  | .writeBuffer id off size _ | .writeView id off size _ _ => decide (id < n) && (w.calls id).isNone && decide (off + size ≤ c.size) &&
      decide (size < 4294967296) && free true off size
  | .readBuffer id off size _ => decide (id < n) && (w.calls id).isNone && decide (off + size ≤ c.size) &&
      decide (size + 2 * c.align ≤ 4294967296) && free false off size
  | .readInto id off size _ => decide (id < n) && (w.calls id).isNone && decide (off + size ≤ c.size) && decide (off % c.align = 0) &&
      decide (size % c.align = 0) && decide (size < 4294967296) && free false off size
  | .chunk id _ _ | .io id _ _ _ | .chunkDone id | .ret id => decide (id < n)

def runsB (c : Cfg) (n : Nat) : World → List Act → Option World
  | w, [] => some w
  | w, a :: as => if allowedB c n w a then match w.exec c a with | none => none | some w' => runsB c n w' as else none

theorem runsB_reach {c : Cfg} {n : Nat} (hc : c.enc = none) : ∀ {as : List Act} {w w' : World}, Reach c w →
    (∀ i, n ≤ i → w.calls i = none) → runsB c n w as = some w' → Reach c w' := by
  intro as
  induction as with
  | nil => intro w w' h _ he; injection he with he; subst he; exact h
  | cons a as ih =>
    intro w w' h hn he
    unfold runsB at he
    split at he
    · rename_i ha
      split at he
      · cases he
      · rename_i w1 h1
        have hb : c.blk = 1 := by simp [Cfg.blk, hc]
        have hfree : ∀ (wr : Bool) (off size : Nat), ((List.range n).all fun i =>
            match w.calls i with
            | none => true
            | some x => (!wr && !x.wr) || decide (off + size ≤ x.uoff) || decide (x.uoff + x.usize ≤ off)) = true →
            w.Free c wr off size := by
          intro wr off size hf id x hx hw o ho
          obtain ⟨⟨u, u1, u2, u3⟩, ⟨v, v1, v2, v3⟩⟩ := ho
          rw [hb] at u3 v3
          simp only [Nat.div_one] at u3 v3
          have hid : id < n := Classical.byContradiction fun h2 => by rw [hn id (by omega)] at hx; cases hx
          have := List.all_eq_true.1 hf id (List.mem_range.2 hid)
          rw [hx] at this
          simp only [Bool.or_eq_true, Bool.and_eq_true, Bool.not_eq_true', decide_eq_true_eq] at this
          rcases this with (⟨h1, h2⟩ | h1) | h1
          · rcases hw with hw | hw <;> simp_all
          · omega
          · omega
        have hall : Allowed c w a := by
          unfold allowedB at ha
          cases a <;> simp only [Bool.and_eq_true, decide_eq_true_eq, Option.isNone_iff_eq_none] at ha <;>
            simp only [Allowed, hb, Nat.mod_one, true_and]
          · exact ⟨ha.1.1.1.2, ha.1.1.2, fun _ => ha.1.2, hfree _ _ _ ha.2⟩
          · exact ⟨ha.1.1.1.2, ha.1.1.2, fun _ => ha.1.2, hfree _ _ _ ha.2⟩
          · exact ⟨ha.1.1.1.2, ha.1.1.2, ha.1.2, hfree _ _ _ ha.2⟩
          · exact ⟨ha.1.1.1.1.1.2, ha.1.1.1.1.2, ha.1.1.1.2, ha.1.1.2, ha.1.2, hfree _ _ _ ha.2⟩
        refine ih (h.step a hall h1) ?_ he
        have hset : ∀ (w : World) (id : Nat) (y : Option Call), (∀ i, n ≤ i → w.calls i = none) → id < n →
            ∀ i, n ≤ i → (w.setCall id y).calls i = none := by
          intro w id y hw hid i hi
          rw [setCall_calls, if_neg (by omega)]; exact hw i hi
        intro i hi
        unfold allowedB at ha
        cases a <;> simp only [Bool.and_eq_true, decide_eq_true_eq] at ha
        · simp only [World.exec, World.writeBuffer] at h1
          repeat' split at h1
          all_goals first | (cases h1; done) | skip
          · injection h1 with h1; subst h1; exact hn i hi
          · injection h1 with h1; subst h1; exact hset _ _ _ hn ha.1.1.1.1 i hi
        · simp only [World.exec, World.writeView, World.writeBuffer] at h1
          repeat' split at h1
          all_goals first | (cases h1; done) | skip
          · injection h1 with h1; subst h1; exact hn i hi
          · injection h1 with h1; subst h1; exact hset _ _ _ hn ha.1.1.1.1 i hi
          · injection h1 with h1; subst h1; exact hset _ _ _ hn ha.1.1.1.1 i hi
        · injection h1 with h1; subst h1; exact hset _ _ _ hn ha.1.1.1.1 i hi
        · injection h1 with h1; subst h1; exact hset _ _ _ hn ha.1.1.1.1.1.1 i hi
        · simp only [World.exec, World.chunk] at h1
          repeat' split at h1
          all_goals first | (cases h1; done) | skip
          injection h1 with h1; subst h1; exact hset _ _ _ hn ha i hi
        · simp only [World.exec, World.io] at h1
          split at h1
          · cases h1
          · split at h1
            · cases h1
            · split at h1
              · cases h1
              · split at h1
                · cases h1
                · injection h1 with h1; subst h1
                  exact hset { w with disk := _ } _ _ hn ha i hi
        · simp only [World.exec, World.chunkDone] at h1
          repeat' split at h1
          all_goals first | (cases h1; done) | skip
          · injection h1 with h1; subst h1; exact hset _ _ _ hn ha i hi
          · injection h1 with h1; subst h1; exact hset _ _ _ hn ha i hi
        · simp only [World.exec, World.ret] at h1
          repeat' split at h1
          all_goals first | (cases h1; done) | skip
          all_goals (injection h1 with h1; subst h1; exact hset _ _ _ hn ha i hi)
    · cases he

/-- Three files of 32 bytes with stripes of 8, blocks of 4, writes of at most 16 bytes. -/
def raid : Cfg := { nfiles := 3, fileSize := 32, stripe := 8, align := 4, maxIO := 16, maxWrite := 16 }

theorem raid_made : Made raid :=
  ⟨by decide, ⟨2, by decide, rfl⟩, by decide, fun _ => by decide, by decide, by decide⟩

def z : Nat → Byte := fun _ => 0
def bytes (k : Nat) : Nat → Byte := fun i => UInt8.ofNat (k + i)

/-- Two writes at the same time, the first in two parts over three files with its operations completing in any order and one of
them submitted again; then a read that does not begin nor end at a block. -/
def raidRun : List Act :=
  [.writeBuffer 0 4 24 (bytes 100), .writeView 1 32 8 (bytes 50) z,
   .chunk 0 false 10000, .io 0 2 4 z, .chunk 1 true 0, .io 0 1 (-11) (bytes 7), .io 1 0 8 z, .io 0 1 8 z, .io 0 0 4 z, .chunkDone 0,
   .chunkDone 1, .ret 1, .chunk 0 false 10000, .io 0 0 4 z, .io 0 0 4 z, .chunkDone 0, .ret 0,
   .readBuffer 1 6 29 z, .chunk 1 false 10000, .io 1 1 8 z, .io 1 0 4 z, .io 1 0 4 z, .chunkDone 1, .chunk 1 true 0,
   .io 1 0 4 z, .io 1 0 8 z, .io 1 0 4 z, .chunkDone 1, .ret 1]

/-- The bytes of the last read. -/
def lastRead (w : World) : Option (List Byte) :=
  match w.log with
  | .didRead _ n (some f) :: _ => some ((List.range n).map f)
  | _ => none

/-- Non-vacuity of `read_exact`: the read returns 22 bytes of the first write, 4 that were not written, and 3 of the second write. -/
theorem raid_example : ∃ w, runsB raid 2 { disk := fun _ _ => 9 } raidRun = some w ∧ Reach raid w ∧
    lastRead w = some ((List.range 22).map (bytes 102) ++ [9, 9, 9, 9] ++ [50, 51, 52]) := by
  cases h : runsB raid 2 { disk := fun _ _ => 9 } raidRun with
  | none => exact absurd h (by decide +kernel)
  | some w =>
    refine ⟨w, rfl, runsB_reach rfl (.init _) (fun _ _ => rfl) h, ?_⟩
    have : (runsB raid 2 { disk := fun _ _ => 9 } raidRun).bind lastRead =
        some ((List.range 22).map (bytes 102) ++ [9, 9, 9, 9] ++ [50, 51, 52]) := by decide +kernel
    rw [h] at this
    exact this

/-! ### What does not hold -/

/-- What Device.h:42-53 asks of an encryptor: decrypting with the same salt gives back what was encrypted. -/
def Contract (e : Encryptor) : Prop := ∀ v n s, ∃ r, e.enc v n s = some r ∧ ∃ v', e.dec r n s = some v' ∧ ∀ k, k < n → v' k = v k

/-- An encryptor that mixes all bytes of what it is given (here: the order is reversed). -/
def mirror : Encryptor :=
  { block := 1, enc := fun v n _ => some fun i => v (n - 1 - i), dec := fun v n _ => some fun i => v (n - 1 - i) }

theorem mirror_contract : Contract mirror := by
  intro v n s
  refine ⟨_, rfl, _, rfl, ?_⟩
  intro k hk
  dsimp only
  congr 1; omega

/-- What the user saw: write or read, offset, size, and the bytes if there was no error. -/
structure Seen where
  wr : Bool
  off : Nat
  size : Nat
  bytes : Option (List Byte)
deriving DecidableEq

def Ev.seen : Ev → Seen
  | .wrote off n d ok => ⟨true, off, n, if ok then some ((List.range n).map d) else none⟩
  | .didRead off n r => ⟨false, off, n, r.map fun f => (List.range n).map f⟩

/-- A device with blocks of one byte and that encryptor. -/
def mirrorDev : Cfg := { nfiles := 1, fileSize := 8, stripe := 0, align := 1, maxIO := 0, maxWrite := 0, enc := some mirror }

/-- The contract of DeviceEncryptor is not enough: a part of what was written in one call is decrypted on its own (BlockCache
writes whole regions and reads entries, RegionManager.cpp:684, 721), so the encryptor has to work block by block, with salts that
count on.  Here 1, 2 is written, and reading the first byte gives 2. -/
theorem contract_not_enough : Contract mirror ∧ Made mirrorDev ∧
    (({ disk := fun _ _ => 0 } : World).runs mirrorDev
      [.writeBuffer 0 0 2 (bytes 1), .chunk 0 true 0, .io 0 0 2 z, .chunkDone 0, .ret 0,
       .readBuffer 0 0 1 z, .chunk 0 true 0, .io 0 0 1 z, .chunkDone 0, .ret 0]).map (fun w => w.log.map Ev.seen) =
    some [⟨false, 0, 1, some [2]⟩, ⟨true, 0, 2, some [1, 2]⟩] :=
  ⟨mirror_contract, ⟨by decide, ⟨0, by decide, rfl⟩, by decide, by decide, by decide, by decide⟩, by decide +kernel⟩

/-- An encryptor that does nothing, with blocks of two bytes, and a device with it. -/
def plain : Encryptor := { block := 2, enc := fun v _ _ => some v, dec := fun v _ _ => some v }
def plainDev : Cfg := { nfiles := 1, fileSize := 8, stripe := 0, align := 2, maxIO := 0, maxWrite := 0, enc := some plain }

/-- Non-vacuity of the hypothesis on encryptors. -/
example : ∃ E D, BlockCipher plain E D :=
  ⟨fun _ p => p, fun _ p => p, fun v n s r _ _ h B j _ _ _ => by injection h with h; subst h; rfl,
    fun v n s r _ _ h B j _ _ _ => by injection h with h; subst h; rfl, fun _ _ _ h => h, fun _ _ _ h => h⟩

/-- With an encryptor, write(BufferView) of a part of a block writes the whole block, with what happened to be in memory (here 77):
the byte after the view, written before, is lost, although nothing reports an error. -/
theorem view_pads : Made plainDev ∧
    (({ disk := fun _ _ => 0 } : World).runs plainDev
      [.writeBuffer 0 0 2 (bytes 1), .chunk 0 true 0, .io 0 0 2 z, .chunkDone 0, .ret 0,
       .writeView 0 0 1 (bytes 5) (fun _ => 77), .chunk 0 true 0, .io 0 0 2 z, .chunkDone 0, .ret 0,
       .readBuffer 0 0 2 z, .chunk 0 true 0, .io 0 0 2 z, .chunkDone 0, .ret 0]).map (fun w => w.log.map Ev.seen) =
    some [⟨false, 0, 2, some [5, 77]⟩, ⟨true, 0, 1, some [5]⟩, ⟨true, 0, 2, some [1, 2]⟩] :=
  ⟨⟨by decide, ⟨1, by decide, rfl⟩, by decide, by decide, by decide, by decide⟩, by decide +kernel⟩

/-- A read of almost 4 GiB with blocks of 4096 bytes reads nothing, because the aligned size does not fit in uint32_t, and returns
what was in memory. -/
theorem huge_read_reads_nothing (c : Cfg) (hc : c.enc = none) (ha : c.align = 4096) (w : World) (id : Nat) (mem : Nat → Byte) :
    ∃ w', (w.readBuffer c id 0 4294967295 mem).ret c id = some w' ∧
      w'.log = .didRead 0 4294967295 (some mem) :: w.log := by
  have h1 : maskDown 0 c.align = 0 := by unfold maskDown; exact Nat.zero_and _
  have h2 : u32 (powTwoAlign ((0 &&& (c.align - 1)) + 4294967295) c.align) = 0 := by
    rw [ha, Nat.zero_and]
    decide +kernel
  unfold World.readBuffer World.ret
  rw [setCall_calls, if_pos rfl]
  dsimp only
  rw [h1, h2]
  simp only [Nat.sub_self, Nat.lt_irrefl, if_false, Cfg.decrypt, hc]
  refine ⟨_, rfl, ?_⟩
  have ht : ∀ x : Call, x.uoff = 0 → x.trimmed mem = mem := by
    intro x hx
    funext i
    unfold Call.trimmed
    rw [hx, Nat.zero_sub, Nat.zero_add]
  rw [ht _ rfl]
  rfl

/-- A write of 4 GiB with no limit on the size of writes writes nothing and returns true. -/
theorem huge_write_writes_nothing (c : Cfg) (hc : c.enc = none) (hn : c.nfiles = 1) (hw : c.maxWrite = 0) (hf : c.fdp = false)
    (w : World) (id : Nat) (data : Nat → Byte) :
    ∃ w', w.runs c [.writeBuffer id 0 4294967296 data, .chunk id true 0, .io id 0 0 z, .chunkDone id, .ret id] = some w' ∧
      w'.log = .wrote 0 4294967296 data true :: w.log ∧ w'.disk = w.disk := by
  have hch : ∀ x : Call, x.wr = true → x.pos = 0 → x.chunk c = x.size := by
    intro x h1 h2
    unfold Call.chunk
    simp only [h1, if_true, hw, h2, Nat.sub_zero, Nat.min_self]
  have hops : c.ops (0 + 0) 0 = [⟨0, 0, 0, 0⟩] := by simp [Cfg.ops, hn]
  have h32 : u32 4294967296 = 0 := by decide +kernel
  simp only [World.runs, World.exec, World.writeBuffer, Cfg.encrypt, hc, World.chunk, setCall_calls, if_true]
  rw [if_pos (by decide), hch _ rfl rfl]
  dsimp only
  rw [h32, hops]
  simp only [List.map_cons, List.map_nil, World.io, setCall_calls, if_true, List.getElem?_cons_zero, hf]
  rw [if_neg (by decide)]
  simp only [World.chunkDone, setCall_calls, if_true, Bool.true_and, doneLen, Bool.false_and, Bool.not_true, Bool.false_eq_true,
    if_false, show ((0 : Int) == ((0 : Nat) : Int)) = true from rfl, List.eraseIdx_cons_zero, Bool.and_false, World.ret, Nat.zero_add, Nat.sub_self, Nat.lt_irrefl]
  refine ⟨_, rfl, ?_, ?_⟩
  · rfl
  funext f o
  simp only [World.setCall]
  split
  · exact splice_out (by omega)
  · rfl

/-- An operation that the device answers with EAGAIN is submitted again whatever the number of times: the limit is 10000
(Device.cpp:273), and the count is a uint8_t (93), so it is never reached. -/
theorem eagain_forever (c : Cfg) (w : World) (id k : Nat) (x : Call) (r : Req) (op : Op) (cnt : Nat) (junk : Nat → Byte)
    (hx : w.calls id = some x) (hr : x.req = some r) (hp : r.pend[k]? = some (op, cnt)) (hs : r.sync = false) (hl : r.limit = 10000)
    (hc : cnt < 256) : ∃ w' x' r' cnt', w.io c id k (-11) junk = some w' ∧ w'.calls id = some x' ∧ x'.req = some r' ∧
      r'.pend[k]? = some (op, cnt') ∧ cnt' < 256 ∧ r'.ok = r.ok ∧ r'.limit = 10000 ∧ r'.sync = false := by
  unfold World.io
  rw [hx]
  dsimp only
  rw [hr]
  dsimp only
  rw [hp]
  dsimp only
  have hlt := (List.getElem?_eq_some_iff.1 hp).1
  have h1 : (!r.sync && (-11 : Int) == -11 && decide (cnt < r.limit)) = true := by
    simp only [hs, hl, Bool.not_false, BEq.rfl, Bool.and_self, Bool.true_and, decide_eq_true_eq]; omega
  rw [if_neg (by simp [hs]), if_pos h1]
  refine ⟨_, _, _, (cnt + 1) % 256, rfl, if_pos rfl, rfl, ?_, Nat.mod_lt (cnt + 1) (by decide : 0 < 256), rfl, hl, hs⟩
  simp [hlt]

end Verif.NavyDevice
