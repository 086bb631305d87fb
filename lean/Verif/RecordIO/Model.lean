/-! # The metadata stream on a device (cachelib/navy/serialization/RecordIO.cpp)

The record header and its checksums are folly's (`folly/io/RecordIO.h`, `recordio_helpers`; not in /repo): 28 packed
bytes, little-endian: magic (4), version (1), hash function (1), flags (2), file id (4), data length (4), data hash (8),
hash of the preceding 24 bytes (4).  The two hash functions are parameters of the model.
-/

namespace Verif.RecordIO

abbrev Byte := UInt8
abbrev Mem := Nat → Byte

/-- Parameters: block size (`max(dev.getIOAlignmentSize(), 4096)`, RecordIO.cpp:70-71, 176-177), size of the metadata
area (69, 175), folly's hashes of a header and of data. -/
structure Cfg where
  B : Nat
  M : Nat
  hH : List Byte → UInt32
  dH : List Byte → UInt64

/-- `headerSize()` of folly. -/
def H : Nat := 28

/-- Little-endian bytes of `v`. -/
def le : Nat → Nat → List Byte
  | 0, _ => []
  | n + 1, v => UInt8.ofNat (v % 256) :: le n (v / 256)

/-- The number with these little-endian bytes. -/
def de : List Byte → Nat
  | [] => 0
  | b :: l => b.toNat + 256 * de l

/-- `kMagic` of folly's header. -/
def magic : Nat := 0xeac313a1
/-- RecordIO.cpp:26 -/
def kMetadataHeaderFileId : Nat := 1

/-- folly `prependHeader`: the first 24 bytes of the header. -/
def header24 (cfg : Cfg) (data : List Byte) : List Byte :=
  le 4 magic ++ (le 1 0 ++ (le 1 0 ++ (le 2 0 ++ (le 4 kMetadataHeaderFileId ++ (le 4 data.length ++
    le 8 (cfg.dH data).toNat)))))

/-- folly `prependHeader`: the whole record. -/
def frame (cfg : Cfg) (data : List Byte) : List Byte :=
  header24 cfg data ++ (le 4 (cfg.hH (header24 cfg data)).toNat ++ data)

/-- The bytes `[i, i + n)` of a header. -/
def fld (l : List Byte) (i n : Nat) : List Byte := (l.drop i).take n

/-- folly `validateRecordHeader(range, kMetadataHeaderFileId)`. -/
def validHeader (cfg : Cfg) (l : List Byte) : Bool :=
  decide (H ≤ l.length) && (de (fld l 0 4) == magic) && (de (fld l 4 1) == 0) && (de (fld l 5 1) == 0) &&
    (de (fld l 6 2) == 0) && (de (fld l 8 4) == kMetadataHeaderFileId) &&
    (de (fld l 24 4) == (cfg.hH (fld l 0 24)).toNat)

/-- folly `validateRecordData(range)`: the record is valid (`fileId != 0`). -/
def validData (cfg : Cfg) (l : List Byte) : Bool :=
  decide (H < l.length) && decide (de (fld l 12 4) ≤ l.length - H) &&
    ((cfg.dH (fld l H (de (fld l 12 4)))).toNat == de (fld l 16 8)) && (de (fld l 8 4) != 0)

/-! ## Device -/

/-- The bytes `[i, i + n)` of a memory. -/
def slice (m : Mem) (i n : Nat) : List Byte := (List.range n).map (fun j => m (i + j))

/-- A device after `n` bytes of `blk` have been written at `off`. -/
def put (dev : Mem) (off n : Nat) (blk : Mem) : Mem := fun x =>
  if off ≤ x ∧ x < off + n then blk (x - off) else dev x

/-- The environment: does the `n`-th write succeed, and if not, what is in the block afterwards; does a read of the
block at an offset succeed. -/
structure Env where
  wok : Nat → Bool
  torn : Nat → Mem
  rok : Nat → Bool

/-! ## Writer -/

/-- RecordIO.cpp:163-168 and the device; `nw` counts the writes. -/
structure Wr where
  dev : Mem
  off : Nat
  bi : Nat
  buf : Mem
  nw : Nat

inductive WRes where
  | ok
  | throws
  /-- undefined behaviour (overflow of the `int dataOffset`, 109) or not terminating -/
  | ub
  deriving DecidableEq

/-- `dev_.write(off, blk)`. -/
def devWrite (cfg : Cfg) (env : Env) (s : Wr) (off : Nat) (blk : Mem) : Wr × Bool :=
  if env.wok s.nw then ({ s with dev := put s.dev off cfg.B blk, nw := s.nw + 1 }, true)
  else ({ s with dev := put s.dev off cfg.B (env.torn s.nw), nw := s.nw + 1 }, false)

/-- RecordIO.cpp:67-71: a new writer. -/
def newWriter (dev junk : Mem) : Wr := ⟨dev, 0, 0, junk, 0⟩

/-- RecordIO.cpp:112-126 `flushBuffer`; the Boolean is `false` for a throw. -/
def flush (cfg : Cfg) (env : Env) (s : Wr) : Wr × Bool :=
  let buf : Mem := fun i => if i < s.bi then s.buf i else 0
  let r := devWrite cfg env { s with buf := buf } s.off buf
  if r.2 then ({ r.1 with off := s.off + cfg.B, bi := 0 }, true) else (r.1, false)

/-- RecordIO.cpp:146: `memcpy` of bytes into the block buffer. -/
def fill (buf : Mem) (i : Nat) (l : List Byte) : Mem := fun x =>
  if i ≤ x ∧ x < i + l.length then l.getD (x - i) 0 else buf x

/-- RecordIO.cpp:128-150: the loop of `writeRecord`; `data` is what remains. -/
def writeLoop (cfg : Cfg) (env : Env) : Nat → Wr → List Byte → Wr × WRes
  | 0, s, _ => (s, .ub)
  | f + 1, s, data =>
    let r := if s.bi + H > cfg.B then flush cfg env s else (s, true)
    if r.2 then
      let s := r.1
      if s.off + s.bi + data.length > cfg.M then
        ((if s.bi ≠ 0 then flush cfg env s else (s, true)).1, .throws)
      else
        let cp := min (cfg.B - s.bi) data.length
        let s' : Wr := { s with buf := fill s.buf s.bi (data.take cp), bi := s.bi + cp }
        let rest := data.drop cp
        if rest.length > 0 then writeLoop cfg env f s' rest else (s', .ok)
    else (r.1, .throws)

/-- RecordIO.cpp:99-151 `writeRecord`.  folly refuses records of nearly 4 GB and ignores empty ones. -/
def writeRecord (cfg : Cfg) (env : Env) (s : Wr) (data : List Byte) : Wr × WRes :=
  if data.length + H ≥ 4294967295 then (s, .throws)
  else if data.length = 0 then (s, .ok)
  else if data.length + H ≥ 2147483648 then (s, .ub)
  else writeLoop cfg env (data.length + H + 1) s (frame cfg data)

/-- RecordIO.cpp:73-97: the destructor; failures are ignored. -/
def close (cfg : Cfg) (env : Env) (s : Wr) : Wr :=
  let s1 :=
    if s.bi > 0 then
      if s.off + cfg.B < cfg.M then
        let r := devWrite cfg env s s.off (fun i => if i < s.bi then s.buf i else 0)
        { r.1 with off := s.off + cfg.B }
      else s
    else s
  if s1.off + cfg.B ≤ cfg.M then (devWrite cfg env s1 s1.off (fun _ => 0)).1 else s1

/-- RecordIO.cpp:153-157 `invalidate`. -/
def invalidate (cfg : Cfg) (env : Env) (s : Wr) : Wr × Bool := devWrite cfg env s 0 (fun _ => 0)

/-- RecordIO.cpp:159 -/
def getCurPos (s : Wr) : Nat := s.off

/-- Several calls of `writeRecord`, until one of them does not return normally. -/
def writeAll (cfg : Cfg) (env : Env) : Wr → List (List Byte) → Wr × WRes
  | s, [] => (s, .ok)
  | s, d :: l =>
    let r := writeRecord cfg env s d
    match r.2 with
    | .ok => writeAll cfg env r.1 l
    | x => (r.1, x)

/-! ## Reader -/

/-- RecordIO.cpp:268-273. -/
structure Rd where
  off : Nat
  bi : Nat
  buf : Mem

inductive RRes where
  | data (d : List Byte)
  | throws
  | ub
  deriving DecidableEq

/-- RecordIO.cpp:173-177, 272: a new reader. -/
def newReader (cfg : Cfg) (junk : Mem) : Rd := ⟨0, cfg.B, junk⟩

/-- RecordIO.cpp:192-205; `none` is a throw. -/
def refill (cfg : Cfg) (env : Env) (dev : Mem) (r : Rd) : Option Rd :=
  if r.bi + H > cfg.B then
    if r.off + cfg.B > cfg.M then none
    else if env.rok r.off then some ⟨r.off + cfg.B, 0, fun i => if i < cfg.B then dev (r.off + i) else r.buf i⟩
    else none
  else some r

/-- RecordIO.cpp:188-236: the loop of `readRecord`; `hdr` is `readHeader`, `acc` the bytes collected.  On a throw the
reader's position is whatever it is (the model forgets it).  The result is `none` for a throw, and the fuel stands for
termination. -/
def readLoop (cfg : Cfg) (env : Env) (dev : Mem) : Nat → Rd → Bool → Nat → List Byte → Option (Option (Rd × List Byte))
  | 0, _, _, _, _ => none
  | f + 1, r, hdr, size, acc =>
    match refill cfg env dev r with
    | none => some none
    | some r =>
      let range := slice r.buf r.bi (cfg.B - r.bi)
      if hdr && !validHeader cfg range then some none
      else
        let size := if hdr then H + de (fld range 12 4) else size
        let cp := min (cfg.B - r.bi) size
        let acc' := acc ++ slice r.buf r.bi cp
        let r' : Rd := { r with bi := r.bi + cp }
        if size - cp > 0 then readLoop cfg env dev f r' false (size - cp) acc' else some (some (r', acc'))

/-- RecordIO.cpp:180-248 `readRecord`: the result and the reader afterwards. -/
def readRecord (cfg : Cfg) (env : Env) (dev : Mem) (r : Rd) : Rd × RRes :=
  match readLoop cfg env dev 4294967352 r true 0 [] with
  | none => (r, .ub)
  | some none => (r, .throws)
  | some (some (r', l)) => if validData cfg l then (r', .data (l.drop H)) else (r', .throws)

/-- RecordIO.cpp:250-264 `isEnd`. -/
def isEnd (cfg : Cfg) (env : Env) (dev : Mem) (r : Rd) : Bool :=
  if r.off + cfg.B > cfg.M then true
  else if !env.rok r.off then true
  else !validHeader cfg (slice (fun i => dev (r.off + i)) 0 cfg.B)

/-- Reading records until `n` have been returned or a call does not return normally. -/
def readN (cfg : Cfg) (env : Env) (dev : Mem) : Nat → Rd → Rd × List (List Byte)
  | 0, r => (r, [])
  | n + 1, r =>
    match readRecord cfg env dev r with
    | (r', .data d) => let q := readN cfg env dev n r'; (q.1, d :: q.2)
    | (r', _) => (r', [])

end Verif.RecordIO
