/-! # Saving a cache to a stream and restoring it (cachelib/persistence/PersistenceManager.{h,cpp})

Outside the model: thrift (the three encodings are parameters with round-trip laws), the CRC function (a parameter),
the operating system (opening, reading and writing files and shared memory never fails, except that a missing source is
an error), the rounding of segment sizes to pages.
-/

namespace Verif.Persist

abbrev Byte := UInt8

/-- Little-endian bytes of an integer in memory (`COPY_BUFFER` of a `size_t` or of a packed struct, PersistenceManager.cpp
:99-100, 150-151, 349-350, 357-358). -/
def le : Nat → Nat → List Byte
  | 0, _ => []
  | n + 1, v => UInt8.ofNat (v % 256) :: le n (v / 256)

/-- The integer in these bytes (`cast<T>`, PersistenceManager.h:162-165). -/
def de : List Byte → Nat
  | [] => 0
  | b :: l => b.toNat + 256 * de l

/-- `PersistenceType`, objects.thrift:24-33. -/
inductive Kind
  | versions | configs | nvmCacheState | shmInfo | shmHT | shmChainedItemHT | shmData | navyPartition
  deriving DecidableEq, Repr

/-- `CacheLibVersions`, objects.thrift:35-43. -/
structure Versions where
  persistence : Nat
  allocator : Nat
  ram : Nat
  nvm : Nat
  deriving DecidableEq, Repr

/-- The names of the four segments (CacheDetails.h via PersistenceManager.cpp:118-131). -/
inductive Seg
  | info | hashTable | chainedItemHashTable | cache
  deriving DecidableEq, Repr

/-- What the stream format is made of: `kDataBlockSize` (PersistenceManager.h:40), `folly::crc32`, and the thrift
encodings of a header (276-287, 183), of the versions (84, 386) and of the configuration (108, 200).  A decoder that
throws is `none`. -/
structure Fmt where
  B : Nat
  crc : List Byte → Nat
  encHeader : Kind → Nat → List Byte
  decHeader : List Byte → Option (Kind × Nat)
  encVersions : Versions → List Byte
  decVersions : List Byte → Option Versions
  encConfig : List Byte → List Byte
  decConfig : List Byte → Option (List Byte)

/-- A `PersistenceManager`: `versions_`, `config_` (the cache name), `navyFiles_.size()` and `navyFileSize_`
(PersistenceManager.h:104-131, 175-183). -/
structure Mgr where
  versions : Versions
  name : List Byte
  numNavyFiles : Nat
  navyFileSize : Nat

/-- What is on the host: the segments of the cache directory, the file NvmCacheState, the Navy files by number. -/
structure Host where
  segs : Seg → Option (List Byte)
  stateFile : Option (List Byte)
  navy : Nat → Option (List Byte)

/-! ## Saving -/

/-- DATA_BEGIN_CHAR, PersistenceManager.cpp:32 -/
def kBegin : Byte := 28
/-- DATA_MARK_CHAR, PersistenceManager.cpp:33 -/
def kMark : Byte := 30
/-- DATA_END_CHAR, PersistenceManager.cpp:34 -/
def kEnd : Byte := 31

/-- `util::getAlignedSize(size, alignment)` on a 64-bit size (Utils.h:273-278; the addition does not overflow in the
model). -/
def alignedSize (size alignment : Nat) : Nat :=
  if size % alignment = 0 then size else size + alignment - size % alignment

/-- `uint32_t numBlock` (PersistenceManager.cpp:341-342, 372-373). -/
def numBlock32 (size B : Nat) : Nat := alignedSize size B / B % 2 ^ 32

/-- The number of iterations of `for (int32_t i = 0; i < n; ++i)` when `n` was converted from `x` (137-138, 142,
238-239, 243). -/
def i32Count (x : Nat) : Nat := if x % 2 ^ 32 < 2 ^ 31 then x % 2 ^ 32 else 0

/-- `DataBlockHeader::setLengthAndComputeChecksum` (51-59): the checksum and the length of the data. -/
def blockHeader (f : Fmt) (data : List Byte) : List Byte := le 4 (f.crc data) ++ le 4 data.length

/-- What is in `DataBlock db` after the data: nothing was written there (143, 347).  The bytes depend on the place in
the stream, arbitrarily. -/
abbrev Junk := Nat → Nat → Byte

/-- One `DataBlock` with `data` (61-72), written when the stream has `at` bytes. -/
def dataBlock (f : Fmt) (junk : Junk) (pos : Nat) (data : List Byte) : List Byte :=
  blockHeader f data ++ (data ++ (List.range (f.B - data.length)).map (junk pos))

/-- `saveDataInBlocks` (338-367): `n` more blocks; `data` is `[ptr, endPtr)`, `w` the stream so far. -/
def saveBlocks (f : Fmt) (junk : Junk) : Nat → List Byte → List Byte → List Byte
  | 0, _, w => w
  | n + 1, data, w =>
    if data.length < f.B then
      saveBlocks f junk n (data.drop data.length) (w ++ dataBlock f junk w.length data)
    else
      saveBlocks f junk n (data.drop f.B) (w ++ (blockHeader f (data.take f.B) ++ data.take f.B))

/-- `saveShm` (324-336) on a writer with the stream `w`.  `none`: it throws. -/
def saveShm (f : Fmt) (junk : Junk) (k : Kind) (seg : Option (List Byte)) (w : List Byte) : Option (List Byte) :=
  match seg with
  | none => none
  | some data =>
    if data.length = 0 then none
    else
      let w := w ++ [kMark]
      let w := w ++ f.encHeader k data.length
      some (saveBlocks f junk (numBlock32 data.length f.B) data w)

/-- `saveFile` (289-303). -/
def saveFile (f : Fmt) (k : Kind) (file : Option (List Byte)) (w : List Byte) : Option (List Byte) :=
  match file with
  | none => none
  | some data => some (w ++ [kMark] ++ f.encHeader k data.length ++ data)

/-- The loop over the blocks of one Navy file (142-152): `data` is what was not read yet. -/
def saveNavyBlocks (f : Fmt) (junk : Junk) : Nat → List Byte → List Byte → List Byte
  | 0, _, w => w
  | n + 1, data, w =>
    saveNavyBlocks f junk n (data.drop f.B) (w ++ dataBlock f junk w.length (data.take f.B))

/-- The loop over the Navy files (140-153), from file `i` on, `n` files. -/
def saveNavyFiles (f : Fmt) (junk : Junk) (h : Host) (blocks : Nat) : Nat → Nat → List Byte → Option (List Byte)
  | _, 0, w => some w
  | i, n + 1, w =>
    match h.navy i with
    | none => none
    | some data => saveNavyFiles f junk h blocks (i + 1) n (saveNavyBlocks f junk blocks data w)

/-- `saveCache` (74-161): the bytes given to the writer, `none` if it throws. -/
def saveCache (f : Fmt) (m : Mgr) (junk : Junk) (h : Host) : Option (List Byte) := do
  let w : List Byte := [kBegin]
  -- versions, 83-103
  let buf := f.encVersions m.versions
  let header := f.encHeader .versions buf.length
  let w := w ++ le 8 header.length ++ header ++ buf
  -- configs, 106-111
  let buf := f.encConfig m.name
  let w := w ++ [kMark] ++ f.encHeader .configs buf.length ++ buf
  -- 114-115
  let w ← saveFile f .nvmCacheState h.stateFile w
  -- 118-131
  let w ← saveShm f junk .shmInfo (h.segs .info) w
  let w ← saveShm f junk .shmHT (h.segs .hashTable) w
  let w ← saveShm f junk .shmChainedItemHT (h.segs .chainedItemHashTable) w
  let w ← saveShm f junk .shmData (h.segs .cache) w
  -- navy, 134-154
  let w := w ++ [kMark] ++ f.encHeader .navyPartition m.navyFileSize
  let w ← saveNavyFiles f junk h (i32Count (alignedSize m.navyFileSize f.B / f.B)) 0 m.numNavyFiles w
  pure (w ++ [kEnd])

/-! ## Restoring -/

/-- Outcome of a part of `restoreCache`: a value, the rest of the stream and the host; an exception; undefined
behaviour (an access outside a buffer). -/
inductive Out (α : Type) where
  | ok (a : α) (rest : List Byte) (h : Host)
  | thrown (h : Host)
  | fault

/-- A part of `restoreCache`. -/
abbrev P (α : Type) := List Byte → Host → Out α

/-- Sequencing: an exception ends the execution (nothing in restoreCache catches). -/
def P.bind {α β} (p : P α) (g : α → P β) : P β := fun t h =>
  match p t h with
  | .ok a r h' => g a r h'
  | .thrown h' => .thrown h'
  | .fault => .fault

/-- Go on with `a`. -/
def P.pure {α} (a : α) : P α := fun t h => .ok a t h

/-- CACHELIB_CHECK_THROW of a failed condition. -/
def P.throw {α} : P α := fun _ h => .thrown h

/-- An access outside a buffer. -/
def P.bad {α} : P α := fun _ _ => .fault

/-- A change of the host. -/
def P.modify (g : Host → Host) : P Unit := fun t h => .ok () t (g h)

/-- CACHELIB_CHECK_THROW(c). -/
def P.check (c : Bool) : P Unit := if c then P.pure () else P.throw

/-- `PersistenceStreamReader::read(length)` (PersistenceManager.h:51-59).  A reader reports a short stream either by
throwing, as the comment there asks (`strict`), or by an empty buffer, as the reader of the repository's tests does
(tests/PersistenceManagerMock.h:73-82). -/
def readBuf (strict : Bool) (n : Nat) : P (List Byte) := fun t h =>
  if n ≤ t.length then .ok (t.take n) (t.drop n) h
  else if strict then .thrown h else .ok [] t h

/-- `PersistenceStreamReader::read()` (PersistenceManager.h:58; tests/PersistenceManagerMock.h:84-93). -/
def readChar (strict : Bool) : P Byte := fun t h =>
  match t with
  | c :: r => .ok c r h
  | [] => if strict then .thrown h else .ok 0 [] h

/-- `reader.read(n)` and the check of the length that follows (181-182, 191-192, 197-198, 206-207, 244-246, 375-376). -/
def readExact (strict : Bool) (n : Nat) : P (List Byte) :=
  (readBuf strict n).bind fun buf => (P.check (buf.length == n)).bind fun _ => P.pure buf

/-- `deserialize<T>` (PersistenceManager.h:167-171). -/
def deser {α} (x : Option α) : P α :=
  match x with
  | some a => P.pure a
  | none => P.throw

/-- `sizeof(DataBlock)`: packed, 61-63. -/
def blockSize (f : Fmt) : Nat := 8 + f.B

/-- `reader.read(sizeof(DataBlock))`, the checks, and `db.data`, `db.header.length` (244-248, 375-378, 69-71).
`validate` reads `header.length` bytes of `data`: outside the buffer if there are not that many. -/
def readBlock (f : Fmt) (strict : Bool) : P (List Byte) :=
  (readExact strict (blockSize f)).bind fun buf =>
    let checksum := de (buf.take 4)
    let length := de ((buf.drop 4).take 4)
    let data := buf.drop 8
    if data.length < length then P.bad
    else (P.check (checksum == f.crc (data.take length))).bind fun _ => P.pure (data.take length)

/-- Replacing a segment. -/
def setSeg (h : Host) (s : Seg) (v : Option (List Byte)) : Host :=
  { h with segs := fun x => if x = s then v else h.segs x }

/-- `restoreDataFromBlocks` (369-382): `n` more blocks, `size` the size of the segment, `done` the bytes already
copied to it; the rest of the segment is zero until then (a new segment). A copy past the end of the segment is a fault. -/
def restoreBlocks (f : Fmt) (strict : Bool) (s : Seg) (size : Nat) : Nat → List Byte → P Unit
  | 0, _ => P.pure ()
  | n + 1, done =>
    (readBlock f strict).bind fun d =>
      if size < done.length + d.length then P.bad
      else
        (P.modify fun h =>
          setSeg h s (some (done ++ d ++ List.replicate (size - (done ++ d).length) 0))).bind fun _ =>
          restoreBlocks f strict s size n (done ++ d)

/-- The cases ShmInfo … ShmData (211-235): `createShm`, which removes a segment of that name first
(ShmManager.cpp:300-341), and restoring the data. -/
def restoreShm (f : Fmt) (strict : Bool) (s : Seg) (size : Nat) : P Unit :=
  (P.modify fun h => setSeg h s (some (List.replicate size 0))).bind fun _ =>
    restoreBlocks f strict s size (numBlock32 size f.B) []

/-- Replacing a Navy file. -/
def setNavy (h : Host) (i : Nat) (v : List Byte) : Host :=
  { h with navy := fun j => if j = i then some v else h.navy j }

/-- 237-239: `int32_t navyFileSize = *header.length()` keeps 32 bits; `getAlignedSize<int32_t>` and the division mix
`int32_t` and `uint32_t`, which is arithmetic modulo 2^32. -/
def navyNumBlock (length B : Nat) : Nat :=
  let size := length % 2 ^ 32
  let aligned := if size % B = 0 then size else (size + B - size % B) % 2 ^ 32
  i32Count (aligned / B)

/-- The loop over the blocks of file `i` (243-252); `done` was written to it. -/
def restoreNavyBlocks (f : Fmt) (strict : Bool) (i : Nat) : Nat → List Byte → P Unit
  | 0, _ => P.pure ()
  | n + 1, done =>
    (readBlock f strict).bind fun d =>
      (P.modify fun h => setNavy h i (done ++ d)).bind fun _ => restoreNavyBlocks f strict i n (done ++ d)

/-- The loop over the Navy files (241-253); 242 truncates the file. -/
def restoreNavyFiles (f : Fmt) (strict : Bool) (blocks : Nat) : Nat → Nat → P Unit
  | _, 0 => P.pure ()
  | i, n + 1 =>
    (P.modify fun h => setNavy h i []).bind fun _ =>
      (restoreNavyBlocks f strict i blocks []).bind fun _ => restoreNavyFiles f strict blocks (i + 1) n

/-- `deserializeAndValidateVersions` (384-401). -/
def validateVersions (f : Fmt) (m : Mgr) (buf : List Byte) : P Unit :=
  (deser (f.decVersions buf)).bind fun v => P.check (v.persistence == m.versions.persistence)

/-- `restoreFile` (305-322). -/
def restoreFile (buf : List Byte) : P Unit :=
  if buf.length = 0 then P.pure () else P.modify fun h => { h with stateFile := some buf }

/-- `switch (*header.type())` (189-259). -/
def restoreSection (f : Fmt) (m : Mgr) (strict : Bool) (k : Kind) (dataLen : Nat) : P Unit :=
  match k with
  | .versions => (readExact strict dataLen).bind fun buf => validateVersions f m buf
  | .configs =>
    (readExact strict dataLen).bind fun buf =>
      (deser (f.decConfig buf)).bind fun c => P.check (c == m.name)
  | .nvmCacheState => (readExact strict dataLen).bind fun buf => restoreFile buf
  | .shmInfo => restoreShm f strict .info dataLen
  | .shmHT => restoreShm f strict .hashTable dataLen
  | .shmChainedItemHT => restoreShm f strict .chainedItemHashTable dataLen
  | .shmData => restoreShm f strict .cache dataLen
  | .navyPartition => restoreNavyFiles f strict (navyNumBlock dataLen f.B) 0 m.numNavyFiles

/-- `char mark = reader.read(); switch (mark)` (261-272): `true` to go on with the next section. -/
def readMark (strict : Bool) : P Bool :=
  (readChar strict).bind fun c =>
    if c = kMark then P.pure true else if c = kEnd then P.pure false else P.throw

/-- One iteration of the loop (181-272). -/
def restoreOne (f : Fmt) (m : Mgr) (strict : Bool) (headerLength : Nat) : P Bool :=
  (readExact strict headerLength).bind fun buf =>
    (deser (f.decHeader buf)).bind fun hd =>
      (restoreSection f m strict hd.1 hd.2).bind fun _ => readMark strict

/-- `while (true)` (180-273).  Each iteration uses up a byte at least, so that with the number of bytes plus one as
`fuel` it does not run out (`restoreLoop_fuel`); running out is a fault. -/
def restoreLoop (f : Fmt) (m : Mgr) (strict : Bool) (headerLength : Nat) : Nat → P Unit
  | 0 => P.bad
  | fuel + 1 =>
    (restoreOne f m strict headerLength).bind fun more =>
      if more then restoreLoop f m strict headerLength fuel else P.pure ()

/-- A host without segments (`ShmManager::cleanup`, 176, and `~ShmManager` without `shutDown`, ShmManager.cpp:264-281). -/
def dropSegs (h : Host) : Host := { h with segs := fun _ => none }

/-- 170-174: the first character and the length of the headers.  The length of the buffer is not checked: `cast` of an
empty buffer is a fault. -/
def restorePrefix (strict : Bool) : P Nat :=
  (readChar strict).bind fun c =>
    (P.check (c == kBegin)).bind fun _ =>
      (readBuf strict 8).bind fun buf => if buf.length < 8 then P.bad else P.pure (de buf)

/-- The result of `restoreCache` (163-274) and the host after it: 176 removes the segments of the directory, 178 keeps
the new ones only if there is no exception. -/
def restoreCache (f : Fmt) (m : Mgr) (strict : Bool) (t : List Byte) (h : Host) : Out Unit :=
  match restorePrefix strict t h with
  | .ok headerLength r h' =>
    match restoreLoop f m strict headerLength (r.length + 1) r (dropSegs h') with
    | .ok a r' h'' => .ok a r' h''
    | .thrown h'' => .thrown (dropSegs h'')
    | .fault => .fault
  | .thrown h' => .thrown h'
  | .fault => .fault

end Verif.Persist
