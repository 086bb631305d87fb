import Verif.Base.Chain
/-
Model of the large-object flash engine: `cachelib/navy/block_cache/{Region,RegionManager,Allocator,BlockCache}.{h,cpp}`.

The engine is a transition system.  A step is one critical section (of a region's `lock_`), one atomic access (the sequence
number), one index operation, one device access or one in-memory copy; steps of all threads interleave freely.  Simplifications:

* The index is an atomic map from hashes to slot-end addresses; that the index classes behave so is property C25.
* Each region id is in one place at a time: the clean list, a region allocator, a flush job, the eviction policy, a reclaim job.
  The code hands the id over by value (RegionManager.cpp:247-250, 494; Allocator.cpp:115,131; RegionManager.cpp:355, 368).
* Contents (of a buffer or of the device range of a region) are given as a function from the end offset of a slot to the entry
  that ends there with a right checksum, if any.  An entry that is overwritten even in part no longer passes its checksum, and a
  range that never held the entry does not pass it: checksums have no collisions.
* Buffers come from the pool with arbitrary contents, and a failed device write leaves arbitrary contents.
* Sequential consistency of the sequence number and the locked regions.
* `allowReadDuringReclaim` is true, as BlockCache.cpp:250 passes it.  Retries are not counted: more behaviours than the code.
* Statistics, priorities and waiting (condition variables) are left out: a step whose wait condition fails is not enabled.
* Combined entries (BlockCache.cpp:860-1044) are left out.  A restart is one step between two quiet states (`Restart`, `Wipe`);
  what is written to and read from the metadata is modelled in `Verif.Restart`.
-/
namespace Verif.BlockCache
open Verif

/-- RelAddress: region index and the end offset of a slot (Types.h; BlockCache.cpp:375-378: the index stores the END). -/
abbrev Addr := Nat × Nat

/-- What the descriptor, key and value bytes of an entry say (BlockCache.h EntryDesc, BlockCache.cpp:1320-1350). -/
structure Slot (K V : Type) where
  key : K
  val : V
deriving DecidableEq

/-- The hash (HashedKey), the size of an entry (`serializedSize`) and the region size. -/
structure Cfg (K V H : Type) where
  hash : K → H
  sz : K → V → Nat
  RS : Nat

/-- Contents by slot end. -/
abbrev Content (K V : Type) := Nat → Option (Slot K V)

/-- One slot handed out by a region; ghost: which entry it was meant for. -/
structure Alloc (K V : Type) where
  start : Nat
  stop : Nat
  slot : Slot K V
deriving DecidableEq

/-- Region.h:228-250.  `dev` is the device range of the region; `alloc` is a ghost: the slots handed out since the last reset,
newest first. -/
structure Reg (K V : Type) where
  block : Bool := false
  being : Bool := false
  pend : Bool := false
  flushed : Bool := false
  cleaned : Bool := false
  phys : Nat := 0
  inmem : Nat := 0
  writers : Nat := 0
  last : Nat := 0
  num : Nat := 0
  buf : Option (Content K V) := none
  dev : Content K V
  alloc : List (Alloc K V) := []

/-- Who holds the region id, and where that job is. -/
inductive Place
  /-- in `cleanRegions_` (RegionManager.cpp:494) -/
  | clean
  /-- the allocation region of a region allocator (Allocator.cpp:115) -/
  | ra
  /-- doFlushInternal (RegionManager.cpp:324-358): before the check for writers; before the device write; before setting
  kFlushed; before detaching the buffer; before tracking -/
  | flWait | flWrite | flMark | flDetach | flTrack
  /-- the flush was given up (RegionManager.cpp:342-348): before the wait for writers; walking the buffer, at this offset; before
  setting kCleanedup; before detaching; before the increment of the sequence number; before the reset -/
  | cuWait | cuWalk (o : Nat) | cuMark | cuDetach | cuSeq | cuReset
  /-- in the eviction policy -/
  | tracked
  /-- doReclaim (RegionManager.cpp:364-405): before marking; before the wait for writers is over; before reading the region;
  walking it (at this offset); in a reinsertion of the entry at this offset; before the increment of the sequence number; before
  blocking readers; before the wait for readers is over; before the reset -/
  | rcMark | rcWait | rcRead | rcEvict (o : Nat) | rcBusy (o : Nat) | rcSeq | rcBlock | rcDrain | rcFree
deriving DecidableEq

/-- Where a writing thread is: slot allocated; entry written; `replaceIfMatch` failed; index done, region to be closed. -/
inductive WPc
  | alloc | written | repFail | indexed
deriving DecidableEq

/-- A thread in BlockCache::insert (`old = none`) or in the reinsertion branch of reinsertOrRemoveItem (`old` is `currAddr`). -/
structure W (K V : Type) where
  key : K
  val : V
  rid : Nat
  start : Nat
  stop : Nat
  pc : WPc
  old : Option Addr
deriving DecidableEq

/-- Status of a lookup, with the value. -/
inductive Res (V : Type)
  | ok (v : V) | notFound | retry | checksum | devErr
deriving DecidableEq

/-- Where a thread in lookupInternal (BlockCache.cpp:352-463) is.  `t1` is a ghost: the length of the log when the index was
read. -/
inductive RPc (V : Type)
  | begin
  | seq (s : Nat)
  | found (s r e t1 : Nat)
  | opened (s r e : Nat) (phys : Bool) (t1 : Nat)
  | valid (r e : Nat) (phys : Bool) (t1 : Nat)
  | failed (r : Nat) (phys : Bool)
  | read (r e : Nat) (phys : Bool) (t1 : Nat) (res : Res V)
  | close (r : Nat) (phys : Bool) (t1 : Nat) (res : Res V)
  | done (t1 t2 : Nat) (res : Res V)
deriving DecidableEq

/-- A thread in a lookup of `key`; `t0` is a ghost: the length of the log when the lookup started. -/
structure Rd (K V : Type) where
  key : K
  t0 : Nat
  pc : RPc V
deriving DecidableEq

/-- The engine.  `log` is a ghost: the updates of the index by inserts (`some v`) and removes (`none`), oldest first.  `fault`
is a ghost: a flush was given up, or a reclaim could not read a region, found a bad header or caught an exception. -/
structure St (K V H : Type) where
  index : H → Option Addr
  seq : Nat
  reg : Nat → Reg K V
  place : Nat → Place
  ws : List (W K V)
  rds : List (Rd K V)
  log : List (K × Option V)
  fault : Bool

/-- The steps, with the choices that are not determined by the state. -/
inductive Act (K V : Type)
  | raGet (r : Nat) (b : Content K V) | raFull (r : Nat)
  | alloc (k : K) (v : V) (r : Nat) | write (w : W K V) | index (w : W K V) | closeW (w : W K V)
  | remove (k : K)
  | flCheck (r : Nat) | flOk (r : Nat) | flErr (r : Nat) (d : Content K V) | flMark (r : Nat) | flDetach (r : Nat) | flTrack (r : Nat)
  | flGiveUp (r : Nat) | cuStart (r : Nat) | cuStep (r : Nat) | cuDone (r : Nat) | cuMark (r : Nat) | cuDetach (r : Nat)
  | cuSeq (r : Nat) | cuReset (r : Nat)
  | rcPick (r : Nat) | rcMark (r : Nat) | rcReady (r : Nat) | rcRead (r : Nat) | rcReadErr (r : Nat) | rcEvict (r : Nat)
  | rcReins (r r2 : Nat) | rcBreak (r : Nat) | rcExc (r : Nat) | rcDone (r : Nat) | rcSeq (r : Nat) | rcBlock (r : Nat)
  | rcDrained (r : Nat) | rcReset (r : Nat)
  | replace (w : W K V) | repFail (w : W K V)
  | rdBegin (k : K) | rdSeq (x : Rd K V) | rdLook (x : Rd K V) | rdOpen (x : Rd K V) | rdScan (x : Rd K V) (r : Nat)
  | rdCheck (x : Rd K V) | rdRead (x : Rd K V) | rdDevErr (x : Rd K V) | rdAgain (x : Rd K V) | rdDrop (x : Rd K V)
  | rdClose (x : Rd K V) | rdFail (x : Rd K V) (again : Bool)

section
variable {K V H : Type} [DecidableEq K] [DecidableEq V] [DecidableEq H]

/-- `--x` of a uint32_t (Region.cpp:155,162,167).  Increments are not wrapped: fewer than 2^32 threads. -/
def dec32 (x : Nat) : Nat := if x = 0 then 2 ^ 32 - 1 else x - 1

/-- Region.cpp:51-66 openAndAllocate with Region.h:220-224 canAllocateLocked (32-bit sum, compared with a 64-bit size) and
Region.cpp:177-183 allocateLocked. -/
def Reg.openAndAllocate (RS : Nat) (g : Reg K V) (size : Nat) (sl : Slot K V) : Option (Reg K V × Nat) :=
  if (g.last + size) % 2 ^ 32 ≤ RS then
    some ({ g with writers := g.writers + 1, last := (g.last + size) % 2 ^ 32, num := g.num + 1,
                   alloc := ⟨g.last, (g.last + size) % 2 ^ 32, sl⟩ :: g.alloc }, g.last)
  else none

/-- Allocator.cpp:50-60 allocate (the check of the size), 68-78 allocateWith (the region of the allocator). -/
def allocate (c : Cfg K V H) (g : Reg K V) (k : K) (v : V) : Option (Reg K V × Nat) :=
  if c.sz k v = 0 ∨ c.RS < c.sz k v then none else g.openAndAllocate c.RS (c.sz k v) ⟨k, v⟩

/-- Region.cpp:68-87 openForRead: `none` is Retry; otherwise whether the read is from the device. -/
def Reg.openForRead (g : Reg K V) : Option (Reg K V × Bool) :=
  if g.block then none
  else if g.flushed || g.buf.isNone then some ({ g with phys := g.phys + 1 }, true)
  else some ({ g with inmem := g.inmem + 1 }, false)

/-- Region.cpp:150-175 close, write mode. -/
def Reg.closeWrite (g : Reg K V) : Reg K V := { g with writers := dec32 g.writers }

/-- Region.cpp:150-175 close, read mode. -/
def Reg.closeRead (g : Reg K V) (phys : Bool) : Reg K V :=
  { g with phys := if phys then dec32 g.phys else g.phys, inmem := if phys then g.inmem else dec32 g.inmem }

/-- Region.cpp:137-148 reset. -/
def Reg.reset (g : Reg K V) : Reg K V :=
  { g with block := false, being := false, pend := false, flushed := false, cleaned := false,
           writers := 0, phys := 0, inmem := 0, last := 0, num := 0, alloc := [] }

/-- BlockCache.cpp:1320-1350 writeEntry into the view [start, stop) of the buffer: entries it overlaps are destroyed. -/
def putSlot (sz : K → V → Nat) (b : Content K V) (start stop : Nat) (sl : Slot K V) : Content K V := fun e =>
  if e = stop then some sl
  else match b e with
    | none => none
    | some s => if start < e ∧ e - sz s.key s.val < stop then none else some s

/-- Index::removeIfMatch. -/
def removeIfMatch (ix : H → Option Addr) (h : H) (a : Addr) : H → Option Addr :=
  if ix h = some a then upd ix h none else ix

/-- RegionManager.cpp:702-722 read, then readEntry (BlockCache.cpp:1384-1446) for the expected key `k`.  One step: the region
is open.  (A read without an attached buffer would be a null dereference, Region.cpp:188-190: no step.) -/
def readEntry (g : Reg K V) (phys : Bool) (e : Nat) (k : K) : Option (Res V) :=
  match (if phys then some g.dev else g.buf) with
  | none => none
  | some b =>
    match b e with
    | none => some .checksum
    | some s => if s.key = k then some (.ok s.val) else some .notFound

/-- The entry that the walk of the region (BlockCache.cpp:677-708) finds to end at offset `o`, in the copy read from the device. -/
def Reg.entryDev (g : Reg K V) (o : Nat) : Option (Slot K V) := if o = 0 then none else g.dev o

/-- The same in the buffer (BlockCache.cpp:746-766). -/
def Reg.entryBuf (g : Reg K V) (o : Nat) : Option (Slot K V) :=
  match g.buf with
  | none => none
  | some b => if o = 0 then none else b o

def setReg (s : St K V H) (r : Nat) (g : Reg K V) : St K V H := { s with reg := upd s.reg r g }
def setPlace (s : St K V H) (r : Nat) (p : Place) : St K V H := { s with place := upd s.place r p }
def setW (s : St K V H) (w w' : W K V) : St K V H := { s with ws := w' :: s.ws.erase w }
def setRd (s : St K V H) (x x' : Rd K V) : St K V H := { s with rds := x' :: s.rds.erase x }

/-- The region of the new slot of a reinsertion or an insertion, and its thread. -/
def startW (s : St K V H) (r : Nat) (g : Reg K V) (k : K) (v : V) (start : Nat) (old : Option Addr) : St K V H :=
  { setReg s r g with ws := ⟨k, v, r, start, g.last, .alloc, old⟩ :: s.ws }

/-- The thread's slot and the buffer it is written to. -/
def writeW (c : Cfg K V H) (s : St K V H) (w : W K V) (b : Content K V) : St K V H :=
  setW (setReg s w.rid { s.reg w.rid with buf := some (putSlot c.sz b w.start w.stop ⟨w.key, w.val⟩) }) w { w with pc := .written }

/-- The end of reinsertOrRemoveItem: BlockCache.cpp:1237-1240 closes the region, then the walk moves on (735). -/
def afterClose (c : Cfg K V H) (pl : Nat → Place) (w : W K V) : Nat → Place :=
  match w.old with
  | none => pl
  | some a => upd pl a.1 (.rcEvict (a.2 - c.sz w.key w.val))

/-- One step. -/
def exec (c : Cfg K V H) (s : St K V H) : Act K V → Option (St K V H)
  -- RegionManager.cpp:233-294 getCleanRegion, 197-211 assignBufferToRegion; Allocator.cpp:110-115
  | .raGet r b =>
    if s.place r = .clean then
      some (setPlace (setReg s r { s.reg r with buf := some b }) r .ra)
    else none
  -- Allocator.cpp:126-133, RegionManager.cpp:296-322 doFlush, Region.h:180-186 setPendingFlush; when the region is full
  -- (Allocator.cpp:80-84) or at a flush of the engine (Allocator.cpp:135-)
  | .raFull r =>
    if s.place r = .ra then
      some (setPlace (setReg s r { s.reg r with pend := true }) r .flWait)
    else none
  -- BlockCache.cpp:293 allocateForInsert
  | .alloc k v r =>
    if s.place r = .ra then
      match allocate c (s.reg r) k v with
      | none => none
      | some (g, start) => some (startW s r g k v start none)
    else none
  -- BlockCache.cpp:301, 1244
  | .write w =>
    if w ∈ s.ws ∧ w.pc = .alloc then
      match (s.reg w.rid).buf with
      | none => none
      | some b => some (writeW c s w b)
    else none
  -- BlockCache.cpp:302, 308-337 updateIndex
  | .index w =>
    if w ∈ s.ws ∧ w.pc = .written ∧ w.old = none then
      some (setW { s with index := upd s.index (c.hash w.key) (some (w.rid, w.stop)), log := s.log ++ [(w.key, some w.val)] }
        w { w with pc := .indexed })
    else none
  -- BlockCache.cpp:303, 1237-1240
  | .closeW w =>
    if w ∈ s.ws ∧ w.pc = .indexed then
      some { setReg s w.rid (s.reg w.rid).closeWrite with ws := s.ws.erase w, place := afterClose c s.place w }
    else none
  -- BlockCache.cpp:593-606 removeImpl
  | .remove k => some { s with index := upd s.index (c.hash k) none, log := s.log ++ [(k, none)] }
  -- Region.cpp:106-113
  | .flCheck r =>
    if s.place r = .flWait ∧ (s.reg r).writers = 0 then
      some (setPlace s r (if (s.reg r).flushed then .flDetach else .flWrite))
    else none
  -- Region.cpp:114 and RegionManager.cpp:130-147, the device write succeeds
  | .flOk r =>
    if s.place r = .flWrite then
      match (s.reg r).buf with
      | none => none
      | some b => some (setPlace (setReg s r { s.reg r with dev := b }) r .flMark)
    else none
  -- Region.cpp:114,119: the device write fails and is retried (RegionManager.cpp:331-340)
  | .flErr r d =>
    if s.place r = .flWrite then
      some (setPlace (setReg s r { s.reg r with dev := d }) r .flWait)
    else none
  -- Region.cpp:115-117
  | .flMark r =>
    if s.place r = .flMark then
      some (setPlace (setReg s r { s.reg r with flushed := true }) r .flDetach)
    else none
  -- RegionManager.cpp:352, Region.cpp:89-100
  | .flDetach r =>
    if s.place r = .flDetach ∧ (s.reg r).inmem = 0 then
      some (setPlace (setReg s r { s.reg r with buf := none }) r .flTrack)
    else none
  -- RegionManager.cpp:355
  | .flTrack r => if s.place r = .flTrack then some (setPlace s r .tracked) else none
  -- RegionManager.cpp:342-345: the retry limit is reached
  | .flGiveUp r =>
    if s.place r = .flWait then some { setPlace s r .cuWait with fault := true } else none
  -- Region.cpp:124-131, BlockCache.cpp:742-745
  | .cuStart r =>
    if s.place r = .cuWait ∧ (s.reg r).writers = 0 then some (setPlace s r (.cuWalk (s.reg r).last)) else none
  -- BlockCache.cpp:746-790
  | .cuStep r =>
    match s.place r with
    | .cuWalk o =>
      match (s.reg r).entryBuf o with
      | none => none
      | some sl => some (setPlace { s with index := removeIfMatch s.index (c.hash sl.key) (r, o) } r
          (.cuWalk (o - c.sz sl.key sl.val)))
    | _ => none
  -- BlockCache.cpp:746, 751-765: the walk ends at offset 0 or at a header that fails its checksum
  | .cuDone r =>
    match s.place r with
    | .cuWalk o => if (s.reg r).entryBuf o = none then some (setPlace s r .cuMark) else none
    | _ => none
  -- Region.cpp:132-133
  | .cuMark r =>
    if s.place r = .cuMark then
      some (setPlace (setReg s r { s.reg r with cleaned := true }) r .cuDetach)
    else none
  -- RegionManager.cpp:171, Region.cpp:89-100
  | .cuDetach r =>
    if s.place r = .cuDetach ∧ (s.reg r).inmem = 0 then
      some (setPlace (setReg s r { s.reg r with buf := none }) r .cuSeq)
    else none
  -- RegionManager.cpp:181
  | .cuSeq r => if s.place r = .cuSeq then some (setPlace { s with seq := s.seq + 1 } r .cuReset) else none
  -- RegionManager.cpp:185-188
  | .cuReset r => if s.place r = .cuReset then some (setPlace (setReg s r (s.reg r).reset) r .clean) else none
  -- RegionManager.cpp:368 evict
  | .rcPick r => if s.place r = .tracked then some (setPlace s r .rcMark) else none
  -- Region.cpp:23-25
  | .rcMark r =>
    if s.place r = .rcMark then
      some (setPlace (setReg s r { s.reg r with being := true }) r .rcWait)
    else none
  -- Region.cpp:29-33, 45-49
  | .rcReady r =>
    if s.place r = .rcWait ∧ (s.reg r).writers = 0 then some (setPlace s r .rcRead) else none
  -- RegionManager.cpp:384-400, BlockCache.cpp:675
  | .rcRead r =>
    if s.place r = .rcRead then
      some (setPlace s r (if (s.reg r).num = 0 then .rcSeq else .rcEvict (s.reg r).last))
    else none
  -- RegionManager.cpp:390-398
  | .rcReadErr r => if s.place r = .rcRead then some { setPlace s r .rcSeq with fault := true } else none
  -- BlockCache.cpp:1145-1154, 1156-1180, 1189-1206, 1220-1236, then 735: the entry is removed from the index if the index still
  -- has this address (if the `peek` of 1156 does not find it, nothing happens, as here at that moment)
  | .rcEvict r =>
    match s.place r with
    | .rcEvict o =>
      match (s.reg r).entryDev o with
      | none => none
      | some sl => some (setPlace { s with index := removeIfMatch s.index (c.hash sl.key) (r, o) } r
          (.rcEvict (o - c.sz sl.key sl.val)))
    | _ => none
  -- BlockCache.cpp:1217-1222: a slot for the reinsertion (that the `peek` of 1156 found the address is not required)
  | .rcReins r r2 =>
    match s.place r with
    | .rcEvict o =>
      match (s.reg r).entryDev o with
      | none => none
      | some sl =>
        if s.place r2 = .ra then
          match allocate c (s.reg r2) sl.key sl.val with
          | none => none
          | some (g, start) => some (setPlace (startW s r2 g sl.key sl.val start (some (r, o))) r (.rcBusy o))
        else none
    | _ => none
  -- BlockCache.cpp:681-699: bad header checksum
  | .rcBreak r =>
    match s.place r with
    | .rcEvict o => if o ≠ 0 then some { setPlace s r .rcSeq with fault := true } else none
    | _ => none
  -- BlockCache.cpp:1181-1186: an exception in checkExpired or shouldReinsert
  | .rcExc r =>
    match s.place r with
    | .rcEvict o =>
      match (s.reg r).entryDev o with
      | none => none
      | some sl => some { setPlace s r (.rcEvict (o - c.sz sl.key sl.val)) with fault := true }
    | _ => none
  -- BlockCache.cpp:676: the walk is over
  | .rcDone r => if s.place r = .rcEvict 0 then some (setPlace s r .rcSeq) else none
  -- RegionManager.cpp:478
  | .rcSeq r => if s.place r = .rcSeq then some (setPlace { s with seq := s.seq + 1 } r .rcBlock) else none
  -- RegionManager.cpp:482, Region.cpp:37-39
  | .rcBlock r =>
    if s.place r = .rcBlock then
      some (setPlace (setReg s r { s.reg r with block := true }) r .rcDrain)
    else none
  -- Region.cpp:40-42
  | .rcDrained r =>
    if s.place r = .rcDrain ∧ (s.reg r).inmem = 0 ∧ (s.reg r).phys = 0 then some (setPlace s r .rcFree) else none
  -- RegionManager.cpp:486-494
  | .rcReset r =>
    if s.place r = .rcFree then some (setPlace (setReg s r (s.reg r).reset) r .clean) else none
  -- BlockCache.cpp:1245-1260 replaceIfMatch
  | .replace w =>
    if w ∈ s.ws ∧ w.pc = .written ∧ w.old ≠ none then
      if s.index (c.hash w.key) = w.old then
        some (setW { s with index := upd s.index (c.hash w.key) (some (w.rid, w.stop)) } w { w with pc := .indexed })
      else some (setW s w { w with pc := .repFail })
    else none
  -- BlockCache.cpp:1253 removeItem(false)
  | .repFail w =>
    if w ∈ s.ws ∧ w.pc = .repFail then
      match w.old with
      | none => none
      | some a => some (setW { s with index := removeIfMatch s.index (c.hash w.key) a } w { w with pc := .indexed })
    else none
  -- BlockCache.cpp:353-365
  | .rdBegin k => some { s with rds := ⟨k, s.log.length, .begin⟩ :: s.rds }
  -- BlockCache.cpp:368
  | .rdSeq x => if x ∈ s.rds ∧ x.pc = .begin then some (setRd s x { x with pc := .seq s.seq }) else none
  -- BlockCache.cpp:369-378
  | .rdLook x =>
    if x ∈ s.rds then
      match x.pc with
      | .seq q =>
        match s.index (c.hash x.key) with
        | none => some (setRd s x { x with pc := .done s.log.length s.log.length .notFound })
        | some a => some (setRd s x { x with pc := .found q a.1 a.2 s.log.length })
      | _ => none
    else none
  -- RegionManager.cpp:412-416; on Retry the lookup starts over or returns Retry (BlockCache.cpp:397, 453-455)
  | .rdOpen x =>
    if x ∈ s.rds then
      match x.pc with
      | .found q r e t1 =>
        match (s.reg r).openForRead with
        | none => none
        | some (g, phys) => some (setRd (setReg s r g) x { x with pc := .opened q r e phys t1 })
      | _ => none
    else none
  -- an opening of a region whose contents are not returned by a lookup: onKeyHashRetrievalFromLocation (BlockCache.cpp:801-819),
  -- getRandomAlloc (504-522)
  | .rdScan x r =>
    if x ∈ s.rds ∧ x.pc = .begin then
      match (s.reg r).openForRead with
      | none => none
      | some (g, phys) => some (setRd (setReg s r g) x { x with pc := .failed r phys })
    else none
  -- RegionManager.cpp:452-459
  | .rdCheck x =>
    if x ∈ s.rds then
      match x.pc with
      | .opened q r e phys t1 =>
        some (setRd s x { x with pc := if s.seq = q then .valid r e phys t1 else .failed r phys })
      | _ => none
    else none
  -- BlockCache.cpp:407, 1352-1447
  | .rdRead x =>
    if x ∈ s.rds then
      match x.pc with
      | .valid r e phys t1 =>
        match readEntry (s.reg r) phys e x.key with
        | none => none
        | some res => some (setRd s x { x with pc := .read r e phys t1 res })
      | _ => none
    else none
  -- BlockCache.cpp:1379-1382
  | .rdDevErr x =>
    if x ∈ s.rds then
      match x.pc with
      | .valid r e true t1 => some (setRd s x { x with pc := .read r e true t1 .devErr })
      | _ => none
    else none
  -- BlockCache.cpp:415-418
  | .rdAgain x =>
    if x ∈ s.rds then
      match x.pc with
      | .read r e phys t1 .checksum => some (setRd s x { x with pc := .valid r e phys t1 })
      | _ => none
    else none
  -- BlockCache.cpp:408-414, 425-432; otherwise the result stands
  | .rdDrop x =>
    if x ∈ s.rds then
      match x.pc with
      | .read r e phys t1 res =>
        if res = .checksum ∨ res = .devErr then
          some (setRd { s with index := removeIfMatch s.index (c.hash x.key) (r, e) } x { x with pc := .close r phys t1 res })
        else some (setRd s x { x with pc := .close r phys t1 res })
      | _ => none
    else none
  -- BlockCache.cpp:406
  | .rdClose x =>
    if x ∈ s.rds then
      match x.pc with
      | .close r phys t1 res =>
        some (setRd (setReg s r ((s.reg r).closeRead phys)) x { x with pc := .done t1 s.log.length res })
      | _ => none
    else none
  -- RegionManager.cpp:457-458 (and Region.cpp:70-77), then BlockCache.cpp:397 or 453-455
  | .rdFail x again =>
    if x ∈ s.rds then
      match x.pc with
      | .failed r phys =>
        some (setRd (setReg s r ((s.reg r).closeRead phys)) x
          { x with pc := if again then .begin else .done s.log.length s.log.length .retry })
      | .found _ r _ _ =>
        if (s.reg r).block then
          some (setRd s x { x with pc := if again then .begin else .done s.log.length s.log.length .retry })
        else none
      | _ => none
    else none

/-- A fresh engine: every region is in the eviction policy (RegionManager.cpp:80, 654-), with no items; the device has any
contents. -/
def init (dev : Nat → Content K V) : St K V H :=
  { index := fun _ => none, seq := 0, reg := fun r => { dev := dev r }, place := fun _ => .tracked, ws := [], rds := [], log := [],
    fault := false }

/-- Nothing is in progress: the state that `Driver::flush` (Driver.cpp:239-251, BlockCache.cpp:1449-1455) is to bring about
before `persist`: no writers, no lookups, no flush or reclaim job, no allocation region. -/
structure Quiet (s : St K V H) : Prop where
  ws : s.ws = []
  rds : ∀ x ∈ s.rds, ∃ t1 t2 res, x.pc = .done t1 t2 res
  place : ∀ r, s.place r = .clean ∨ s.place r = .tracked

/-- Region.h:67-72: the region made from what RegionManager.cpp:528-534 saved; the device keeps its contents.  The slots are a
ghost. -/
def Reg.restored (g : Reg K V) : Reg K V := { last := g.last, num := g.num, dev := g.dev, alloc := g.alloc }

/-- BlockCache.cpp:1557-1570 persist, the end of the process, and BlockCache.cpp:1572-1599 recover in a new one: the index is
restored (C25), so are the regions (RegionManager.cpp:557-573), the sequence number starts at 0 (RegionManager.h, 122), and
every region is in the eviction policy or, if it has no items, in the clean list (RegionManager.cpp:575-606). -/
structure Restart (s s' : St K V H) : Prop where
  index : s'.index = s.index
  seq : s'.seq = 0
  reg : ∀ r, s'.reg r = (s.reg r).restored
  place : ∀ r, s'.place r = .tracked ∨ (s'.place r = .clean ∧ (s.reg r).num = 0)
  ws : s'.ws = s.ws
  rds : s'.rds = s.rds
  log : s'.log = s.log
  fault : s'.fault = s.fault

/-- A recovery that fails, and BlockCache.cpp:1457-1477 reset with RegionManager.cpp:107-126: everything is forgotten. -/
structure Wipe (s s' : St K V H) : Prop where
  index : ∀ h, s'.index h = none
  seq : s'.seq = 0
  reg : ∀ r, s'.reg r = (s.reg r).reset
  place : ∀ r, s'.place r = .tracked
  ws : s'.ws = s.ws
  rds : s'.rds = s.rds
  log : s'.log = s.log
  fault : s'.fault = s.fault

/-- The states of a run of the engine, over any number of restarts. -/
inductive Reach (c : Cfg K V H) : St K V H → Prop
  | init (dev) : Reach c (init dev)
  | step {s s'} (a : Act K V) : Reach c s → exec c s a = some s' → Reach c s'
  | restart {s s'} : Reach c s → Quiet s → Restart s s' → Reach c s'
  | wipe {s s'} : Reach c s → Quiet s → Wipe s s' → Reach c s'

/-- A run of given steps. -/
def runs (c : Cfg K V H) (s : St K V H) : List (Act K V) → Option (St K V H)
  | [] => some s
  | a :: as => match exec c s a with
    | none => none
    | some s' => runs c s' as

end
end Verif.BlockCache
