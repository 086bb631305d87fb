/-
Model of Navy's device layer (navy/common/Device.{h,cpp}, Buffer.h, Utils.h): Device::write / read with alignment, splitting and
encryption, and FileDevice with RAID0 over several files, with synchronous and asynchronous IO.  Any number of calls are in
progress at the same time; one step is one IO operation on one file.

What is simplified:
* A buffer is a function from indices to bytes, with a size.  Memory that was not written has arbitrary contents, given by the
  action.
* An IO operation that reports the whole size has transferred all of it (pread, pwrite, io_uring, NVMe).  One that does not may
  have left anything in the range it was to write, or in its part of the buffer.  It takes effect in one step, when it completes.
* Which IO context is used (getIoContext, Device.cpp:1069-1135) is chosen freely for every IOReq.  The limit on outstanding
  operations is in Queue.lean, NVMe commands are in Fdp.lean.
* MemoryDevice (Device.cpp:370-430) is the case of one file, of operations that do not fail.
* uint64_t offsets do not overflow.  Statistics and log messages are left out.
* XDCHECKs are left out (they do nothing in a release build); XCHECK (452, 529) is `none`.
-/
namespace Verif.NavyDevice

abbrev Byte := UInt8

/-- DeviceEncryptor (Device.h:34-55): `enc data size salt`, `none` if false is returned. -/
structure Encryptor where
  block : Nat
  enc : (Nat → Byte) → Nat → Nat → Option (Nat → Byte)
  dec : (Nat → Byte) → Nat → Nat → Option (Nat → Byte)

/-- What a device is made of: Device.h:225-243, Device.cpp:337-344. -/
structure Cfg where
  nfiles : Nat
  fileSize : Nat
  stripe : Nat
  align : Nat
  maxIO : Nat
  maxWrite : Nat
  fdp : Bool := false
  enc : Option Encryptor := none

/-- Checks that throw: Device.h:107-125, Device.cpp:1006-1018. -/
def Cfg.accepted (c : Cfg) : Bool :=
  c.align != 0 && (match c.enc with | some e => e.block == c.align | none => true) &&
  c.maxWrite % c.align == 0 && c.maxIO % c.align == 0 && (c.nfiles ≤ 1 || c.fileSize % c.stripe == 0)

/-- getSize (Device.h:182, Device.cpp:995). -/
def Cfg.size (c : Cfg) : Nat := c.fileSize * c.nfiles

/-- `x & ~(a - 1)` in 64 bits (Utils.h:52, Device.cpp:552). -/
def maskDown (x a : Nat) : Nat := x &&& (2 ^ 64 - 1 - (a - 1))

/-- powTwoAlign (Utils.h:50-53), getIOAlignedSize (Device.h:130-132). -/
def powTwoAlign (size boundary : Nat) : Nat := maskDown (size + (boundary - 1)) boundary

/-- Narrowing to uint32_t (Device.h:188-192, 218). -/
def u32 (x : Nat) : Nat := x % 4294967296

/-- An IOOp (Device.cpp:57-99): which file, where in it, how much, and where in the buffer of the IOReq. -/
structure Op where
  fd : Nat
  off : Nat
  size : Nat
  buf : Nat
deriving DecidableEq, Repr

/-- The loop of IOReq::IOReq for several files (Device.cpp:663-677).  The fuel is the number of bytes. -/
def raidOps (S n : Nat) : Nat → Nat → Nat → Nat → List Op
  | 0, _, _, _ => []
  | f + 1, off, size, buf =>
    if size > 0 then
      let stripe := off / S
      let fdIdx := stripe % n
      let stripeStart := stripe / n * S
      let ioOff := off % S
      let allowed := min size (S - ioOff)
      ⟨fdIdx, stripeStart + ioOff, allowed, buf⟩ :: raidOps S n f (off + allowed) (size - allowed) (buf + allowed)
    else []

/-- The operations of an IOReq (Device.cpp:656-681). -/
def Cfg.ops (c : Cfg) (off size : Nat) : List Op :=
  if c.nfiles > 1 then raidOps c.stripe c.nfiles size off size 0 else [⟨0, off, size, 0⟩]

/-- An IOReq being processed (Device.cpp:103-162): operations that are not complete with the number of times they were submitted
again (IOOp::resubmitted_, 93, uint8_t), the result so far, the bytes that the caller counts, the context, its retry limit (292). -/
structure Req where
  pend : List (Op × Nat)
  ok : Bool
  len : Nat
  sync : Bool
  limit : Nat

/-- A call of Device::write or read that has not returned: what the user asked for (`uoff`, `usize`, `udata`), what is transferred
(`off`, `size`, `data`: the bytes to write, or the buffer that is read into), and how far it is. -/
structure Call where
  wr : Bool
  uoff : Nat
  usize : Nat
  udata : Nat → Byte
  off : Nat
  size : Nat
  data : Nat → Byte
  pos : Nat := 0
  req : Option Req := none

/-- What the user sees: a write that returned, a read that returned (with the bytes, or an error). -/
inductive Ev
  | wrote (off size : Nat) (data : Nat → Byte) (ok : Bool)
  | didRead (off size : Nat) (res : Option (Nat → Byte))

/-- The files, the calls in progress and the returned calls, newest first. -/
structure World where
  disk : Nat → Nat → Byte
  calls : Nat → Option Call := fun _ => none
  log : List Ev := []

def World.setCall (w : World) (id : Nat) (x : Option Call) : World :=
  { w with calls := fun i => if i = id then x else w.calls i }

/-- `l` copied over `m` at [off, off + n). -/
def splice (m : Nat → Byte) (off n : Nat) (l : Nat → Byte) : Nat → Byte :=
  fun o => if off ≤ o ∧ o < off + n then l (o - off) else m o

/-- encryptor_->encrypt, or nothing if there is no encryptor (Device.cpp:451-458).  Outer `none`: XCHECK fails. -/
def Cfg.encrypt (c : Cfg) (data : Nat → Byte) (size off : Nat) : Option (Option (Nat → Byte)) :=
  match c.enc with
  | none => some (some data)
  | some e => if off % e.block = 0 then some (e.enc data size off) else none

/-- encryptor_->decrypt (Device.cpp:528-537). -/
def Cfg.decrypt (c : Cfg) (data : Nat → Byte) (size off : Nat) : Option (Option (Nat → Byte)) :=
  match c.enc with
  | none => some (some data)
  | some e => if off % e.block = 0 then some (e.dec data size off) else none

/-- Device::write(Buffer) until the loop of writeInternal (Device.cpp:446-468). `uoff usize udata` are for the log only. -/
def World.writeBuffer (w : World) (c : Cfg) (id uoff usize : Nat) (udata : Nat → Byte) (off size : Nat) (data : Nat → Byte) :
    Option World :=
  match c.encrypt data size off with
  | none => none
  | some none => some { w with log := .wrote uoff usize udata false :: w.log }
  | some (some d) => some (w.setCall id (some { wr := true, uoff, usize, udata, off, size, data := d }))

/-- Device::write(BufferView) (Device.cpp:433-444).  `pad` is what was in the memory of the new buffer (Device.h:136-138). -/
def World.writeView (w : World) (c : Cfg) (id off size : Nat) (data pad : Nat → Byte) : Option World :=
  if c.enc.isSome then
    w.writeBuffer c id off size data off (powTwoAlign size c.align) (splice pad 0 size data)
  else
    some (w.setCall id (some { wr := true, uoff := off, usize := size, udata := data, off, size, data }))

/-- Device::read into a Buffer, until the loop of readInternal (Device.cpp:549-557, 501-508).  `mem` is what was in the memory of
the buffer.  readInternal takes the size as uint32_t. -/
def World.readBuffer (w : World) (c : Cfg) (id off size : Nat) (mem : Nat → Byte) : World :=
  let readOffset := maskDown off c.align
  let prefixSize := off &&& (c.align - 1)
  let readSize := powTwoAlign (prefixSize + size) c.align
  w.setCall id (some { wr := false, uoff := off, usize := size, udata := mem, off := readOffset, size := u32 readSize, data := mem })

/-- Device::read into memory of the caller (Device.cpp:568-570). -/
def World.readInto (w : World) (id off size : Nat) (mem : Nat → Byte) : World :=
  w.setCall id (some { wr := false, uoff := off, usize := size, udata := mem, off, size := u32 size, data := mem })

/-- The size of the next part (Device.cpp:466-470, 505-510). -/
def Call.chunk (x : Call) (c : Cfg) : Nat :=
  let m := if x.wr then c.maxWrite else c.maxIO
  min (if m = 0 then x.size else m) (x.size - x.pos)

/-- One more turn of the loop: writeImpl / readImpl make an IOReq (Device.cpp:475, 515, 1041-1061, 639-684, 768-771). -/
def World.chunk (w : World) (c : Cfg) (id : Nat) (sync : Bool) (limit : Nat) : Option World :=
  match w.calls id with
  | some x =>
    match x.req with
    | some _ => none
    | none =>
      if x.size - x.pos > 0 then
        let r : Req := { pend := (c.ops (x.off + x.pos) (u32 (x.chunk c))).map (·, 0), ok := true, len := x.chunk c, sync, limit }
        some (w.setCall id (some { x with req := some r }))
      else none
  | none => none

/-- Whether the device did all of the operation: NVMe commands answer 0, others the number of bytes. -/
def hwFull (fdp : Bool) (size : Nat) (res : Int) : Bool := if fdp then res == 0 else res == (size : Int)

/-- The length that IOOp::done is called with (Device.cpp:809, 884-889). -/
def doneLen (fdp : Bool) (size : Nat) (res : Int) : Int :=
  if fdp then (if res == 0 then (size : Int) else 0) else res

/-- An operation completes with the answer `res` of the device (SyncIoContext::submitIo 797-810; AsyncIoContext::handleCompletion
854-897; IOOp::done 607-633; IOReq::notifyOpResult 714-727; IoContext::submitReq 771-777).  `junk` is what is left where the
operation was to write if it did not do all of it.  -11 is -EAGAIN. -/
def World.io (w : World) (c : Cfg) (id k : Nat) (res : Int) (junk : Nat → Byte) : Option World :=
  match w.calls id with
  | none => none
  | some x =>
    match x.req with
    | none => none
    | some r =>
      match r.pend[k]? with
      | none => none
      | some (op, cnt) =>
        if r.sync && k != 0 then none else
        let fdp := c.fdp && !r.sync
        let full := hwFull fdp op.size res
        let disk' := if x.wr then
            fun f => if f = op.fd then splice (w.disk f) op.off op.size (if full then fun i => x.data (x.pos + op.buf + i) else junk)
              else w.disk f
          else w.disk
        let data' := if x.wr then x.data
          else splice x.data (x.pos + op.buf) op.size (if full then fun i => w.disk op.fd (op.off + i) else junk)
        let r' :=
          if !r.sync && res == -11 && cnt < r.limit then { r with pend := r.pend.set k (op, (cnt + 1) % 256) }
          else
            let result := doneLen fdp op.size res == (op.size : Int)
            { r with ok := r.ok && result, pend := if r.sync && !result then [] else r.pend.eraseIdx k }
        some (({ w with disk := disk' } : World).setCall id (some { x with data := data', req := some r' }))

/-- What the user gets from a read whose decrypted buffer is `d`: trimStart, shrink (Device.cpp:561-562). -/
def Call.trimmed (x : Call) (d : Nat → Byte) : Nat → Byte := fun i => d (x.uoff - x.off + i)

/-- The call returns false (Device.cpp:482-484, 519-522). -/
def Call.failed (x : Call) : Ev :=
  if x.wr then .wrote x.uoff x.usize x.udata false else .didRead x.uoff x.usize none

/-- waitCompletion returns; on an error the call returns (Device.cpp:479-487, 519-526). -/
def World.chunkDone (w : World) (id : Nat) : Option World :=
  match w.calls id with
  | none => none
  | some x =>
    match x.req with
    | none => none
    | some r =>
      match r.pend with
      | _ :: _ => none
      | [] =>
        if r.ok then some (w.setCall id (some { x with pos := x.pos + r.len, req := none }))
        else some { w.setCall id none with log := x.failed :: w.log }

/-- All parts are done (Device.cpp:492, 528-538, 558-563). -/
def World.ret (w : World) (c : Cfg) (id : Nat) : Option World :=
  match w.calls id with
  | none => none
  | some x =>
    match x.req with
    | some _ => none
    | none =>
      if x.size - x.pos > 0 then none
      else if x.wr then some { w.setCall id none with log := .wrote x.uoff x.usize x.udata true :: w.log }
      else
        match c.decrypt x.data x.size x.off with
        | none => none
        | some none => some { w.setCall id none with log := .didRead x.uoff x.usize none :: w.log }
        | some (some d) => some { w.setCall id none with log := .didRead x.uoff x.usize (some (x.trimmed d)) :: w.log }

/-- What can happen. -/
inductive Act
  | writeBuffer (id off size : Nat) (data : Nat → Byte)
  | writeView (id off size : Nat) (data pad : Nat → Byte)
  | readBuffer (id off size : Nat) (mem : Nat → Byte)
  | readInto (id off size : Nat) (mem : Nat → Byte)
  | chunk (id : Nat) (sync : Bool) (limit : Nat)
  | io (id k : Nat) (res : Int) (junk : Nat → Byte)
  | chunkDone (id : Nat)
  | ret (id : Nat)

def World.exec (w : World) (c : Cfg) : Act → Option World
  | .writeBuffer id off size data => w.writeBuffer c id off size data off size data
  | .writeView id off size data pad => w.writeView c id off size data pad
  | .readBuffer id off size mem => some (w.readBuffer c id off size mem)
  | .readInto id off size mem => some (w.readInto id off size mem)
  | .chunk id sync limit => w.chunk c id sync limit
  | .io id k res junk => w.io c id k res junk
  | .chunkDone id => w.chunkDone id
  | .ret id => w.ret c id

def World.runs (c : Cfg) : World → List Act → Option World
  | w, [] => some w
  | w, a :: as => match w.exec c a with | none => none | some w' => w'.runs c as

/-- The sizes that createDirectIoFileDevice passes on (Device.cpp:1257-1290): (maxIOSize, maxDeviceWriteSize).  `fdp` is `none` if
FDP is not asked for, `some none` if it could not be enabled, otherwise the largest transfer of the device (0: unlimited). -/
def createSizes (maxW : Nat) (fdp : Option (Option Nat)) : Nat × Nat :=
  let maxIO := match fdp with
    | none => maxW
    | some none => 0
    | some (some m) => if m != 0 && (maxW == 0 || m < maxW) then m else maxW
  (maxIO, if maxIO != 0 then min maxW maxIO else maxW)

end Verif.NavyDevice
