import Verif.Base.Bytes
import Verif.Base.Chain
/-
Model of `cachelib/navy/block_cache/CombinedEntryBlock.{h,cpp}` (C60), at the level of the bytes of its buffer.

Memory is byte addressed from the beginning of the buffer. An access that is not inside the buffer gives `none`, undefined
behaviour. Positions and counters wrap as uint16_t. A record (Index.h:187-194, packed) is a number of 40 bits. The padding of
EntryPosInfo (bytes 19 to 23) is not written by the model; the code may write anything there. The F14 maps are functions; in
keysForBids_ 0 means that there is no such key (decreaseKeysForBid erases it). That EntryPosInfo is at an address that is not a
multiple of 8 is left out.
-/
namespace Verif.Ceb
open Verif

/-- CombinedEntryBlock.h:29-35. -/
inductive Status | ok | updated | full | notFound | error
deriving DecidableEq, Repr

/-- CombinedEntryBlock.h:196-218. -/
structure Blk where
  size : Nat
  mem : Mem
  cur : Nat
  valid : Nat := 0
  keys : Nat → Option Nat := fun _ => none
  bids : Nat → Nat := fun _ => 0
  readMode : Bool := false

/-- A load of `n` bytes at `o` in the buffer. -/
def Blk.ld (b : Blk) (o n : Nat) : Option Nat := if o + n ≤ b.size then some (b.mem.load o n) else none

/-- A store of `n` bytes at `o` in the buffer. -/
def Blk.st (b : Blk) (o n v : Nat) : Option Blk := if o + n ≤ b.size then some { b with mem := b.mem.store o n v } else none

/-- CombinedEntryBlock.h:152-154 entryPosInfoRef: the offset of EntryPosInfo number `i`, after the header of 12 bytes (179-185).
Its fields (129-139): bid at 0, key at 8, pos at 16, flag at 18. -/
def info (i : Nat) : Nat := 12 + 24 * i

/-- CombinedEntryBlock.h:171-174 initHeader; the signature is "CEBENTRY". -/
def Blk.initHeader (b : Blk) : Option Blk := do
  let b ← b.st 0 8 0x5952544e45424543
  b.st 8 4 0

/-- CombinedEntryBlock.h:65-73 and 75-82: a new block, in memory with any contents. -/
def Blk.new (size : Nat) (mem : Mem) : Option Blk := Blk.initHeader { size := size, mem := mem, cur := size }

/-- CombinedEntryBlock.h:87-96: a block from flash. -/
def Blk.ofFlash (size : Nat) (mem : Mem) : Blk := { size := size, mem := mem, cur := 0, readMode := true }

/-- CombinedEntryBlock.h:161 increaseKeysForBid. -/
def Blk.inc (b : Blk) (bid : Nat) : Blk := { b with bids := upd b.bids bid ((b.bids bid + 1) % 65536) }

/-- CombinedEntryBlock.h:163-169 decreaseKeysForBid. -/
def Blk.dec (b : Blk) (bid : Nat) : Blk := { b with bids := upd b.bids bid ((b.bids bid + 65535) % 65536) }

/-- CombinedEntryBlock.cpp:40-61: the key was stored before, as number `i`. -/
def Blk.rewrite (b : Blk) (i bid rec : Nat) : Option (Blk × Status) := do
  let pos ← b.ld (info i + 16) 2
  let b ← b.st pos 5 rec
  let flag ← b.ld (info i + 18) 1
  if flag % 2 = 1 then
    let b ← b.st (info i + 18) 1 (flag - 1)
    let b ← b.st (info i) 8 bid
    some (Blk.inc { b with valid := (b.valid + 1) % 65536 } bid, .ok)
  else
    let old ← b.ld (info i) 8
    if old ≠ bid then
      let b ← ((b.dec old).inc bid).st (info i) 8 bid
      some (b, .updated)
    else some (b, .updated)

/-- CombinedEntryBlock.cpp:63-79: the key is new; `n` entries are stored. -/
def Blk.append (b : Blk) (n bid key rec : Nat) : Option (Blk × Status) :=
  let pos := (b.cur + 65536 - 5) % 65536
  if pos < (info ((n + 1) % 65536)) % 65536 then some (b, .full)
  else do
    let i := n % 65536
    let b ← b.st pos 5 rec
    let b ← b.st (info i) 8 bid
    let b ← b.st (info i + 8) 8 key
    let b ← b.st (info i + 16) 2 pos
    let b ← b.st (info i + 18) 1 0
    let b := { b with keys := upd b.keys key (some i) }
    let b ← (b.inc bid).st 8 4 (n + 1)
    some ({ b with valid := (b.valid + 1) % 65536, cur := pos }, .ok)

/-- CombinedEntryBlock.cpp:23-80 addIndexEntry. -/
def Blk.add (b : Blk) (bid key rec : Nat) : Option (Blk × Status) :=
  if b.readMode then some (b, .error)
  else do
    let n ← b.ld 8 4
    match b.keys key with
    | some i => b.rewrite i bid rec
    | none => b.append n bid key rec

/-- CombinedEntryBlock.cpp:82-97 getIndexEntry. -/
def Blk.get (b : Blk) (key : Nat) : Option (Option Nat) :=
  if b.readMode then some none
  else
    match b.keys key with
    | none => some none
    | some i => do
      let flag ← b.ld (info i + 18) 1
      if flag % 2 = 1 then some none
      else do
        let pos ← b.ld (info i + 16) 2
        let r ← b.ld pos 5
        some (some r)

/-- CombinedEntryBlock.cpp:99-123 removeIndexEntry. -/
def Blk.remove (b : Blk) (key : Nat) : Option (Blk × Status) :=
  if b.readMode then some (b, .error)
  else
    match b.keys key with
    | none => some (b, .notFound)
    | some i => do
      let flag ← b.ld (info i + 18) 1
      if flag % 2 = 1 then some (b, .notFound)
      else do
        let bid ← b.ld (info i) 8
        let b ← b.st (info i + 18) 1 (flag + 1)
        let b := b.dec bid
        some ({ b with valid := (b.valid + 65535) % 65536 }, .ok)

/-- CombinedEntryBlock.cpp:125-134 peekIndexEntry. -/
def Blk.peek (b : Blk) (key : Nat) : Option Bool :=
  if b.readMode then some false
  else
    match b.keys key with
    | none => some false
    | some i => do
      let flag ← b.ld (info i + 18) 1
      some (flag % 2 == 0)

/-- CombinedEntryBlock.cpp:136-147 clear. -/
def Blk.clear (b : Blk) : Option Blk :=
  Blk.initHeader { b with keys := fun _ => none, bids := fun _ => 0, valid := 0, cur := b.size }

/-- CombinedEntryBlock.h:116 numStoredEntries. -/
def Blk.numStored (b : Blk) : Option Nat := b.ld 8 4

/-- Calls. -/
inductive Op
  | add (bid key rec : Nat) | get (key : Nat) | remove (key : Nat) | peek (key : Nat) | clear | numStored | numValid | bid (bid : Nat)

/-- Results. -/
inductive Res
  | status (s : Status) | entry (r : Option Nat) | bool (b : Bool) | num (n : Nat) | unit
deriving DecidableEq, Repr

/-- A call; numValidEntries and getStoredBids are CombinedEntryBlock.h:118, 127. -/
def Blk.step (b : Blk) : Op → Option (Blk × Res)
  | .add d k r => (b.add d k r).map fun x => (x.1, .status x.2)
  | .get k => (b.get k).map fun x => (b, .entry x)
  | .remove k => (b.remove k).map fun x => (x.1, .status x.2)
  | .peek k => (b.peek k).map fun x => (b, .bool x)
  | .clear => b.clear.map fun x => (x, .unit)
  | .numStored => b.numStored.map fun x => (b, .num x)
  | .numValid => some (b, .num b.valid)
  | .bid d => some (b, .num (b.bids d))

/-- A sequence of calls. -/
def Blk.run (b : Blk) : List Op → Option (Blk × List Res)
  | [] => some (b, [])
  | o :: os => do
    let x ← b.step o
    let y ← Blk.run x.1 os
    some (y.1, x.2 :: y.2)

end Verif.Ceb
