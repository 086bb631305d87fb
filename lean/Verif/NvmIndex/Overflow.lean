import Verif.NvmIndex.FixedProps
/-
Model of `cachelib/navy/block_cache/FixedSizeIndex.{h,cpp}` with `handleOverflow_ == true` (C59): buckets that are full
overflow into combined entry blocks in memory.

As in Fixed.lean operations are atomic. A block is a map with a bounded number of keys; that its byte layout
implements this map is proved in Ceb/Link.lean. `none` as a result stands for undefined behaviour: the code
uses the iterator of a block that is not there (FixedSizeIndex.h:452-455, 469-472, 491-494). `key` is what
`retrieveKeyCb_` returns for an address.
-/
namespace Verif.NvmIndex.Fixed
open Verif

/-- CombinedEntryBlock.h:58-219, as a map: the keys ever stored (storedKeys_) and the records not marked as removed. -/
structure Blk where
  stored : List Nat := []
  val : Nat → Option PRec := fun _ => none

/-- CombinedEntryBlock.cpp:65-69: whether there is room for one more entry after `n` entries, in a block of 4096 bytes
(CombinedEntryBlock.h:61): an EntryRecord has 5 bytes, an EntryPosInfo 24, the header 12. -/
def blkRoom (n : Nat) : Bool := 12 + 24 * (n + 1) + 5 ≤ 4096 - 5 * n

/-- CombinedEntryBlock.cpp:23-80 addIndexEntry; `none` is kFull. -/
def Blk.add (b : Blk) (k : Nat) (r : PRec) : Option Blk :=
  if k ∈ b.stored then some { b with val := upd b.val k (some r) }
  else if blkRoom b.stored.length then some { stored := b.stored ++ [k], val := upd b.val k (some r) }
  else none

/-- CombinedEntryBlock.cpp:99-123 removeIndexEntry. -/
def Blk.remove (b : Blk) (k : Nat) : Blk := { b with val := upd b.val k none }

/-- FixedSizeIndex.h:669-685: the state of Fixed.lean and combinedEntries_ (a bucket is in one shard only). -/
structure OSt where
  base : St
  comb : Nat → Option Blk

/-- FixedSizeIndex.h:430-446 checkCombinedIndexEntry. -/
def OSt.checkComb (c : Cfg) (s : OSt) (h : Nat) : Option Nat :=
  [0, 1, 2, 3].find? fun i =>
    (s.base.ht (c.slot (c.bucketId h) i)).combined &&
      match s.comb (c.slot (c.bucketId h) i) with
      | some b => (b.val h).isSome
      | none => false

/-- FixedSizeIndex.h:360-388 checkBucketSlotOffset. -/
def OSt.check (c : Cfg) (s : OSt) (h : Nat) : Option Nat :=
  match s.checkComb c h with
  | some i => some i
  | none => s.base.check c (c.bucketId h) (partialBits h)

/-- Index.h:283-289 setCombinedEntry. -/
def combinedRec : PRec := ⟨1, 0, 63⟩

/-- FixedSizeIndex.h:338-353, 516-545: the record in bucket `q` goes to a new block. -/
def OSt.convert (s : OSt) (key : Nat → Option Nat) (q : Nat) : OSt :=
  match key (s.base.ht q).addr with
  | none => s
  | some k =>
    match ({} : Blk).add k (s.base.ht q) with
    | none => s
    | some b => { base := s.base.setRec q combinedRec, comb := upd s.comb q (some b) }

/-- FixedSizeIndex.h:292-358 decideBucketSlotOffset. -/
def OSt.decideSlot (c : Cfg) (s : OSt) (key : Nat → Option Nat) (h : Nat) : OSt × Nat :=
  match s.check c h with
  | some i => (s, i)
  | none =>
    let m := s.base.makeEmpty c (c.bucketId h) [0, 1, 2, 3]
    let s := { s with base := m.1 }
    match m.2 with
    | some i => (s, i)
    | none =>
      match [0, 1, 2, 3].find? (fun i => (s.base.ht (c.slot (c.bucketId h) i)).combined) with
      | some i => (s, i)
      | none => (s.convert key (c.slot (c.bucketId h) 0), 0)

/-- FixedSizeIndex.h:706-719 and 832-845: record_ of the bucket found, 448-460 getCombinedIndexEntry. -/
def OSt.record (s : OSt) (h q : Nat) : Option PRec :=
  if (s.base.ht q).combined then
    match s.comb q with
    | none => none
    | some b =>
      match b.val h with
      | some r => some { r with hits := min (r.hits + (s.base.ht q).hits) 3 }
      | none => some PRec.empty
  else some (s.base.ht q)

/-- FixedSizeIndex.h:742-755 updateRecord and 725-731 updateDistInfo; 464-487 insertCombinedIndexEntry. -/
def OSt.put (c : Cfg) (s : OSt) (h i : Nat) (r : PRec) : Option OSt :=
  let q := c.slot (c.bucketId h) i
  if (s.base.ht q).combined then
    match s.comb q with
    | none => none
    | some b =>
      match b.add h r with
      | some b' => some { s with comb := upd s.comb q (some b') }
      | none => some s
  else
    let t := s.base.setRec q r
    some { s with base := if r.combined then t else t.setDist q i (partialBits h) }

/-- FixedSizeIndex.h:782-789 removeRecord; 489-495 removeCombinedIndexEntry. -/
def OSt.dropAt (s : OSt) (h q : Nat) : Option OSt :=
  if (s.base.ht q).combined then
    match s.comb q with
    | none => none
    | some b => some { s with comb := upd s.comb q (some (b.remove h)) }
  else some { s with base := s.base.setRec q PRec.empty }

/-- validBucketCntRef(), FixedSizeIndex.h:724: the counter of the shard. -/
def OSt.count (c : Cfg) (s : OSt) (h : Nat) (f : Nat → Nat) : OSt :=
  { s with base := { s.base with cnt := upd s.base.cnt (c.shard (c.bucketId h)) (f (s.base.cnt (c.shard (c.bucketId h)))) } }

/-- FixedSizeIndex.cpp:100-112 peek. -/
def OSt.peek (c : Cfg) (s : OSt) (h : Nat) : Option (Option View) :=
  match s.check c h with
  | none => some none
  | some i => (s.record h (c.slot (c.bucketId h) i)).map seen

/-- FixedSizeIndex.cpp:78-98 lookup; FixedSizeIndex.h:791-797: the hits are those of the bucket. -/
def OSt.lookup (c : Cfg) (s : OSt) (h : Nat) : Option (OSt × Option View) :=
  match s.check c h with
  | none => some (s, none)
  | some i =>
    let q := c.slot (c.bucketId h) i
    (s.record h q).map fun r =>
      if r.valid then
        ({ s with base := s.base.setRec q (s.base.ht q).bump },
          some ⟨r.addr, sizeExpToHint r.exp, (s.base.ht q).bump.hits⟩)
      else (s, none)

/-- FixedSizeIndex.cpp:114-137 insert. -/
def OSt.insert (c : Cfg) (s : OSt) (key : Nat → Option Nat) (h addr size : Nat) : Option (OSt × Option View) :=
  let d := s.decideSlot c key h
  match d.1.record h (c.slot (c.bucketId h) d.2) with
  | none => none
  | some r =>
    let t := if r.valid then d.1 else d.1.count c h (· + 1)
    (t.put c h d.2 (PRec.make addr size)).map fun t => (t, seen r)

/-- FixedSizeIndex.cpp:139-163 insertIfNotExists. -/
def OSt.insertIfNotExists (c : Cfg) (s : OSt) (key : Nat → Option Nat) (h addr size : Nat) : Option (OSt × Option View) :=
  let d := s.decideSlot c key h
  match d.1.record h (c.slot (c.bucketId h) d.2) with
  | none => none
  | some r =>
    if r.valid then some (d.1, seen r)
    else ((d.1.count c h (· + 1)).put c h d.2 (PRec.make addr size)).map fun t => (t, none)

/-- FixedSizeIndex.cpp:165-176 replaceIfMatch, FixedSizeIndex.h:757-780 updateNewAddress. -/
def OSt.replaceIfMatch (c : Cfg) (s : OSt) (h new old : Nat) : Option (OSt × Bool) :=
  match s.check c h with
  | none => some (s, false)
  | some i =>
    let q := c.slot (c.bucketId h) i
    match s.record h q with
    | none => none
    | some r =>
      if r.valid ∧ r.addr = old then
        if (s.base.ht q).combined then
          match s.comb q with
          | none => none
          | some b =>
            match b.add h { r with addr := new, hits := 0 } with
            | some b' => some ({ s with comb := upd s.comb q (some b') }, true)
            | none => some (s, false)
        else some ({ s with base := s.base.setRec q { s.base.ht q with addr := new, hits := 0 } }, true)
      else some (s, false)

/-- FixedSizeIndex.cpp:178-197 remove. -/
def OSt.remove (c : Cfg) (s : OSt) (h : Nat) : Option (OSt × Option View) :=
  match s.check c h with
  | none => some (s, none)
  | some i =>
    let q := c.slot (c.bucketId h) i
    match s.record h q with
    | none => none
    | some r =>
      if r.valid then ((s.count c h (· - 1)).dropAt h q).map fun t => (t, seen r)
      else (s.dropAt h q).map fun t => (t, none)

/-- FixedSizeIndex.cpp:199-211 removeIfMatch. -/
def OSt.removeIfMatch (c : Cfg) (s : OSt) (h addr : Nat) : Option (OSt × Bool) :=
  match s.check c h with
  | none => some (s, false)
  | some i =>
    let q := c.slot (c.bucketId h) i
    match s.record h q with
    | none => none
    | some r =>
      if r.valid ∧ r.addr = addr then ((s.count c h (· - 1)).dropAt h q).map fun t => (t, true)
      else some (s, false)

/-- FixedSizeIndex.cpp:213-238 reset. -/
def OSt.reset (c : Cfg) (s : OSt) : OSt := { base := s.base.reset c, comb := fun _ => none }

/-- FixedSizeIndex.cpp:303-339 recover, with the same configuration: the table is attached again, combinedEntries_ is
the empty map of a new object (FixedSizeIndex.cpp:59-61). -/
def OSt.restart (s : OSt) : OSt := { s with comb := fun _ => none }

/-- An operation and its result; `key` is what the retrieval of keys answers during an insertion. -/
def OSt.step (c : Cfg) (s : OSt) (key : Nat → Option Nat) : Op → Option (OSt × Res)
  | .lookup h => (s.lookup c h).map fun x => (x.1, .entry x.2)
  | .peek h => (s.peek c h).map fun x => (s, .entry x)
  | .insert h a z => (s.insert c key h a z).map fun x => (x.1, .entry x.2)
  | .insertNE h a z => (s.insertIfNotExists c key h a z).map fun x => (x.1, .entry x.2)
  | .replace h n o => (s.replaceIfMatch c h n o).map fun x => (x.1, .ok x.2)
  | .remove h => (s.remove c h).map fun x => (x.1, .entry x.2)
  | .removeMatch h a => (s.removeIfMatch c h a).map fun x => (x.1, .ok x.2)
  | .reset => some (s.reset c, .ok true)

end Verif.NvmIndex.Fixed
