import Verif.Base.Chain
/-
Model of `cachelib/navy/block_cache/FixedSizeIndex.{h,cpp}` with `handleOverflow_ == false` (C25).

Every operation holds the mutex of the shard of its key's bucket (FixedSizeIndex.h:692-704) and is modelled as atomic; that it
stays inside that shard is proved.  Combined entry blocks (`handleOverflow_`, off by default, FixedSizeIndex.h:72) are not
modelled, except that a record that looks like one is skipped as the code does.  Memory is a total function of the bucket number;
that the bucket numbers used are inside the table is proved.  Floating point powers of 1.196 are exact rationals here.
-/
namespace Verif.NvmIndex.Fixed
open Verif

/-- FixedSizeIndex.h:653-655: numChunks_, numBucketsPerChunkPower_, numBucketsPerShard_. -/
structure Cfg where
  chunks : Nat
  pow : Nat
  n : Nat

/-- FixedSizeIndex.cpp:28-35 getTotalBucketCount. -/
def Cfg.total (c : Cfg) : Nat := c.chunks * 2 ^ c.pow

/-- FixedSizeIndex.cpp:37-42 getTotalShardCount. -/
def Cfg.shards (c : Cfg) : Nat := (c.total - 1) / c.n + 1

/-- Index.h:187-194 PackedItemRecord. -/
structure PRec where
  addr : Nat
  hits : Nat
  exp : Nat
deriving DecidableEq, Repr

/-- Index.h:217 PackedItemRecord{}. -/
def PRec.empty : PRec := ⟨0, 0, 0⟩

/-- Index.h:274-278 isValid. -/
def PRec.valid (r : PRec) : Bool := r.addr != 0

/-- Index.h:280-282 isCombinedEntry. -/
def PRec.combined (r : PRec) : Bool := r.exp == 63

/-- Index.h:252-255: the loop of sizeHintToExp, from the exponent `xp` on, for at most `fuel` more steps. -/
def expLoop (hint : Nat) : Nat → Nat → Nat
  | xp, 0 => xp
  | xp, fuel + 1 => if 1196 ^ xp < hint * 1000 ^ xp then expLoop hint (xp + 1) fuel else xp

/-- Index.h:234-258 sizeHintToExp (that 100 steps are enough is proved). -/
def sizeHintToExp (hint : Nat) : Nat := expLoop hint 0 100

/-- Index.h:260-268 sizeExpToHint; the conversion keeps 16 bits. -/
def sizeExpToHint (e : Nat) : Nat := 1196 ^ e / 1000 ^ e % 65536

/-- Index.h:219-226: a record with no hits. -/
def PRec.make (addr hint : Nat) : PRec := ⟨addr, 0, sizeHintToExp hint⟩

/-- Index.h:291-294 bumpCurHits. -/
def PRec.bump (r : PRec) : PRec := { r with hits := min (r.hits + 1) 3 }

/-- What the operations return of a record (FixedSizeIndex.cpp:90-94). -/
structure View where
  addr : Nat
  size : Nat
  hits : Nat
deriving DecidableEq, Repr

def PRec.view (r : PRec) : View := ⟨r.addr, sizeExpToHint r.exp, r.hits⟩

/-- FixedSizeIndex.h:669-685: ht_, BucketDistInfo::fillMap_ and partialBits_, validBucketsPerShard_. -/
structure St where
  ht : Nat → PRec
  fillMap : Nat → BitVec 8
  part : Nat → Nat
  cnt : Nat → Nat

/-- FixedSizeIndex.h:261-263 getBucketFillInfo. -/
def St.fill (s : St) (b : Nat) : Nat := ((s.fillMap (b / 4) >>> (((b &&& 3) <<< 1) : Nat)) &&& 3#8).toNat

/-- FixedSizeIndex.h:254-259 setBucketFillInfo: one byte. -/
def setByte (x : BitVec 8) (o : Nat) (v : Nat) : BitVec 8 := (x &&& ~~~(3#8 <<< o)) ||| (BitVec.ofNat 8 v <<< o)

/-- FixedSizeIndex.h:228-236 updateBucketFillInfo. -/
def St.setDist (s : St) (b v p : Nat) : St :=
  { s with
    fillMap := upd s.fillMap (b / 4) (setByte (s.fillMap (b / 4)) ((b &&& 3) <<< 1) v)
    part := upd s.part b p }

def St.setRec (s : St) (b : Nat) (r : PRec) : St := { s with ht := upd s.ht b r }

/-- FixedSizeIndex.h:284 kNextSlotOffset. -/
def off : Nat → Nat
  | 0 => 0
  | 1 => 23
  | 2 => 61
  | _ => 97

/-- FixedSizeIndex.h:579-585 kBucketRandomizeOffset. -/
def rnd : List Nat := [
      1229, 1543, 1867, 2179, 2521, 2833, 3203, 3539, 3877, 4229, 4567,
      4919, 5231, 5557, 5861, 6217, 1097, 1423, 1693, 2003, 3121, 3463,
      4099, 4451, 4793, 5119, 5483, 5827, 6197, 6547, 6899, 7283, 7649,
      5717, 6011, 7127, 7459, 7867, 8011, 8167, 8293, 8447, 8623, 8737,
      8863, 9013, 9173, 9319, 9437, 7103, 6823, 6959, 7079, 7993, 8147,
      8431, 8719, 9007, 9293, 9551, 9851, 2203, 4967, 5653]

/-- FixedSizeIndex.h:593-610 bucketId (uint64_t arithmetic). -/
def Cfg.bucketId (c : Cfg) (h : Nat) : Nat :=
  ((((h >>> 32) % c.chunks) <<< c.pow) + (h &&& (2 ^ c.pow - 1)) + rnd.getD ((h >>> 48) &&& 0x3F) 0 +
    (rnd.getD ((h >>> 54) &&& 0x3F) 0 <<< ((h >>> 60) &&& 3))) % 2 ^ 64 % c.total

/-- FixedSizeIndex.h:613-615 shardId. -/
def Cfg.shard (c : Cfg) (b : Nat) : Nat := b / c.n

/-- FixedSizeIndex.h:618-622 partialKeyBits. -/
def partialBits (h : Nat) : Nat := (h >>> 40) &&& 0xff

/-- FixedSizeIndex.h:625-632 calcSlotBucketId. -/
def Cfg.slot (c : Cfg) (b i : Nat) : Nat := b / c.n * c.n + (b + off i) % c.n

/-- FixedSizeIndex.h:639-643 originalBucketId (uint64_t arithmetic). -/
def Cfg.org (c : Cfg) (q f : Nat) : Nat := if q % c.n ≥ off f then q - off f else (q + c.n + 2 ^ 64 - off f) % 2 ^ 64

/-- FixedSizeIndex.h:316-318 and 381-383. -/
def St.isMatch (c : Cfg) (s : St) (b p i : Nat) : Bool :=
  (s.ht (c.slot b i)).valid && !(s.ht (c.slot b i)).combined && s.fill (c.slot b i) == i && p == s.part (c.slot b i)

/-- FixedSizeIndex.h:360-388 checkBucketSlotOffset. -/
def St.check (c : Cfg) (s : St) (b p : Nat) : Option Nat := [0, 1, 2, 3].find? (fun i => s.isMatch c b p i)

/-- FixedSizeIndex.h:410-423: the slot the record in bucket `q` could move to. -/
def St.room (c : Cfg) (s : St) (q : Nat) : Option Nat :=
  [0, 1, 2, 3].find? (fun sub => sub != s.fill q && !(s.ht (c.slot (c.org q (s.fill q)) sub)).valid)

/-- FixedSizeIndex.h:416-420: the record moves from bucket `q` to slot `sub` of its own bucket. -/
def St.move (c : Cfg) (s : St) (q sub : Nat) : St :=
  let d := c.slot (c.org q (s.fill q)) sub
  ((s.setRec d (s.ht q)).setRec q PRec.empty).setDist d sub (s.part q)

/-- FixedSizeIndex.h:390-428 findOrMakeEmptySlotByMoving, for the remaining slots. -/
def St.makeEmpty (c : Cfg) (s : St) (b : Nat) : List Nat → St × Option Nat
  | [] => (s, none)
  | i :: is =>
    if (s.ht (c.slot b i)).valid = false then (s, some i)
    else if (s.ht (c.slot b i)).combined then s.makeEmpty c b is
    else if s.fill (c.slot b i) ≠ i then
      match s.room c (c.slot b i) with
      | some sub => (s.move c (c.slot b i) sub, some i)
      | none => s.makeEmpty c b is
    else s.makeEmpty c b is

/-- FixedSizeIndex.h:292-358 decideBucketSlotOffset. -/
def St.decideSlot (c : Cfg) (s : St) (b p : Nat) : St × Nat :=
  match s.check c b p with
  | some i => (s, i)
  | none => ((s.makeEmpty c b [0, 1, 2, 3]).1, (s.makeEmpty c b [0, 1, 2, 3]).2.getD 0)

def seen (r : PRec) : Option View := if r.valid then some r.view else none

/-- FixedSizeIndex.cpp:78-98 lookup. -/
def St.lookup (c : Cfg) (s : St) (h : Nat) : St × Option View :=
  match s.check c (c.bucketId h) (partialBits h) with
  | none => (s, none)
  | some i =>
    let q := c.slot (c.bucketId h) i
    if (s.ht q).valid then (s.setRec q (s.ht q).bump, some (s.ht q).bump.view) else (s, none)

/-- FixedSizeIndex.cpp:100-112 peek. -/
def St.peek (c : Cfg) (s : St) (h : Nat) : Option View :=
  match s.check c (c.bucketId h) (partialBits h) with
  | none => none
  | some i => seen (s.ht (c.slot (c.bucketId h) i))

/-- FixedSizeIndex.cpp:128-134 and 155-160: the counter, updateRecord and updateDistInfo. -/
def St.put (c : Cfg) (s : St) (h i : Nat) (count : Bool) (r : PRec) : St :=
  let q := c.slot (c.bucketId h) i
  let s := if count then { s with cnt := upd s.cnt (c.shard (c.bucketId h)) (s.cnt (c.shard (c.bucketId h)) + 1) } else s
  let s := s.setRec q r
  if r.combined then s else s.setDist q i (partialBits h)

/-- FixedSizeIndex.cpp:114-137 insert. -/
def St.insert (c : Cfg) (s : St) (h addr size : Nat) : St × Option View :=
  let d := s.decideSlot c (c.bucketId h) (partialBits h)
  let r := d.1.ht (c.slot (c.bucketId h) d.2)
  (d.1.put c h d.2 (!r.valid) (PRec.make addr size), seen r)

/-- FixedSizeIndex.cpp:139-163 insertIfNotExists. -/
def St.insertIfNotExists (c : Cfg) (s : St) (h addr size : Nat) : St × Option View :=
  let d := s.decideSlot c (c.bucketId h) (partialBits h)
  let r := d.1.ht (c.slot (c.bucketId h) d.2)
  if r.valid then (d.1, seen r) else (d.1.put c h d.2 true (PRec.make addr size), none)

/-- FixedSizeIndex.cpp:165-176 replaceIfMatch. -/
def St.replaceIfMatch (c : Cfg) (s : St) (h new old : Nat) : St × Bool :=
  match s.check c (c.bucketId h) (partialBits h) with
  | none => (s, false)
  | some i =>
    let q := c.slot (c.bucketId h) i
    if (s.ht q).valid ∧ (s.ht q).addr = old then (s.setRec q { s.ht q with addr := new, hits := 0 }, true) else (s, false)

/-- FixedSizeIndex.cpp:187-189 and 203-206: removeRecord and the counter. -/
def St.drop (c : Cfg) (s : St) (h i : Nat) : St :=
  { s with
    ht := upd s.ht (c.slot (c.bucketId h) i) PRec.empty
    cnt := upd s.cnt (c.shard (c.bucketId h)) (s.cnt (c.shard (c.bucketId h)) - 1) }

/-- FixedSizeIndex.cpp:178-197 remove. -/
def St.remove (c : Cfg) (s : St) (h : Nat) : St × Option View :=
  match s.check c (c.bucketId h) (partialBits h) with
  | none => (s, none)
  | some i =>
    let q := c.slot (c.bucketId h) i
    if (s.ht q).valid then (s.drop c h i, seen (s.ht q)) else (s.setRec q PRec.empty, none)

/-- FixedSizeIndex.cpp:199-211 removeIfMatch. -/
def St.removeIfMatch (c : Cfg) (s : St) (h addr : Nat) : St × Bool :=
  match s.check c (c.bucketId h) (partialBits h) with
  | none => (s, false)
  | some i =>
    let q := c.slot (c.bucketId h) i
    if (s.ht q).valid ∧ (s.ht q).addr = addr then (s.drop c h i, true) else (s, false)

/-- FixedSizeIndex.cpp:213-238 reset.  The code also takes new, zeroed memory (218-225); here only what the loop writes is taken
to be cleared, which leaves the results the same for any fill information. -/
def St.reset (c : Cfg) (s : St) : St :=
  { s with
    ht := fun b => if b < c.shards * c.n then PRec.empty else s.ht b
    cnt := fun i => if i < c.shards then 0 else s.cnt i }

/-- FixedSizeIndex.cpp:269-277 computeSize. -/
def St.computeSize (c : Cfg) (s : St) : Nat := ((List.range c.shards).map s.cnt).sum

/-- Operations. -/
inductive Op
  | lookup (h : Nat) | peek (h : Nat) | insert (h addr size : Nat) | insertNE (h addr size : Nat) | replace (h new old : Nat)
  | remove (h : Nat) | removeMatch (h addr : Nat) | reset

/-- Results. -/
inductive Res
  | entry (r : Option View) | ok (b : Bool)
deriving DecidableEq, Repr

/-- An operation and its result. -/
def St.step (c : Cfg) (s : St) : Op → St × Res
  | .lookup h => ((s.lookup c h).1, .entry (s.lookup c h).2)
  | .peek h => (s, .entry (s.peek c h))
  | .insert h a z => ((s.insert c h a z).1, .entry (s.insert c h a z).2)
  | .insertNE h a z => ((s.insertIfNotExists c h a z).1, .entry (s.insertIfNotExists c h a z).2)
  | .replace h a o => ((s.replaceIfMatch c h a o).1, .ok (s.replaceIfMatch c h a o).2)
  | .remove h => ((s.remove c h).1, .entry (s.remove c h).2)
  | .removeMatch h a => ((s.removeIfMatch c h a).1, .ok (s.removeIfMatch c h a).2)
  | .reset => (s.reset c, .ok true)

/-- A history. -/
def St.run (c : Cfg) (s : St) : List Op → St × List Res
  | [] => (s, [])
  | o :: os => ((St.run c (s.step c o).1 os).1, (s.step c o).2 :: (St.run c (s.step c o).1 os).2)

/-- A new index: memory is zeroed and reset (FixedSizeIndex.cpp:218-238). -/
def St.new : St := { ht := fun _ => PRec.empty, fillMap := fun _ => 0#8, part := fun _ => 0, cnt := fun _ => 0 }

end Verif.NvmIndex.Fixed
