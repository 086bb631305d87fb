import Verif.BigHash.Bucket
import Verif.Bloom.Model
/-!
Model of cachelib/navy/bighash/BigHash.{h,cpp}. Each public operation is one atomic step (it holds the bucket's mutex while it
touches the device). Statistics are not modelled.
-/
namespace Verif.BigHash
open Verif Bloom

/-- navy Status, cachelib/navy/common/Types.h. -/
inductive Status | ok | notFound | rejected | retry | deviceError | badState | checksumError
deriving DecidableEq

/-- A bucket as it is laid out on the device, Bucket.h:131-133. -/
structure Img where
  checksum : Nat
  gen : Nat
  st : Store

/-- Configuration and environment: numBuckets_, bucketSize_, checkExpired_ (BigHash.h:225-229); key hash, checksum and Bloom hash
functions (arbitrary). -/
structure Env where
  numBuckets : Nat
  bucketSize : Nat
  chk : Option (List UInt8 → Bool)
  H : List UInt8 → Nat
  cksum : Nat → Store → Nat
  comb : Nat → Nat → Nat
  hashInt : Nat → Nat

/-- BigHash's mutable state: generationTime_, bloomFilter_, the bits of validBucketChecker_, and the device. -/
structure Eng where
  gen : Nat
  bf : Option BF
  bits : Mem
  dev : Nat → Img

/-- HashedKey of a key, common/Hash.h:82-96. -/
def Env.hk (v : Env) (k : List UInt8) : HKey := ⟨k, v.H k⟩

/-- getBucketId, BigHash.h:205-207. -/
def Env.bid (v : Env) (k : List UInt8) : Nat := v.H k % v.numBuckets

/-- kBigHashValidBucketCheckerBucketsPerBit, BigHash.cpp:31. -/
def perBit : Nat := 100

/-- ValidBucketChecker::getBytes, BigHash.h:348-355. -/
def checkerBytes (numBuckets : Nat) : Nat := ((numBuckets + perBit - 1) / perBit + 7) / 8

/-- ValidBucketChecker::isBucketValid, BigHash.h:333-338. -/
def isBucketValid (bits : Mem) (idx : Nat) : Bool :=
  let numBits := idx / perBit
  !bitGet bits (numBits / 8) (numBits % 8)

/-- ValidBucketChecker::disableBucket, BigHash.h:340-345. -/
def disableBucket (bits : Mem) (idx : Nat) : Mem :=
  let numBits := idx / perBit
  bitSet bits (numBits / 8) (numBits % 8)

/-- bfSet, BigHash.cpp:520-527. -/
def bfSet (v : Env) (bf : Option BF) (bid hash : Nat) : Option BF := bf.map fun b => b.set v.comb bid hash

/-- bfClear, BigHash.cpp:529-536. -/
def bfClear (bf : Option BF) (bid : Nat) : Option BF := bf.map fun b => b.clear bid

/-- bfReject, BigHash.cpp:538-550. -/
def bfReject (v : Env) (bf : Option BF) (bid hash : Nat) : Bool :=
  match bf with
  | none => false
  | some b => !b.couldExist v.comb bid hash

/-- bfRebuild, BigHash.cpp:552-566: clear, then set the hash of every entry. -/
def bfRebuild (v : Env) (bf : Option BF) (bid : Nat) (st : Store) : Option BF :=
  bf.map fun b => (bhashes st).foldl (fun b h => b.set v.comb bid h) (b.clear bid)

/-- The check in readBucket that a bucket read from the device is of this generation and undamaged, BigHash.cpp:586-606. -/
def accepted (v : Env) (gen : Nat) (i : Img) : Bool := i.gen == gen && v.cksum i.gen i.st == i.checksum

/-- readBucket, BigHash.cpp:573-610. `readOk = false`: the device read fails. A bucket that is not accepted is reinitialised in the
buffer (Bucket::initNew, Bucket.cpp:56-59; 24 = sizeof(Bucket), Bucket.cpp:24). -/
def readBucket (v : Env) (e : Eng) (bid : Nat) (readOk : Bool) : Eng × Option Store :=
  if !readOk then ({ e with bits := disableBucket e.bits bid }, none)
  else
    let i := e.dev bid
    if !accepted v e.gen i then (e, some (Store.new (v.bucketSize - 24) i.st.data)) else (e, some i.st)

/-- writeBucket, BigHash.cpp:612-621. `wr = none`: the write succeeds; `some img`: it fails and leaves `img` on the device. -/
def writeBucket (v : Env) (e : Eng) (bid : Nat) (st : Store) (wr : Option Img) : Eng × Bool :=
  match wr with
  | none => ({ e with dev := fun b => if b = bid then ⟨v.cksum e.gen st, e.gen, st⟩ else e.dev b }, true)
  | some img => ({ e with dev := fun b => if b = bid then img else e.dev b, bits := disableBucket e.bits bid }, false)

/-- Keys passed to the user's destructor callback are re-hashed from the copied key, BigHash.cpp:363-367. -/
def rehash (v : Env) (c : Call) : Call := { c with hk := v.hk c.hk.key }

/-- insert, BigHash.cpp:298-385. `none`: undefined behaviour in Bucket::insert (entry larger than a bucket). -/
def insert (v : Env) (e : Eng) (k value : List UInt8) (readOk : Bool) (wr : Option Img) : Option (Eng × Status × List Call) :=
  let bid := v.bid k
  if !isBucketValid e.bits bid then some (e, .rejected, [])
  else
    match readBucket v e bid readOk with
    | (e, none) => some (e, .deviceError, [])
    | (e, some st) =>
      let (st, calls1, removed) := bremove st (v.hk k)
      match binsert st (v.hk k) value v.chk with
      | none => none
      | some (st, calls2, evicted, _) =>
        let e := { e with bf := if removed + evicted = 0 then bfSet v e.bf bid (v.H k) else bfRebuild v e.bf bid st }
        match writeBucket v e bid st wr with
        | (e, false) => some ({ e with bf := bfClear e.bf bid }, .deviceError, [])
        | (e, true) => some (e, .ok, (calls1 ++ calls2).map (rehash v))

/-- couldExist, BigHash.cpp:387-398. -/
def couldExist (v : Env) (e : Eng) (k : List UInt8) : Bool := !bfReject v e.bf (v.bid k) (v.H k)

/-- lookup, BigHash.cpp:404-449. The value is returned with status Ok. -/
def lookup (v : Env) (e : Eng) (k : List UInt8) (readOk : Bool) : Eng × Status × Option (List UInt8) :=
  let bid := v.bid k
  if !isBucketValid e.bits bid then (e, .notFound, none)
  else if bfReject v e.bf bid (v.H k) then (e, .notFound, none)
  else
    match readBucket v e bid readOk with
    | (e, none) => (e, .deviceError, none)
    | (e, some st) =>
      match bfind st (v.hk k) with
      | none => (e, .notFound, none)
      | some val => (e, .ok, some val)

/-- remove, BigHash.cpp:451-518. The copy of the value is non-null also for an empty value (malloc(0) is non-null with glibc and
jemalloc), so the callback runs for every removed entry. -/
def remove (v : Env) (e : Eng) (k : List UInt8) (readOk : Bool) (wr : Option Img) : Eng × Status × List Call :=
  let bid := v.bid k
  if !isBucketValid e.bits bid then (e, .notFound, [])
  else if bfReject v e.bf bid (v.H k) then (e, .notFound, [])
  else
    match readBucket v e bid readOk with
    | (e, none) => (e, .deviceError, [])
    | (e, some st) =>
      let (st', calls, removed) := bremove st (v.hk k)
      if removed = 0 then (e, .notFound, [])
      else
        let e := { e with bf := bfRebuild v e.bf bid st' }
        match writeBucket v e bid st' wr with
        | (e, false) => ({ e with bf := bfClear e.bf bid }, .deviceError, [])
        | (e, true) => (e, .ok, calls.map fun c => ⟨v.hk k, c.value, .removed⟩)

/-- reset, BigHash.cpp:105-132, `gen` the new generation time. -/
def reset (e : Eng) (gen : Nat) : Eng := { e with gen := gen, bf := e.bf.map BF.reset, bits := fun _ => 0 }

/-- Constructor, BigHash.cpp:75-103, with a Bloom filter of `numBuckets` sub-filters or none; the device keeps its contents. -/
def create (bf : Option BF) (gen : Nat) (dev : Nat → Img) : Eng := reset ⟨0, bf, fun _ => 0, dev⟩ gen

/-- What persist writes, BigHash.cpp:232-251 and ValidBucketChecker::persist, BigHash.h:296-306. -/
structure Saved where
  gen : Nat
  bucketSize : Nat
  numBuckets : Nat
  checker : List UInt8
  bloom : List Rec

def persist (v : Env) (e : Eng) : Saved :=
  ⟨e.gen, v.bucketSize, v.numBuckets, e.bits.read 0 (checkerBytes v.numBuckets),
   match e.bf with | none => [] | some b => b.persist⟩

/-- The filter part of recover, BigHash.cpp:277-280; `none`: BloomFilter::recover throws. -/
def recoverBf (bf : Option BF) (s : Saved) : Option (Option BF) :=
  match bf with
  | none => some none
  | some b => match b.recover s.bloom with
    | none => none
    | some (b', _) => some (some b')

/-- recover, BigHash.cpp:253-296 and ValidBucketChecker::recover, BigHash.h:308-329. `gen2` is the generation time used if the
recovery fails and the engine is reset. -/
def recover (v : Env) (e : Eng) (s : Saved) (gen2 : Nat) : Eng × Bool :=
  if ¬ (s.bucketSize = v.bucketSize ∧ s.numBuckets = v.numBuckets) then (reset e gen2, false)
  else
    let e := { e with gen := s.gen }
    match recoverBf e.bf s with
    | none => (reset e gen2, false)
    | some bf' =>
      if s.checker.length ≠ checkerBytes v.numBuckets then (reset { e with bf := bf' } gen2, false)
      else ({ e with bf := bf', bits := e.bits.write 0 s.checker }, true)

end Verif.BigHash
