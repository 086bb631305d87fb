/-
Model of `cachelib/common/FurcHash.cpp`: the consistent hash that maps keys to shards.

Words are natural numbers reduced modulo 2^64.  A key is the list of its bytes.  The cache of hash values is a function; that
its index stays below kHashCacheSize is proved.
-/
namespace Verif.FurcHash

def W : Nat := 2 ^ 64
def m64 : Nat := 0xc6a4a7935bd1e995
/-- Hash.h:50 -/
def seed : Nat := 4193360111

/-- FurcHash.cpp:102-104, 124-126: the last mixing. -/
def finish (h : Nat) : Nat :=
  let h := h ^^^ (h >>> 47)
  let h := h * m64 % W
  h ^^^ (h >>> 47)

/-- FurcHash.cpp:68-70, 117-119 -/
def mixKey (k : Nat) : Nat :=
  let k := k * m64 % W
  let k := k ^^^ (k >>> 47)
  k * m64 % W

/-- a number from its bytes, the lowest first (65, 78-98) -/
def le : List Nat → Nat
  | [] => 0
  | b :: l => b + 256 * le l

/-- FurcHash.cpp:64-74, the loop over 8 bytes at a time, then 76-100 -/
def murmurLoop (h : Nat) : List Nat → Nat
  | a :: b :: c :: d :: e :: f :: g :: i :: l => murmurLoop ((h ^^^ mixKey (le [a, b, c, d, e, f, g, i])) * m64 % W) l
  | [] => h
  | l => (h ^^^ le l) * m64 % W

/-- FurcHash.cpp:55-107 murmurHash64A. -/
def murmurHash64A (key : List Nat) : Nat := finish (murmurLoop (seed ^^^ (key.length * m64 % W)) key)

/-- FurcHash.cpp:110-129 murmurRehash64A. -/
def murmurRehash64A (key : Nat) : Nat := finish (((seed ^^^ (8 * m64 % W)) ^^^ mixKey key) * m64 % W)

/-- FurcHash.cpp:43-47 (nParts is not used). -/
structure St where
  hashIdx : Nat
  cache : Nat → Nat

/-- FurcHash.cpp:142-144: fill the cache from `n` on, `k` entries. -/
def fill (rehash : Nat → Nat) (cache : Nat → Nat) (n : Nat) : Nat → Nat → Nat
  | 0 => cache
  | k + 1 => fill rehash (fun i => if i = n then rehash (cache (n - 1)) else cache i) (n + 1) k

/-- FurcHash.cpp:134-149 getbit. -/
def getbit (rehash : Nat → Nat) (st : St) (choice : Nat) : St × Bool :=
  let newIdx := choice >>> 6
  let st := if st.hashIdx < newIdx then ⟨newIdx, fill rehash st.cache (st.hashIdx + 1) (newIdx - st.hashIdx)⟩ else st
  (st, decide ((st.cache newIdx >>> (choice &&& 0x3f)) &&& 1 ≠ 0))

/-- FurcHash.cpp:179-180: the loop from `b` on, with fuel. -/
def bitNumFrom (nPart : Nat) : Nat → Nat → Nat
  | 0, b => b
  | k + 1, b => if nPart > 2 ^ b then bitNumFrom nPart k (b + 1) else b

/-- FurcHash.cpp:185-190: `none` if it returns 0, otherwise bitNum and choice. -/
def descend (rehash : Nat → Nat) (st : St) : Nat → Nat → St × Option (Nat × Nat)
  | 0, _ => (st, none)
  | b + 1, choice =>
    match getbit rehash st choice with
    | (st, true) => (st, some (b + 1, choice))
    | (st, false) => if b = 0 then (st, none) else descend rehash st b b

/-- FurcHash.cpp:193-196: `k` more bits of the result. -/
def readBits (rehash : Nat → Nat) (st : St) : Nat → Nat → Nat → St × Nat × Nat
  | 0, choice, result => (st, choice, result)
  | k + 1, choice, result =>
    match getbit rehash st choice with
    | (st, bit) => readBits rehash st k (choice + 23) ((result <<< 1) ||| (if bit then 1 else 0))

/-- how furcHash ends: at 187 or 198, or at 202 -/
inductive Res where
  | found (r : Nat)
  | gaveUp
  deriving DecidableEq

/-- FurcHash.cpp:184-200: the loop, `k` tries left. -/
def tryLoop (rehash : Nat → Nat) (nPart : Nat) : Nat → St → Nat → Nat → St × Res
  | 0, st, _, _ => (st, .gaveUp)
  | k + 1, st, bitNum, choice =>
    match descend rehash st bitNum choice with
    | (st, none) => (st, .found 0)
    | (st, some (bitNum, choice)) =>
      match readBits rehash st (bitNum - 1) (choice + 23) 1 with
      | (st, choice, result) => if result < nPart then (st, .found result) else tryLoop rehash nPart k st bitNum choice

/-- FurcHash.cpp:178-202 for the hash `h0` of the key and a function that makes more bits. -/
def furcRun (h0 : Nat) (rehash : Nat → Nat) (nPart : Nat) : St × Res :=
  let bitNum := bitNumFrom nPart 32 0
  tryLoop rehash nPart 32 ⟨0, fun _ => h0⟩ bitNum bitNum

/-- FurcHash.cpp:166-203 -/
def furcWith (h0 : Nat) (rehash : Nat → Nat) (nPart : Nat) : Nat :=
  if nPart ≤ 1 then 0
  else match (furcRun h0 rehash nPart).2 with
    | .found r => r
    | .gaveUp => 0

/-- FurcHash.cpp:166-203 furcHash. -/
def furcHash (key : List Nat) (nPart : Nat) : Nat := furcWith (murmurHash64A key) murmurRehash64A nPart

end Verif.FurcHash
