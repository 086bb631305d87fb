import Verif.CCache.FixModel

/-!
# Compact cache: the hash table of buckets

Model of `/repo/cachelib/compact_cache/CCache.h`, over either kind of bucket.

Simplifications: every operation runs to completion before the next one starts (the code runs each
bucket function under the bucket's lock; requests that run while `resize` is in progress
are not modelled); lock timeouts, statistics and the null/size argument checks of `bucketSet`
(`CCache.h:1094-1099`) are left out, values being well-typed.  `removeCb_` and `replaceCb_` are always
set and record what they are given.
-/
namespace Verif.CCache

/-- What the table needs from a bucket descriptor (`CCacheFixedLruBucket.h`, 
`CCacheVariableLruBucket.h`): an empty (zeroed) bucket, handle validity and contents by position,
and the operations.  `lim` bounds the positions. -/
structure Desc (K V : Type) where
  B : Type
  empty : B
  lim : Nat
  valid : B → Nat → Bool
  key : B → Nat → K
  val : B → Nat → V
  insert : B → K → V → Int × B × List (K × V)
  promote : B → Nat → B
  needsPromote : B → Nat → Bool
  del : B → Nat → B
  update : B → Nat → V → B × List (K × V)
  capacity : B → Nat

/-- Buckets of fixed-size values (`CCacheFixedLruBucket.h:100-101, 135-137`). -/
def fixDesc {K V : Type} (c : FCfg K V) : Desc K V where
  B := Nat → K × V
  empty := fun _ => c.zero
  lim := c.num
  valid := fValid c
  key b i := (b i).1
  val b i := (b i).2
  insert b k v := let r := fInsert c b k v; (if r.1 then 1 else 0, r.2)
  promote := fPromote
  needsPromote _ i := fNeedsPromote c i
  del := fDel c
  update b i v := (fUpdate b i v, [])
  capacity _ := c.num

/-- Buckets of variable-size values. `zk` is the all-zero key. -/
def varDesc {K : Type} (c : VCfg) (zk : K) : Desc K (List Nat) where
  B := VB K
  empty := ⟨0, 0, fun _ => ⟨zk, 0, 0⟩, fun _ => 0⟩
  lim := kMaxEntries
  valid := vValid
  key := vKey
  val := vVal
  insert := vInsert c
  promote := vPromote
  needsPromote := vNeedsPromote
  del := vDel c
  update := vUpdate c
  capacity := vCapacity c

/-- `RemoveContext` (`CCache.h`, used at `:721-722, 934, 1084-1086, 1142`). -/
inductive Ctx
  | normal
  | eviction
  deriving DecidableEq

/-- What the user's callbacks are given. -/
inductive Ev (K V : Type)
  | removed (k : K) (v : V) (x : Ctx)
  | replaced (k : K) (old new : V)

/-- `BucketReturn` / `CCacheReturn` (`CCache.h:578-598`). -/
inductive Ret
  | error
  | notFound
  | found
  deriving DecidableEq

section
variable {K V : Type} [DecidableEq K] (D : Desc K V) (validCb : K → Bool)

/-- The loop of `bucketFind` (`CCache.h:1190-1202`) from position `pos`. -/
def findFrom (b : D.B) (k : K) : Nat → Nat → Option Nat
  | 0, _ => none
  | fuel + 1, pos =>
    if D.valid b pos then
      if D.key b pos = k then some pos else findFrom b k fuel (pos + 1)
    else none

/-- `bucketFind` (`CCache.h:1187-1202`). -/
def bucketFind (b : D.B) (k : K) : Option Nat := findFrom D b k (D.lim + 1) 0

/-- `onEntryEvicted` (`CCache.h:1079-1089`). -/
def onEvicted (e : K × V) : Ev K V :=
  .removed e.1 e.2 (if validCb e.1 then .eviction else .normal)

/-- `bucketSet` (`CCache.h:1091-1127`). -/
def bucketSet (b : D.B) (k : K) (v : V) : Ret × D.B × List (Ev K V) :=
  match bucketFind D b k with
  | none =>
    let r := D.insert b k v
    if r.1 = -1 then (.error, r.2.1, r.2.2.map (onEvicted validCb))
    else (.notFound, r.2.1, r.2.2.map (onEvicted validCb))
  | some pos =>
    let old := D.val b pos
    let r := D.update b pos v
    (.found, r.1, .replaced k old v :: r.2.map (onEvicted validCb))

/-- `bucketDel` (`CCache.h:1129-1147`). -/
def bucketDel (b : D.B) (k : K) : Ret × D.B × Option V × List (Ev K V) :=
  match bucketFind D b k with
  | none => (.notFound, b, none, [])
  | some pos =>
    (.found, D.del b pos, some (D.val b pos), [.removed k (D.val b pos) .normal])

/-- `bucketGet` (`CCache.h:1149-1172`): the value, and whether a promotion is wanted. -/
def bucketGet (b : D.B) (k : K) (shouldPromote : Bool) : Option (V × Bool) :=
  match bucketFind D b k with
  | none => none
  | some pos => some (D.val b pos, shouldPromote && D.needsPromote b pos)

/-- `bucketPromote` (`CCache.h:1174-1185`). -/
def bucketPromote (b : D.B) (k : K) : D.B :=
  match bucketFind D b k with
  | none => b
  | some pos => if D.needsPromote b pos then D.promote b pos else b

/-- The user's decision on one entry in `purge`. -/
inductive Purge
  | skip
  | purge
  | abort
  deriving DecidableEq

/-- The per-bucket loop of `purge` (`CCache.h:921-942`), from position `pos`.  Returns false on
abort. -/
def purgeFrom (f : K → V → Purge) : Nat → Nat → D.B → Bool × D.B × List (Ev K V)
  | 0, _, b => (true, b, [])
  | fuel + 1, pos, b =>
    if D.valid b pos then
      match f (D.key b pos) (D.val b pos) with
      | .abort => (false, b, [])
      | .skip => purgeFrom f fuel (pos + 1) b
      | .purge =>
        let r := purgeFrom f fuel pos (D.del b pos)
        (r.1, r.2.1, .removed (D.key b pos) (D.val b pos) .normal :: r.2.2)
    else (true, b, [])

/-- The cache: `numChunks_`, and the buckets by chunk and index. -/
structure Tab where
  num : Nat
  bkt : Nat → Nat → D.B

/-- Write one bucket. -/
def setB (t : Nat → Nat → D.B) (n i : Nat) (b : D.B) : Nat → Nat → D.B :=
  fun n' i' => if n' = n ∧ i' = i then b else t n' i'

/-- Where keys go: `furcHash` (`tableFindChunk`, `CCache.h:1040-1050`), and the bucket index
`MurmurHash2(key) % bucketsPerChunk_` (`tableFindBucket`, `CCache.h:1052-1059`). -/
structure Place (K : Type) where
  chunk : Nat → K → Nat
  idx : K → Nat
  bpc : Nat

variable (P : Place K)

/-- The `COPY` pass of `tableRehash` on one bucket (`CCache.h:718-785`, the branch at `:743-777`):
chunk `n`, bucket index `i`, from position `pos`, `moved` entries moved so far.  The bucket itself is
not modified: entries go to another chunk. -/
def copyFrom (new n i maxMove : Nat) :
    Nat → Nat → Nat → (Nat → Nat → D.B) → (Nat → Nat → D.B) × List (Ev K V)
  | 0, _, _, t => (t, [])
  | fuel + 1, pos, moved, t =>
    if D.valid (t n i) pos then
      let k := D.key (t n i) pos
      let v := D.val (t n i) pos
      let n' := P.chunk new k
      if n' = n then copyFrom new n i maxMove fuel (pos + 1) moved t
      else if validCb k ∧ moved < maxMove then
        let r := bucketSet D validCb (t n' i) k v
        let r' := copyFrom new n i maxMove fuel (pos + 1) (moved + 1) (setB D t n' i r.2.1)
        (r'.1, r.2.2 ++ r'.2)
      else
        let r' := copyFrom new n i maxMove fuel (pos + 1) moved t
        (r'.1, .removed k v (if validCb k then .eviction else .normal) :: r'.2)
    else (t, [])

/-- `max_move` (`CCache.h:714-716`). -/
def maxMove (old new capacity : Nat) : Nat := min (max (new * capacity / old) 1) capacity

/-- The `DELETE` pass of `tableRehash` on one bucket (`CCache.h:718-785`, the branch at `:778-784`). -/
def purgeMoved (new n : Nat) : Nat → Nat → D.B → D.B
  | 0, _, b => b
  | fuel + 1, pos, b =>
    if D.valid b pos then
      if P.chunk new (D.key b pos) = n then purgeMoved new n fuel (pos + 1) b
      else purgeMoved new n fuel pos (D.del b pos)
    else b

/-- The coordinates of all buckets of the first `n` chunks, in the order of the loops
(`CCache.h:702-705, 1213-1215`). -/
def coords (n bpc : Nat) : List (Nat × Nat) :=
  (List.range n).flatMap fun ch => (List.range bpc).map fun i => (ch, i)

/-- `tableRehash(old, new, COPY)` (`CCache.h:693-789`). -/
def rehashCopy (old new : Nat) :
    List (Nat × Nat) → (Nat → Nat → D.B) → (Nat → Nat → D.B) × List (Ev K V)
  | [], t => (t, [])
  | (n, i) :: cs, t =>
    let r := copyFrom D validCb P new n i (maxMove old new (D.capacity (t n i))) (D.lim + 1) 0 0 t
    let r' := rehashCopy old new cs r.1
    (r'.1, r.2 ++ r'.2)

/-- `tableRehash(old, new, DELETE)` (`CCache.h:693-789`). -/
def rehashDelete (new : Nat) : List (Nat × Nat) → (Nat → Nat → D.B) → (Nat → Nat → D.B)
  | [], t => t
  | (n, i) :: cs, t =>
    rehashDelete new cs (setB D t n i (purgeMoved D P new n (D.lim + 1) 0 (t n i)))

/-- `allocator_.resize()` growing from `old` chunks (`/repo/cachelib/allocator/CCacheAllocator.cpp:70-78,
110-112`): the new chunks are zeroed. -/
def freshChunks (old : Nat) (t : Nat → Nat → D.B) : Nat → Nat → D.B :=
  fun n i => if n < old then t n i else D.empty

/-- `resize` to `new` chunks (`CCache.h:791-865`); `new` is what the allocator could provide. -/
def resizeTo (t : Tab D) (new : Nat) : Tab D × List (Ev K V) :=
  if t.num = new then (t, [])
  else
    let bk := if new > t.num then freshChunks D t.num t.bkt else t.bkt
    if new > 0 ∧ t.num > 0 then
      let r := rehashCopy D validCb P t.num new (coords t.num P.bpc) bk
      (⟨new, rehashDelete D P new (coords t.num P.bpc) r.1⟩, r.2)
    else (⟨new, bk⟩, [])

/-- The requests of the user (`CCache.h:867-951`). -/
inductive Op (K V : Type)
  | set (k : K) (v : V)
  | get (k : K) (promote : Bool)
  | exist (k : K)
  | del (k : K)
  | purge (f : K → V → Purge)
  | resize (n : Nat)

/-- `forEachBucket` (`CCache.h:1204-1227`) with the callback of `purge`. -/
def purgeAll (f : K → V → Purge) :
    List (Nat × Nat) → (Nat → Nat → D.B) → Bool × (Nat → Nat → D.B) × List (Ev K V)
  | [], t => (true, t, [])
  | (n, i) :: cs, t =>
    let r := purgeFrom D f (D.lim + 1) 0 (t n i)
    if r.1 then
      let r' := purgeAll f cs (setB D t n i r.2.1)
      (r'.1, r'.2.1, r.2.2 ++ r'.2.2)
    else (false, setB D t n i r.2.1, r.2.2)

/-- What a request returns: the code, the value (for `get` and `del`) and the callbacks. -/
structure Out (K V : Type) where
  ret : Ret
  val : Option V
  evs : List (Ev K V)

/-- One request (`callBucketFn`, `CCache.h:953-1038`, and `purge`, `resize`).  `promos` is
`allowPromotions_`. -/
def step (promos : Bool) (t : Tab D) : Op K V → Tab D × Out K V
  | .set k v =>
    if t.num = 0 then (t, ⟨.error, none, []⟩)
    else
      let n := P.chunk t.num k
      let i := P.idx k % P.bpc
      let r := bucketSet D validCb (t.bkt n i) k v
      ({ t with bkt := setB D t.bkt n i r.2.1 }, ⟨r.1, none, r.2.2⟩)
  | .get k promote =>
    if t.num = 0 then (t, ⟨.error, none, []⟩)
    else
      let n := P.chunk t.num k
      let i := P.idx k % P.bpc
      match bucketGet D (t.bkt n i) k promote with
      | none => (t, ⟨.notFound, none, []⟩)
      | some (v, pr) =>
        (if pr && promos then { t with bkt := setB D t.bkt n i (bucketPromote D (t.bkt n i) k) } else t,
          ⟨.found, some v, []⟩)
  | .exist k =>
    if t.num = 0 then (t, ⟨.error, none, []⟩)
    else
      match bucketGet D (t.bkt (P.chunk t.num k) (P.idx k % P.bpc)) k false with
      | none => (t, ⟨.notFound, none, []⟩)
      | some _ => (t, ⟨.found, none, []⟩)
  | .del k =>
    if t.num = 0 then (t, ⟨.error, none, []⟩)
    else
      let n := P.chunk t.num k
      let i := P.idx k % P.bpc
      let r := bucketDel D (t.bkt n i) k
      ({ t with bkt := setB D t.bkt n i r.2.1 }, ⟨r.1, r.2.2.1, r.2.2.2⟩)
  | .purge f =>
    let r := purgeAll D f (coords t.num P.bpc) t.bkt
    ({ t with bkt := r.2.1 }, ⟨if r.1 then .found else .error, none, r.2.2⟩)
  | .resize n =>
    let r := resizeTo D validCb P t n
    (r.1, ⟨.found, none, r.2⟩)

/-- A freshly created cache with `n` zeroed chunks (`CCache.h:656-677`). -/
def init (n : Nat) : Tab D := ⟨n, fun _ _ => D.empty⟩

end

end Verif.CCache
