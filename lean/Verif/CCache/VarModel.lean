/-!
# Compact cache: buckets with values of variable size

Model of `/repo/cachelib/compact_cache/CCacheVariableLruBucket.h`.

A bucket is a block of `kBucketDataSize` bytes.  From the left grows an array of entry headers, from
the right grows the "Data" section: a contiguous run of `EntryData` objects, each one byte of
`headerIndex` followed by the value's bytes.

Simplifications: the header array is kept as a separate function from positions to headers (each
header occupying `hs = sizeof(EntryHdr)` bytes starting at `hs * position`), so that a header is moved
as one struct; the theorems show that the byte ranges of the two sections never overlap.  Bytes are
natural numbers; the wrap-around of the 8- and 16-bit fields is written out explicitly.  Logging and
the debug-only `checkBucketConsistency` are left out (its content is part of the proved invariant).
-/
namespace Verif.CCache

/-- The compile-time sizes: `sizeof(EntryHdr)` and `ValueDescriptor::kMaxSize`
(`CCacheVariableLruBucket.h:126, 134-141`). -/
structure VCfg where
  hs : Nat
  maxVal : Nat

/-- `sizeof(EntryData)`: one byte, the flexible array member takes no space
(`CCacheVariableLruBucket.h:143-151`). -/
def ds : Nat := 1

/-- `kBucketDataSize` (`CCacheVariableLruBucket.h:155-156`). -/
def VCfg.kb (c : VCfg) : Nat := c.maxVal + c.hs + ds

/-- `kMaxEntries`: the largest `uint8_t` (`CCacheVariableLruBucket.h:124, 131`). -/
def kMaxEntries : Nat := 255

/-- `EntryHdr` (`CCacheVariableLruBucket.h:134-141`). -/
structure Hdr (K : Type) where
  key : K
  size : Nat
  off : Nat

/-- `Bucket` (`CCacheVariableLruBucket.h:158-169`): `n` is `numEntries`, `total` is `totalDataSize`,
`hdr` is the "Entry Headers" section and `mem i` is `data[i]`. -/
structure VB (K : Type) where
  n : Nat
  total : Nat
  hdr : Nat → Hdr K
  mem : Nat → Nat

/-- `memmove(m + dst, m + src, n)` on an array of elements. -/
def memmove {α : Type} (m : Nat → α) (dst src n : Nat) : Nat → α :=
  fun i => if dst ≤ i ∧ i < dst + n then m (i - dst + src) else m i

/-- `memcpy(m + dst, bytes, bytes.length)`. -/
def memcpy (m : Nat → Nat) (dst : Nat) (v : List Nat) : Nat → Nat :=
  fun i => if dst ≤ i ∧ i < dst + v.length then (v[i - dst]?).getD 0 else m i

/-- Write one array element. -/
def put {α : Type} (m : Nat → α) (i : Nat) (x : α) : Nat → α :=
  fun j => if j = i then x else m j

/-- `getFirstEntryDataOffset` (`CCacheVariableLruBucket.h:890-892`). -/
def firstOff {K : Type} (c : VCfg) (b : VB K) : Nat := c.kb - b.total

/-- `EntryHandle::operator bool` (`CCacheVariableLruBucket.h:196-198`), for a non-negative position. -/
def vValid {K : Type} (b : VB K) (pos : Nat) : Bool := pos < b.n

/-- `EntryHandle::key` (`CCacheVariableLruBucket.h:203`). -/
def vKey {K : Type} (b : VB K) (pos : Nat) : K := (b.hdr pos).key

/-- `copyVal` (`CCacheVariableLruBucket.h:599-606`, with `getEntryData` `:924-927`): the
`dataSize` bytes that follow the `headerIndex` byte at the entry's offset. -/
def vVal {K : Type} (b : VB K) (pos : Nat) : List Nat :=
  (List.range (b.hdr pos).size).map fun j => b.mem ((b.hdr pos).off + ds + j)

/-- `nEntriesCapacity` (`CCacheVariableLruBucket.h:248-256`). -/
def vCapacity {K : Type} (c : VCfg) (b : VB K) : Nat :=
  if b.n = 0 then 0 else (b.n * c.kb) / (b.total + c.hs * b.n)

/-- The loop of `shiftEntriesData` (`CCacheVariableLruBucket.h:732-738`, `getNextEntryData`
`:939-944`): starting at `cur`, add `dist` to the `dataOffset` of the header of every `EntryData`
before `stop`.  `fuel` bounds the number of iterations; each advances by at least one byte. -/
def shiftHdrs {K : Type} (mem : Nat → Nat) (dist stop : Nat) :
    Nat → Nat → (Nat → Hdr K) → (Nat → Hdr K)
  | 0, _, hdr => hdr
  | fuel + 1, cur, hdr =>
    if cur < stop then
      let i := mem cur
      let hdr' := put hdr i { hdr i with off := ((hdr i).off + dist) % 65536 }
      shiftHdrs mem dist stop fuel (cur + ds + (hdr' i).size) hdr'
    else hdr

/-- `shiftEntriesData` (`CCacheVariableLruBucket.h:724-742`). -/
def shiftEntries {K : Type} (b : VB K) (src dist chunk : Nat) : VB K :=
  { b with
    hdr := shiftHdrs b.mem dist (src + chunk) chunk src b.hdr
    mem := memmove b.mem (src + dist) src chunk }

/-- The header-index loops: for every listed position, rewrite the `headerIndex` byte of the
`EntryData` that the header at that position points to. -/
def reindex {K : Type} (hdr : Nat → Hdr K) (f : Nat → Nat → Nat) :
    List Nat → (Nat → Nat) → (Nat → Nat)
  | [], mem => mem
  | i :: is, mem => reindex hdr f is (put mem (hdr i).off (f i (mem (hdr i).off)))

/-- `promote` (`CCacheVariableLruBucket.h:387-413`). -/
def vPromote {K : Type} (b : VB K) (pos : Nat) : VB K :=
  let toPromote := b.hdr pos
  let hdr' := put (memmove b.hdr 1 0 pos) 0 toPromote
  { b with
    hdr := hdr'
    mem := reindex hdr' (fun i _ => i % 256) (List.range (pos + 1)) b.mem }

/-- `needs_promote` (`CCacheVariableLruBucket.h:420-423`). -/
def vNeedsPromote {K : Type} (_ : VB K) (pos : Nat) : Bool := pos > 1

/-- `del` (`CCacheVariableLruBucket.h:442-483`). -/
def vDel {K : Type} (c : VCfg) (b : VB K) (pos : Nat) : VB K :=
  let dist := ((b.hdr pos).size + ds) % 65536
  let chunk := (b.hdr pos).off - firstOff c b
  let b1 := shiftEntries b (firstOff c b) dist chunk
  let mem' := reindex b1.hdr (fun _ x => (x + 255) % 256)
    ((List.range (b.n - (pos + 1))).map (· + (pos + 1))) b1.mem
  let hdr' := if pos < b.n - 1 then memmove b1.hdr pos (pos + 1) (b.n - pos - 1) else b1.hdr
  { n := b.n - 1
    total := b.total - dist
    hdr := hdr'
    mem := mem' }

/-- Step 1 of `evictEntries` (`CCacheVariableLruBucket.h:790-802, 814-816`): walk from the last
header, collecting positions until enough space would be free.  The first argument is
`evictedPos + 1`. -/
def evictWalk {K : Type} (c : VCfg) (b : VB K) (req : Nat) : Nat → Nat → List Nat
  | 0, _ => []
  | r + 1, free =>
    if free < req then r :: evictWalk c b req r (free + (b.hdr r).size + c.hs + ds) else []

/-- Where the chunk to be moved starts (`CCacheVariableLruBucket.h:849-854`): right after the next
evicted object to the left, or at the beginning of the data. -/
def chunkStart {K : Type} (c : VCfg) (b : VB K) : List Nat → Nat
  | [] => firstOff c b
  | a :: _ => (b.hdr a).off + (b.hdr a).size + ds

/-- Step 3 of `evictEntries` (`CCacheVariableLruBucket.h:832-869`): the evicted headers, right-most
data first, with the accumulated shift distance. -/
def evictShift {K : Type} (c : VCfg) : List Nat → Nat → VB K → VB K × Nat
  | [], d, b => (b, d)
  | a :: rest, d, b =>
    let d' := d + (b.hdr a).size + ds
    let start := chunkStart c b rest
    let chunk := (b.hdr a).off - start
    let b' := if chunk = 0 then b else shiftEntries b start d' chunk
    evictShift c rest d' b'

/-- `evictEntries` (`CCacheVariableLruBucket.h:767-879`).  Returns whether anything was evicted, the
new bucket and the entries for which the eviction callback was invoked, in order. -/
def evictEntries {K : Type} (c : VCfg) (b : VB K) (req : Nat) : Bool × VB K × List (K × List Nat) :=
  let free := c.kb - b.total - c.hs * b.n
  if free ≥ req ∧ b.n ≠ kMaxEntries then (false, b, [])
  else
    let arr :=
      if b.n = kMaxEntries then
        (b.n - 1) :: evictWalk c b req (b.n - 1) (free + (b.hdr (b.n - 1)).size + c.hs + ds)
      else evictWalk c b req b.n free
    let sorted := arr.mergeSort (fun x y => (b.hdr x).off ≤ (b.hdr y).off)
    let r := evictShift c sorted.reverse 0 b
    (true, { r.1 with n := b.n - arr.length, total := b.total - r.2 },
      arr.map fun i => (vKey b i, vVal b i))

/-- `insert` (`CCacheVariableLruBucket.h:291-373`).  Returns the C++ return value (-1 error, 1
something was evicted, 0 otherwise), the bucket and the eviction callbacks. -/
def vInsert {K : Type} (c : VCfg) (b : VB K) (k : K) (v : List Nat) :
    Int × VB K × List (K × List Nat) :=
  if v.length > c.maxVal then (-1, b, [])
  else if v.length > 255 then (-1, b, [])
  else
    let r := evictEntries c b (v.length + c.hs + ds)
    let b1 := r.2.1
    let total' := (b1.total + v.length + ds) % 65536
    let off := c.kb - total'
    let mem1 := memcpy b1.mem (off + ds) v
    let mem2 := reindex b1.hdr (fun _ x => (x + 1) % 256) (List.range b1.n) mem1
    let hdr' := put (memmove b1.hdr 1 0 b1.n) 0 ⟨k, v.length % 256, off % 65536⟩
    (if r.1 then 1 else 0,
      { n := (b1.n + 1) % 256
        total := total'
        hdr := hdr'
        mem := put mem2 off 0 },
      r.2.2)

/-- `updateVal` (`CCacheVariableLruBucket.h:518-587`). -/
def vUpdate {K : Type} (c : VCfg) (b : VB K) (pos : Nat) (v : List Nat) :
    VB K × List (K × List Nat) :=
  let h := b.hdr pos
  if h.size = v.length then
    (vPromote { b with mem := memcpy b.mem (h.off + ds) v } pos, [])
  else if v.length < h.size then
    let dist := h.size - v.length
    let mem1 := put (memcpy b.mem (h.off + dist + ds) v) (h.off + dist) (pos % 256)
    let b1 := { b with mem := mem1 }
    let b2 := shiftEntries b1 (firstOff c b) dist (h.off - firstOff c b)
    let b3 := { b2 with
      hdr := put b2.hdr pos
        { b2.hdr pos with
          off := ((b2.hdr pos).off + dist) % 65536
          size := v.length % 256 }
      total := b2.total - dist }
    (vPromote b3 pos, [])
  else
    let r := vInsert c (vDel c b pos) h.key v
    (r.2.1, r.2.2)

end Verif.CCache
