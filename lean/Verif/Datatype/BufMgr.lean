import Verif.Datatype.Buffer

/-! # `BufferAddr` and `BufferManager` (cachelib/datatype/Buffer.h:197-733)

A `BufferManager` is the list of the chained items of a parent item, each holding a `Buffer`, in the order
of `buffers_` (oldest first: `materializeChainedAllocs`, Buffer.h:611-621, reverses the chain).  Chained
items are owned by the parent; adding, replacing and listing them is the `CacheAllocator`'s business and is
modelled by the list operations.
-/

namespace Verif.Datatype

/-- Buffer.h:203-204, 247: the null address. -/
def nullAddr : Nat := 4294967295

/-- Buffer.h:250-255 `BufferAddr::compress`. -/
def compress (itemOffset byteOffset : Nat) : Nat := u32 (itemOffset <<< 22) ||| byteOffset
/-- Buffer.h:232 -/
def itemOffset (a : Nat) : Nat := a >>> 22
/-- Buffer.h:235 with `kByteOffsetMask` (Buffer.h:208-210). -/
def byteOffset (a : Nat) : Nat := a &&& 4194303
/-- Buffer.h:226-229 -/
def isNull (a : Nat) : Bool := a == nullAddr

/-- Buffer.h:213-216 -/
def kMaxNumChainedItems : Nat := 1023
/-- Buffer.h:304 -/
def kMaxBufferCapacity : Nat := 1024 * 1024 - 100

/-- What the environment decides during one operation: whether each `cache.allocate` /
`allocateChainedItem` succeeds, and the previous content of freshly allocated memory. -/
structure Orc where
  /-- allocation of a new parent item -/
  ht : Bool
  /-- allocation of the `i`-th chained item of a clone -/
  clone : Nat → Bool
  /-- allocation in `expandBuffer` -/
  expand : Bool
  /-- allocation in `addNewBuffer` -/
  add : Bool
  /-- uninitialised memory -/
  junk : Mem

namespace BufMgr

/-- Buffer.h:623-631 `allocateFrom`. -/
def allocateFrom (b : Buffer) (size n : Nat) : Buffer × Nat :=
  if b.canAllocateWithoutCompaction size then
    let r := b.allocate size
    (r.1, compress n r.2)
  else (b, nullAddr)

/-- Buffer.h:524-531, the loop of `allocate`, from buffer number `i` on. -/
def allocLoop (size : Nat) : Nat → List Buffer → List Buffer × Nat
  | _, [] => ([], nullAddr)
  | i, b :: bs =>
    let r := allocateFrom b size i
    if isNull r.2 then
      let q := allocLoop size (i + 1) bs
      (r.1 :: q.1, q.2)
    else (r.1 :: bs, r.2)

/-- Buffer.h:513-532 `BufferManager::allocate`. -/
def allocate (bufs : List Buffer) (size : Nat) : List Buffer × Nat :=
  if getAllocSize size ≥ kMaxBufferCapacity then (bufs, nullAddr) else allocLoop size 0 bufs

/-- Buffer.h:649-680 `expandBuffer`: `none` is the `nullptr` result; the replacement of the chained item
(675) is done by the caller here. -/
def expandBuffer (old : Buffer) (minAdditionalSize : Nat) (ok : Bool) (junk : Mem) : Option Buffer :=
  if u32 (old.cap + minAdditionalSize) ≥ kMaxBufferCapacity then none
  else
    let normalDesiredCapacity := min kMaxBufferCapacity (u32 (old.cap * 2))
    let minDesiredCapacity := u32 (old.cap + minAdditionalSize)
    let desiredCapacity := max minDesiredCapacity normalDesiredCapacity
    if ok then some (Buffer.copyOf desiredCapacity old junk) else none

/-- Buffer.h:534-562 `BufferManager::expand` (with `addNewBuffer`, 633-647). -/
def expand (bufs : List Buffer) (size : Nat) (o : Orc) : List Buffer × Bool :=
  let requiredSize := getAllocSize size
  if requiredSize > kMaxBufferCapacity then (bufs, false)
  else
    match bufs.getLast? with
    | none => (bufs, false)
    | some last =>
      match expandBuffer last requiredSize o.expand o.junk with
      | some nb => (bufs.set (bufs.length - 1) nb, true)
      | none =>
        if bufs.length ≥ kMaxNumChainedItems then (bufs, false)
        else if o.add then (bufs ++ [Buffer.fresh kMaxBufferCapacity o.junk], true)
        else (bufs, false)

/-- Buffer.h:564-573 `remove`; `none` is a throw. -/
def remove (bufs : List Buffer) (addr : Nat) : Option (List Buffer) :=
  if isNull addr then none
  else match bufs[itemOffset addr]? with
    | none => none
    | some b => match b.remove (byteOffset addr) with
      | none => none
      | some b' => some (bufs.set (itemOffset addr) b')

/-- Buffer.h:575-582, 599-609 `get`: a pointer into a buffer; `none` is a throw. -/
def get (bufs : List Buffer) (addr : Nat) : Option (Nat × Nat) :=
  if isNull addr then none
  else match bufs[itemOffset addr]? with
    | none => none
    | some _ => some (itemOffset addr, byteOffset addr)

/-- `memcpy(p, l, l.length)` through a pointer returned by `get`. -/
def store (bufs : List Buffer) (p : Nat × Nat) (l : List Byte) : List Buffer :=
  match bufs[p.1]? with
  | none => bufs
  | some b => bufs.set p.1 { b with data := wrBytes b.data p.2 l }

/-- Reading `n` bytes through a pointer returned by `get`. -/
def load (bufs : List Buffer) (p : Nat × Nat) (n : Nat) : List Byte :=
  match bufs[p.1]? with
  | none => []
  | some b => rdBytes b.data p.2 n

/-- Buffer.h:584-597 `clone`: `none` is the null manager returned when an allocation fails.  The chained
items get the same bytes (`memcpy` of the whole usable size, 591-592). -/
def cloneLoop (ok : Nat → Bool) : Nat → List Buffer → Option (List Buffer)
  | _, [] => some []
  | i, b :: bs =>
    if ok i then
      match cloneLoop ok (i + 1) bs with
      | none => none
      | some r => some ({ b with data := b.data } :: r)
    else none

/-- Buffer.h:584-597 `clone`. -/
def clone (bufs : List Buffer) (o : Orc) : Option (List Buffer) := cloneLoop o.clone 0 bufs

/-- Buffer.h:690-700: the body of the loop of `compact`. -/
def compact1 (b : Buffer) (junk : Mem) : Option Buffer :=
  if b.wastedBytes = 0 then some b
  else match b.compact (Buffer.fresh b.cap junk) with
    | none => none
    | some tmp => some (Buffer.copyOf tmp.cap tmp b.data)

/-- Buffer.h:682-702 `BufferManager::compact`: every chained item, in place (the order does not matter). -/
def compact (junk : Mem) : List Buffer → Option (List Buffer)
  | [] => some []
  | b :: bs =>
    match compact1 b junk with
    | none => none
    | some b' => match compact junk bs with
      | none => none
      | some bs' => some (b' :: bs')

/-- Buffer.h:722-732 `wastedBytesPct`; `none` is the division by zero. -/
def wastedBytesPct (bufs : List Buffer) : Option Nat :=
  let w := (bufs.map Buffer.wastedBytes).sum
  let c := (bufs.map Buffer.cap).sum
  if c = 0 then none else some (w * 100 / c)

/-- Buffer.h:713-720 -/
def wastedBytes (bufs : List Buffer) : Nat := (bufs.map Buffer.wastedBytes).sum
/-- Buffer.h:704-711 -/
def remainingBytes (bufs : List Buffer) : Nat := (bufs.map Buffer.remainingBytes).sum

/-- Buffer.h:441-511 `BufferManagerIterator`: walks the chain (newest item first), and inside each item the
iterator of its buffer; an address is built from the chain index as in `getAsBufferAddr` (460-463). -/
def iterLoop (n : Nat) : Nat → List Buffer → Option (List Nat)
  | _, [] => some []
  | index, b :: chain =>
    match b.iter with
    | none => none
    | some l => match iterLoop n (index + 1) chain with
      | none => none
      | some r => some (l.map (fun off => compress (n - index - 1) off) ++ r)

/-- The addresses visited by iterating from `begin()` to `end()` (Buffer.h:441-511). -/
def iter (bufs : List Buffer) : Option (List Nat) := iterLoop bufs.length 0 bufs.reverse

/-- Buffer.h:314-329: a new manager with one buffer; `none` is a throw. -/
def create (initialCapacity : Nat) (o : Orc) : Option (List Buffer) :=
  if initialCapacity > kMaxBufferCapacity then none
  else if o.add then some [Buffer.fresh initialCapacity o.junk] else none

end BufMgr
end Verif.Datatype
