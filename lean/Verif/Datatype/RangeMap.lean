import Verif.Datatype.World
import Verif.Datatype.BinaryIndexLemmas

/-! # `RangeMap` (cachelib/datatype/RangeMap.h) -/

namespace Verif.Datatype

/-- What a `RangeMap<K, V, C>` depends on: the key's bytes, its `operator<`, `sizeof(BinaryIndex::Entry)` and the
largest item the cache can allocate. -/
structure RMCfg (K : Type) where
  E : KeyEnc K
  lt : K → K → Bool
  es : Nat
  maxItem : Nat

/-- A parent item holding a `BinaryIndex`, and the buffers in its chained items. -/
structure RMItem (K : Type) where
  idx : BI K
  bufs : List Buffer

/-- The environment: as for the storage, and the previous contents of the memory of a new index. -/
structure RMOrc (K : Type) where
  o : Orc
  ij : Nat → K × Nat

inductive RMOp (K : Type) where
  /-- RangeMap.h:97 -/
  | insert (k : K) (v : List Byte)
  /-- RangeMap.h:106-107 -/
  | insertOrReplace (k : K) (v : List Byte)
  /-- RangeMap.h:111 -/
  | remove (k : K)
  /-- RangeMap.h:115 -/
  | removeBefore (k : K)
  /-- RangeMap.h:119-120, reading the first `n` bytes of the value through the iterator -/
  | lookup (k : K) (n : Nat)
  /-- RangeMap.h:123-125, reading the first `n k` bytes of the value of each key `k` of the range -/
  | range (k1 k2 : K) (n : K → Nat)
  /-- RangeMap.h:129-132 -/
  | approx (k1 k2 : K) (n : K → Nat)
  /-- RangeMap.h:135-138 -/
  | iterate (n : K → Nat)
  /-- RangeMap.h:162-164 -/
  | size
  /-- RangeMap.h:149 -/
  | compact
  /-- writing the byte `x` at position `j` of the value through the iterator returned by `lookup(k)` -/
  | poke (k : K) (j : Nat) (x : Byte)
  /-- `cache.insertOrReplace(map.viewWriteHandle())` by the user -/
  | publish
  /-- `cache.remove(key)` by the user -/
  | unpublish
  /-- `RangeMap::fromWriteHandle` with a handle of an older or newer item of this container (RangeMap.h:81) -/
  | attach (i : Nat)

inductive RMOut (K : Type) where
  /-- undefined behaviour, or an exception that the header does not mention -/
  | ub
  /-- `OutOfMemory`, a `std::bad_alloc` -/
  | throws
  /-- a Boolean result; `insertOrReplace` returns whether it replaced -/
  | bool (b : Bool)
  | found (v : Option (List Byte))
  | entries (l : List (K × List Byte))
  | num (n : Nat)
  | unit

namespace RMapM
variable {K : Type} [DecidableEq K]

/-- RangeMap.h:312-315 `computeStorageSize`: `sizeof(BinaryIndex)` is 8; the result is truncated to `uint32_t`. -/
def computeStorageSize (cfg : RMCfg K) (capacity : Nat) : Nat := u32 (8 + capacity * cfg.es)

/-- RangeMap.h:744-795 `cloneIndexAndAllocate`, up to the publication: the new item and the address; `none` is a
throw (of `OutOfMemory`, or of `allocate` for a request larger than any item). -/
def cloneIndexAndAllocate (cfg : RMCfg K) (it : RMItem K) (allocSize : Nat) (expandIndex : Bool) (o : RMOrc K) :
    Option (RMItem K × Nat) :=
  let newIndexCapacity := if expandIndex then u32 (it.idx.cap * 2) else it.idx.cap
  if o.o.ht && decide (computeStorageSize cfg newIndexCapacity ≤ cfg.maxItem) then
    let newIndex := BI.cloneIndex (BI.new newIndexCapacity o.ij) it.idx
    match BufMgr.clone it.bufs o.o with
    | none => none
    | some bufs =>
      let r := BufMgr.allocate bufs allocSize
      if isNull r.2 then
        let e := BufMgr.expand r.1 allocSize o.o
        if e.2 then
          let q := BufMgr.allocate e.1 allocSize
          if isNull q.2 then none else some (⟨newIndex, q.1⟩, q.2)
        else none
      else some (⟨newIndex, r.1⟩, r.2)
  else none

/-- RangeMap.h:692-695: the loop of `compact`; the result of `insertOrReplace` is ignored. -/
def reindex (cfg : RMCfg K) (bufs : List Buffer) : List Nat → BI K → Option (BI K)
  | [], t => some t
  | a :: l, t =>
    match BufMgr.get bufs a with
    | none => none
    | some p =>
      match t.insertOrReplace cfg.lt (loadKey cfg.E bufs p) a with
      | none => none
      | some r => reindex cfg bufs l r.1

/-- RangeMap.h:678-696 `compact`. -/
def compactItem (cfg : RMCfg K) (it : RMItem K) (junk : Mem) : Option (RMItem K) :=
  match BufMgr.compact junk it.bufs with
  | none => none
  | some bufs => match BufMgr.iter bufs with
    | none => none
    | some l => match reindex cfg bufs l it.idx with
      | none => none
      | some t => some ⟨t, bufs⟩

/-- RangeMap.h:188 -/
def kWastedBytesPctThreshold : Nat := 50

/-- RangeMap.h:569-571, 580-582, 713-715: the automatic compaction. -/
def autoCompact (cfg : RMCfg K) (it : RMItem K) (junk : Mem) : Option (RMItem K) :=
  match BufMgr.wastedBytesPct it.bufs with
  | none => none
  | some p => if p > kWastedBytesPctThreshold then compactItem cfg it junk else some it

/-- RangeMap.h:720-729: the item the container lives in afterwards, whether it is a new one, and the address. -/
def allocPhase (cfg : RMCfg K) (it : RMItem K) (size : Nat) (o : RMOrc K) : Option (RMItem K × Bool × Nat) :=
  if it.idx.overLimit then
    match cloneIndexAndAllocate cfg it size true o with
    | none => none
    | some r => some (r.1, true, r.2)
  else
    let r := BufMgr.allocate it.bufs size
    if isNull r.2 then
      match cloneIndexAndAllocate cfg ⟨it.idx, r.1⟩ size false o with
      | none => none
      | some r => some (r.1, true, r.2)
    else some (⟨it.idx, r.1⟩, false, r.2)

/-- RangeMap.h:731-741: write the entry, index it, and remove the entry it replaces. -/
def putEntry (cfg : RMCfg K) (it : RMItem K) (k : K) (v : List Byte) (addr : Nat) : RMItem K × RMOut K :=
  match BufMgr.get it.bufs addr with
  | none => (it, .ub)
  | some p =>
    let bufs := storeEntry cfg.E it.bufs p k v
    match it.idx.insertOrReplace cfg.lt k addr with
    | none => (it, .ub)
    | some (t', old) =>
      if isNull old then (⟨t', bufs⟩, .bool false)
      else match BufMgr.remove bufs old with
        | none => (it, .ub)
        | some bufs' => (⟨t', bufs'⟩, .bool true)

/-- RangeMap.h:708-742 `insertOrReplaceInternal`.  The publication (790-792) happens before the entry is written. -/
def insertInternal (cfg : RMCfg K) (W : World (RMItem K)) (o : RMOrc K) (k : K) (v : List Byte) :
    World (RMItem K) × RMOut K :=
  match W.curItem with
  | none => (W, .ub)
  | some it =>
    match autoCompact cfg it o.o.junk with
    | none => (W, .ub)
    | some it1 =>
      let W := W.setCur it1
      match allocPhase cfg it1 (u32 (cfg.E.ks + v.length)) o with
      | none => (W, .throws)
      | some (it2, moved, addr) =>
        let W' := if moved then (if W.accessible then (W.push it2).publish else W.push it2) else W.setCur it2
        let r := putEntry cfg it2 k v addr
        (W'.setCur r.1, r.2)

/-- RangeMap.h:406-414, 578-579: the delete callback on every removed address. -/
def removeAll (bufs : List Buffer) : List Nat → Option (List Buffer)
  | [] => some bufs
  | a :: l => match BufMgr.remove bufs a with
    | none => none
    | some bufs' => removeAll bufs' l

/-- RangeMap.h:289-296, 452-470: walking an iterator from position `i` to position `j`, reading the entries. -/
def readRange (cfg : RMCfg K) (it : RMItem K) (n : K → Nat) (j : Nat) : Nat → Nat → Option (List (K × List Byte))
  | 0, i => if i = j then some [] else none
  | f + 1, i =>
    if i = j then some []
    else if i ≥ it.idx.num then none
    else match BufMgr.get it.bufs (it.idx.ents i).2 with
      | none => none
      | some p => match readRange cfg it n j f (i + 1) with
        | none => none
        | some r =>
          let k := loadKey cfg.E it.bufs p
          some ((k, BufMgr.load it.bufs (p.1, p.2 + cfg.E.ks) (n k)) :: r)

/-- RangeMap.h:598-613 `rangeLookup`: the positions of the two iterators. -/
def rangeLookup (cfg : RMCfg K) (t : BI K) (k1 k2 : K) : Nat × Nat :=
  let i1 := t.lookup cfg.lt k1
  if i1 = t.num then (t.num, t.num)
  else
    let i2 := t.lookup cfg.lt k2
    if i2 = t.num then (t.num, t.num) else (i1, i2 + 1)

/-- RangeMap.h:624-643 `rangeLookupApproximate`. -/
def rangeLookupApproximate (cfg : RMCfg K) (t : BI K) (k1 k2 : K) : Nat × Nat :=
  if t.num = 0 then (t.num, t.num)
  else
    let e1 := t.lookupLowerbound cfg.lt k1
    if e1 = t.num then (t.num, t.num)
    else
      let e2 := t.lookupLowerbound cfg.lt k2
      if e2 ≠ t.num ∧ (t.ents e2).1 = k2 then (e1, e2 + 1) else (e1, e2)

/-- Reading all the entries of a range. -/
def readOut (cfg : RMCfg K) (it : RMItem K) (n : K → Nat) (r : Nat × Nat) : RMOut K :=
  match readRange cfg it n r.2 (it.idx.num + 1) r.1 with
  | none => .ub
  | some l => .entries l

/-- RangeMap.h:586-590, 289-296: the entry of an iterator returned by `lookup`; outer `none` is a throw. -/
def lookupPtr (cfg : RMCfg K) (it : RMItem K) (k : K) : Option (Option (Nat × Nat)) :=
  let e := it.idx.lookup cfg.lt k
  if e = it.idx.num then some none
  else match BufMgr.get it.bufs (it.idx.ents e).2 with
    | none => none
    | some p => some (some p)

/-- RangeMap.h:560-573 `remove`. -/
def removeItem (cfg : RMCfg K) (it : RMItem K) (k : K) (junk : Mem) : RMItem K × RMOut K :=
  let r := it.idx.remove cfg.lt k
  if isNull r.2 then (⟨r.1, it.bufs⟩, .bool false)
  else match BufMgr.remove it.bufs r.2 with
    | none => (it, .ub)
    | some bufs => match autoCompact cfg ⟨r.1, bufs⟩ junk with
      | none => (it, .ub)
      | some it' => (it', .bool true)

/-- RangeMap.h:575-584 `removeBefore`. -/
def removeBeforeItem (cfg : RMCfg K) (it : RMItem K) (k : K) (junk : Mem) : RMItem K × RMOut K :=
  let r := it.idx.removeBefore cfg.lt k
  match removeAll it.bufs r.2.2 with
  | none => (it, .ub)
  | some bufs => match autoCompact cfg ⟨r.1, bufs⟩ junk with
    | none => (it, .ub)
    | some it' => (it', .num r.2.1)

/-- One call. -/
def step (cfg : RMCfg K) (W : World (RMItem K)) (o : RMOrc K) (op : RMOp K) : World (RMItem K) × RMOut K :=
  match W.curItem with
  | none => (W, .ub)
  | some it =>
    match op with
    -- RangeMap.h:543-551
    | .insert k v =>
      if it.idx.lookup cfg.lt k ≠ it.idx.num then (W, .bool false)
      else
        let r := insertInternal cfg W o k v
        match r.2 with
        | .bool _ => (r.1, .bool true)
        | x => (r.1, x)
    -- RangeMap.h:553-558
    | .insertOrReplace k v => insertInternal cfg W o k v
    | .remove k => let r := removeItem cfg it k o.o.junk; (W.setCur r.1, r.2)
    | .removeBefore k => let r := removeBeforeItem cfg it k o.o.junk; (W.setCur r.1, r.2)
    | .lookup k n => match lookupPtr cfg it k with
      | none => (W, .ub)
      | some none => (W, .found none)
      | some (some p) => (W, .found (some (BufMgr.load it.bufs (p.1, p.2 + cfg.E.ks) n)))
    | .range k1 k2 n => (W, readOut cfg it n (rangeLookup cfg it.idx k1 k2))
    | .approx k1 k2 n => (W, readOut cfg it n (rangeLookupApproximate cfg it.idx k1 k2))
    -- RangeMap.h:654-676
    | .iterate n => (W, readOut cfg it n (0, it.idx.num))
    | .size => (W, .num it.idx.num)
    | .compact => match compactItem cfg it o.o.junk with
      | none => (W, .ub)
      | some it' => (W.setCur it', .unit)
    | .poke k j x => match lookupPtr cfg it k with
      | some (some p) => (W.setCur ⟨it.idx, BufMgr.store it.bufs (p.1, p.2 + cfg.E.ks + j) [x]⟩, .unit)
      | _ => (W, .ub)
    | .publish => (W.publish, .unit)
    | .unpublish => ({ W with cached := none }, .unit)
    | .attach i => ({ W with cur := i }, .unit)

/-- RangeMap.h:480-491, 502-520 `create`: `none` is a null container (or a throw for a too big request). -/
def create (cfg : RMCfg K) (numEntries numBytes : Nat) (o : RMOrc K) : Option (World (RMItem K)) :=
  if o.o.ht && decide (computeStorageSize cfg numEntries ≤ cfg.maxItem) then
    match BufMgr.create numBytes o.o with
    | none => none
    | some bufs => some ⟨[⟨BI.new numEntries o.ij, bufs⟩], 0, none⟩
  else none

/-- A sequence of calls, with what the environment decides during each of them: the calls and their results.  It
stops after undefined behaviour. -/
def run (cfg : RMCfg K) : World (RMItem K) → List (RMOrc K × RMOp K) → List (RMOp K × RMOut K)
  | _, [] => []
  | W, (o, op) :: l =>
    let r := step cfg W o op
    match r.2 with
    | .ub => [(op, .ub)]
    | x => (op, x) :: run cfg r.1 l

end RMapM
end Verif.Datatype
