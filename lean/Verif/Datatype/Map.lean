import Verif.Datatype.World
import Verif.Datatype.HashTableLemmas

/-! # `Map` (cachelib/datatype/Map.h) -/

namespace Verif.Datatype

/-- What a `Map<K, V, C>` depends on: the key's bytes, the hash function (`MurmurHash2`, any function here),
`sizeof(HashTable::Entry)`, the largest index `copyHashTable` accepts (`kMaxHashTableSize`, Map.h:297-299: it depends
on the length of the cache key), the largest item the cache can allocate, and the floating-point half of
`overLimit` (Map.h:88, any predicate of the number of entries and the capacity here). -/
structure MapCfg (K : Type) where
  E : KeyEnc K
  hash : K → Nat
  es : Nat
  maxHT : Nat
  maxItem : Nat
  overRatio : Nat → Nat → Bool

/-- A parent item holding a `HashTable`, and the buffers in its chained items. -/
structure MapItem (K : Type) where
  ht : HT K
  bufs : List Buffer

inductive MapOp (K : Type) where
  /-- Map.h:413 -/
  | insert (k : K) (v : List Byte)
  /-- Map.h:428-429 -/
  | insertOrReplace (k : K) (v : List Byte)
  /-- Map.h:433 -/
  | erase (k : K)
  /-- Map.h:391, 395, reading the first `n` bytes of the value through the returned pointer -/
  | find (k : K) (n : Nat)
  /-- Map.h:484-490, reading the first `n k` bytes of the value of each key `k` met -/
  | iterate (n : K → Nat)
  /-- Map.h:440 -/
  | size
  /-- Map.h:451 -/
  | compact
  /-- writing the byte `x` at position `j` of the value through the pointer returned by `find(k)` -/
  | poke (k : K) (j : Nat) (x : Byte)
  /-- `cache.insertOrReplace(map.viewWriteHandle())` by the user -/
  | publish
  /-- `cache.remove(key)` by the user -/
  | unpublish
  /-- `Map::fromWriteHandle` with a handle of an older or newer item of this container (Map.h:373) -/
  | attach (i : Nat)

inductive MapOut (K : Type) where
  /-- undefined behaviour, or an exception that the header does not mention -/
  | ub
  /-- `std::bad_alloc` or `MapIndexMaxedOut` -/
  | throws
  /-- `std::runtime_error` of `compact`: "Map is no longer in a usable state" (Map.h:446-450) -/
  | broken
  /-- a Boolean result; `insertOrReplace` returns whether it replaced -/
  | bool (b : Bool)
  | found (v : Option (List Byte))
  | entries (l : List (K × List Byte))
  | num (n : Nat)
  | unit

namespace MapM
variable {K : Type} [DecidableEq K]

/-- Map.h:56-63 `computeStorageSize`: `sizeof(HashTable)` is 8; `none` is a throw. -/
def computeStorageSize (cfg : MapCfg K) (capacity : Nat) : Option Nat :=
  let totalSize := 8 + capacity * cfg.es
  if totalSize > 4294967295 then none else some totalSize

/-- Map.h:86-89 `overLimit`; `capacity_ - 1` is computed in `uint32_t`. -/
def overLimit (cfg : MapCfg K) (t : HT K) : Bool :=
  decide (t.num ≥ u32 (4294967295 + t.cap)) || cfg.overRatio t.num t.cap

/-- Map.h:285-320 `copyHashTable`; `none` is a throw or a null handle, which make `insertImpl` throw alike. -/
def copyHashTable (cfg : MapCfg K) (t : HT K) (newCapacity : Nat) (ok : Bool) : Option (HT K) :=
  match computeStorageSize cfg newCapacity with
  | none => none
  | some newSize =>
    if newSize > cfg.maxHT then none
    else if ok && decide (newSize ≤ cfg.maxItem) then HT.copy cfg.hash (u32 newCapacity) t
    else none

/-- Map.h:634-648 and 742-760 (with 322-331, `factor` 2): copy the index into a new item, then clone the chained
items. -/
def cloneItem (cfg : MapCfg K) (it : MapItem K) (newCapacity : Nat) (o : Orc) : Option (MapItem K) :=
  match copyHashTable cfg it.ht newCapacity o.ht with
  | none => none
  | some t' => match BufMgr.clone it.bufs o with
    | none => none
    | some bufs' => some ⟨t', bufs'⟩

/-- The result of `compact` on an item. -/
inductive CRes (K : Type) where
  | ub
  | broken (it : MapItem K)
  | ok (it : MapItem K)

/-- Map.h:726-739: the loop of `compact` over the addresses of the iterator.  `itr->first` is a read through a
pointer to the entry at the iterator's address. -/
def reindex (cfg : MapCfg K) (bufs : List Buffer) : List Nat → HT K → CRes K
  | [], t => .ok ⟨t, bufs⟩
  | a :: l, t =>
    match BufMgr.get bufs a with
    | none => .ub
    | some p =>
      match t.insertOrReplace cfg.hash (loadKey cfg.E bufs p) a with
      | .ub => .ub
      | .throws => .broken ⟨t, bufs⟩
      | .ok t' old => if isNull old then .broken ⟨t', bufs⟩ else reindex cfg bufs l t'

/-- Map.h:719-740 `compact`. -/
def compactItem (cfg : MapCfg K) (it : MapItem K) (junk : Mem) : CRes K :=
  match BufMgr.compact junk it.bufs with
  | none => .ub
  | some bufs => match BufMgr.iter bufs with
    | none => .ub
    | some l => reindex cfg bufs l it.ht

/-- Map.h:526 -/
def kWastedBytesPctThreshold : Nat := 50

/-- Map.h:622-624: the automatic compaction. -/
def autoCompact (cfg : MapCfg K) (it : MapItem K) (junk : Mem) : CRes K :=
  match BufMgr.wastedBytesPct it.bufs with
  | none => .ub
  | some p => if p > kWastedBytesPctThreshold then compactItem cfg it junk else .ok it

/-- Map.h:628-653: the address (possibly null) and, if the container moved to a new item, that new item, together
with the item that was current before.  `none` is `bad_alloc` (637, 643). -/
def allocPhase (cfg : MapCfg K) (it : MapItem K) (chainCloned : Bool) (size : Nat) (o : Orc) :
    Option (MapItem K × Bool × Nat) :=
  let r := BufMgr.allocate it.bufs size
  if isNull r.2 then
    if chainCloned then
      let e := BufMgr.expand r.1 size o
      if e.2 then
        let q := BufMgr.allocate e.1 size
        some (⟨it.ht, q.1⟩, false, q.2)
      else some (⟨it.ht, e.1⟩, false, r.2)
    else
      match cloneItem cfg ⟨it.ht, r.1⟩ it.ht.cap o with
      | none => none
      | some it' =>
        let e := BufMgr.expand it'.bufs size o
        if e.2 then
          let q := BufMgr.allocate e.1 size
          some (⟨it'.ht, q.1⟩, true, q.2)
        else some (⟨it'.ht, e.1⟩, true, r.2)
  else some (⟨it.ht, r.1⟩, false, r.2)

/-- Map.h:661-676: write the entry, index it, and remove the entry it replaces; the Boolean is `kReplaced`. -/
def putEntry (cfg : MapCfg K) (it : MapItem K) (k : K) (v : List Byte) (addr : Nat) :
    MapItem K × MapOut K :=
  match BufMgr.get it.bufs addr with
  | none => (it, .ub)
  | some p =>
    let bufs := storeEntry cfg.E it.bufs p k v
    match it.ht.insertOrReplace cfg.hash k addr with
    | .ub => (it, .ub)
    | .throws => match BufMgr.remove bufs addr with
      | none => (it, .ub)
      | some bufs' => (⟨it.ht, bufs'⟩, .throws)
    | .ok t' old =>
      if isNull old then (⟨t', bufs⟩, .bool false)
      else match BufMgr.remove bufs old with
        | none => (it, .ub)
        | some bufs' => (⟨t', bufs'⟩, .bool true)

/-- Map.h:610, 654-677: from the allocation's result to the end. -/
def insertTail (cfg : MapCfg K) (W : World (MapItem K)) (accessible chainCloned : Bool) (k : K) (v : List Byte)
    (addr : Nat) : World (MapItem K) × MapOut K :=
  let W := if chainCloned && accessible then W.publish else W
  if isNull addr then (W, .throws)
  else match W.curItem with
    | none => (W, .ub)
    | some it =>
      let r := putEntry cfg it k v addr
      (W.setCur r.1, r.2)

/-- Map.h:621-677: `insertImpl` after the hash table has been expanded if necessary. -/
def insertRest (cfg : MapCfg K) (W : World (MapItem K)) (accessible chainCloned : Bool) (o : Orc) (k : K)
    (v : List Byte) : World (MapItem K) × MapOut K :=
  match W.curItem with
  | none => (W, .ub)
  | some it =>
    match autoCompact cfg it o.junk with
    | .ub => (W, .ub)
    | .broken it => (W.setCur it, .broken)
    | .ok it1 =>
      let W := W.setCur it1
      match allocPhase cfg it1 chainCloned (u32 (cfg.E.ks + v.length)) o with
      | none => (W, .throws)
      | some (it2, moved, addr) =>
        if moved then insertTail cfg (W.push it2) accessible true k v addr
        else insertTail cfg (W.setCur it2) accessible chainCloned k v addr

/-- Map.h:606-677 `insertImpl`. -/
def insertImpl (cfg : MapCfg K) (W : World (MapItem K)) (o : Orc) (k : K) (v : List Byte) :
    World (MapItem K) × MapOut K :=
  match W.curItem with
  | none => (W, .ub)
  | some it =>
    let accessible := W.accessible
    if overLimit cfg it.ht then
      match cloneItem cfg it (it.ht.cap * 2) o with
      | none => (W, .throws)
      | some it' => insertRest cfg (W.push it') accessible true o k v
    else insertRest cfg W accessible false o k v

/-- Map.h:585-593 `findImpl`: the pointer to the entry; the outer `none` is undefined behaviour or a throw. -/
def findPtr (cfg : MapCfg K) (it : MapItem K) (k : K) : Option (Option (Nat × Nat)) :=
  match it.ht.find cfg.hash k with
  | none => none
  | some none => some none
  | some (some i) =>
    match it.ht.ents[i]? with
    | some (some e) => match BufMgr.get it.bufs e.2 with
      | none => none
      | some p => some (some p)
    | _ => none

/-- Map.h:484-490: reading the entries met by the iterator. -/
def readAll (cfg : MapCfg K) (bufs : List Buffer) (n : K → Nat) : List Nat → Option (List (K × List Byte))
  | [] => some []
  | a :: l =>
    match BufMgr.get bufs a with
    | none => none
    | some p => match readAll cfg bufs n l with
      | none => none
      | some r =>
        let k := loadKey cfg.E bufs p
        some ((k, BufMgr.load bufs (p.1, p.2 + cfg.E.ks) (n k)) :: r)

/-- Map.h:695-703 `erase`. -/
def eraseItem (cfg : MapCfg K) (it : MapItem K) (k : K) : MapItem K × MapOut K :=
  match it.ht.remove cfg.hash k with
  | none => (it, .ub)
  | some (t', addr) =>
    if isNull addr then (⟨t', it.bufs⟩, .bool false)
    else match BufMgr.remove it.bufs addr with
      | none => (it, .ub)
      | some bufs' => (⟨t', bufs'⟩, .bool true)

/-- One call. -/
def step (cfg : MapCfg K) (W : World (MapItem K)) (o : Orc) : MapOp K → World (MapItem K) × MapOut K
  -- Map.h:679-687
  | .insert k v =>
    match W.curItem with
    | none => (W, .ub)
    | some it =>
      match it.ht.find cfg.hash k with
      | none => (W, .ub)
      | some (some _) => (W, .bool false)
      | some none =>
        let r := insertImpl cfg W o k v
        match r.2 with
        | .bool _ => (r.1, .bool true)
        | x => (r.1, x)
  -- Map.h:689-693
  | .insertOrReplace k v => insertImpl cfg W o k v
  | .erase k =>
    match W.curItem with
    | none => (W, .ub)
    | some it => let r := eraseItem cfg it k; (W.setCur r.1, r.2)
  | .find k n =>
    match W.curItem with
    | none => (W, .ub)
    | some it => match findPtr cfg it k with
      | none => (W, .ub)
      | some none => (W, .found none)
      | some (some p) => (W, .found (some (BufMgr.load it.bufs (p.1, p.2 + cfg.E.ks) n)))
  | .iterate n =>
    match W.curItem with
    | none => (W, .ub)
    | some it => match BufMgr.iter it.bufs with
      | none => (W, .ub)
      | some l => match readAll cfg it.bufs n l with
        | none => (W, .ub)
        | some r => (W, .entries r)
  | .size =>
    match W.curItem with
    | none => (W, .ub)
    | some it => (W, .num it.ht.num)
  | .compact =>
    match W.curItem with
    | none => (W, .ub)
    | some it => match compactItem cfg it o.junk with
      | .ub => (W, .ub)
      | .broken it => (W.setCur it, .broken)
      | .ok it => (W.setCur it, .unit)
  | .poke k j x =>
    match W.curItem with
    | none => (W, .ub)
    | some it => match findPtr cfg it k with
      | some (some p) =>
        (W.setCur ⟨it.ht, BufMgr.store it.bufs (p.1, p.2 + cfg.E.ks + j) [x]⟩, .unit)
      | _ => (W, .ub)
  | .publish => (W.publish, .unit)
  | .unpublish => ({ W with cached := none }, .unit)
  | .attach i => ({ W with cur := i }, .unit)

/-- Map.h:531-542, 553-562, 268-283 `create`: `none` is a null container (or a throw for a too big request). -/
def create (cfg : MapCfg K) (numEntries numBytes : Nat) (o : Orc) : Option (World (MapItem K)) :=
  match computeStorageSize cfg numEntries with
  | none => none
  | some size =>
    if o.ht && decide (size ≤ cfg.maxItem) then
      match BufMgr.create numBytes o with
      | none => none
      | some bufs => some ⟨[⟨HT.new numEntries, bufs⟩], 0, none⟩
    else none

/-- A sequence of calls, with what the environment decides during each of them: the calls and their results.  It
stops after undefined behaviour. -/
def run (cfg : MapCfg K) : World (MapItem K) → List (Orc × MapOp K) → List (MapOp K × MapOut K)
  | _, [] => []
  | W, (o, op) :: l =>
    let r := step cfg W o op
    match r.2 with
    | .ub => [(op, .ub)]
    | x => (op, x) :: run cfg r.1 l

end MapM
end Verif.Datatype
