import Verif.Datatype.BufMgr

/-! # `detail::HashTable` (cachelib/datatype/Map.h:35-266): a robin-hood hash table from keys to addresses -/

namespace Verif.Datatype

/-- Map.h:42-110.  `ents` is `entries_[0 .. capacity_)`; an entry whose address is the null address
(Map.h:50) is `none` (its key is never looked at). -/
structure HT (K : Type) where
  cap : Nat
  num : Nat
  ents : List (Option (K × Nat))

namespace HT
variable {K : Type} [DecidableEq K]

/-- Map.h:244-249 `getDesiredIndex`. -/
def desired (hash : K → Nat) (cap : Nat) (k : K) : Nat := u32 ((hash k * cap) >>> 32)

/-- Map.h:256-266 `probeDistance`. -/
def probeDistance (desiredIndex index cap : Nat) : Nat :=
  if desiredIndex ≤ index then index - desiredIndex else index + cap - desiredIndex

/-- Map.h:112-115 `HashTable(capacity)`. -/
def new (cap : Nat) : HT K := ⟨cap, 0, List.replicate cap none⟩

/-- Map.h:156-159: `++index; if (index == capacity_) index = 0;` -/
def wrap (cap index : Nat) : Nat := if index + 1 = cap then 0 else index + 1

/-- Map.h:137-160, the loop of `find`: the index of the entry (inner `none` is `nullptr`).  The outer `none`
is an access outside the array, or not terminating (fuel). -/
def findLoop (hash : K → Nat) (t : HT K) (key : K) : Nat → Nat → Nat → Option (Option Nat)
  | 0, _, _ => none
  | f + 1, index, myDistance =>
    match t.ents[index]? with
    | none => none
    | some none => some none
    | some (some e) =>
      if e.1 = key then some (some index)
      else if probeDistance (desired hash t.cap e.1) index t.cap < myDistance then some none
      else findLoop hash t key f (wrap t.cap index) (myDistance + 1)

/-- Map.h:132-162 `find`. -/
def find (hash : K → Nat) (t : HT K) (key : K) : Option (Option Nat) :=
  findLoop hash t key (t.cap + 1) (desired hash t.cap key) 0

/-- Map.h:178-208, the loop of `insertOrReplace`: the entries, whether `numEntries_` is incremented, and the
returned address. -/
def insertLoop (hash : K → Nat) (cap : Nat) : Nat → List (Option (K × Nat)) → K × Nat → Nat → Nat →
    Option (List (Option (K × Nat)) × Bool × Nat)
  | 0, _, _, _, _ => none
  | f + 1, ents, newE, index, myDistance =>
    match ents[index]? with
    | none => none
    | some none => some (ents.set index (some newE), true, nullAddr)
    | some (some e) =>
      if e.1 = newE.1 then some (ents.set index (some newE), false, e.2)
      else
        let cur := probeDistance (desired hash cap e.1) index cap
        if cur < myDistance then
          insertLoop hash cap f (ents.set index (some newE)) e (wrap cap index) (cur + 1)
        else insertLoop hash cap f ents newE (wrap cap index) (myDistance + 1)

/-- The outcome of `insertOrReplace`: undefined behaviour, `bad_alloc` / `invalid_argument`, or a new table and
the returned address. -/
inductive IRes (K : Type) where
  | ub
  | throws
  | ok (t : HT K) (old : Nat)

/-- Map.h:164-210 `insertOrReplace`. -/
def insertOrReplace (hash : K → Nat) (t : HT K) (key : K) (addr : Nat) : IRes K :=
  if isNull addr then .throws
  else if t.num = u32 (4294967295 + t.cap) then .throws
  else match insertLoop hash t.cap (t.cap + 1) t.ents (key, addr) (desired hash t.cap key) 0 with
    | none => .ub
    | some r => .ok { t with ents := r.1, num := if r.2.1 then t.num + 1 else t.num } r.2.2

/-- Map.h:223-238, the backward shift of `remove`; `e` is always the entry at `index`. -/
def removeLoop (hash : K → Nat) (cap : Nat) : Nat → List (Option (K × Nat)) → Nat → Option (List (Option (K × Nat)))
  | 0, _, _ => none
  | f + 1, ents, index =>
    let nextIndex := if index = cap - 1 then 0 else index + 1
    match ents[nextIndex]? with
    | none => none
    | some none => some (ents.set index none)
    | some (some e) =>
      if probeDistance (desired hash cap e.1) nextIndex cap = 0 then some (ents.set index none)
      else removeLoop hash cap f (ents.set index (some e)) nextIndex

/-- Map.h:212-242 `remove`: the new table and the returned address. -/
def remove (hash : K → Nat) (t : HT K) (key : K) : Option (HT K × Nat) :=
  match t.find hash key with
  | none => none
  | some none => some (t, nullAddr)
  | some (some i) =>
    match t.ents[i]? with
    | some (some e) =>
      match removeLoop hash t.cap (t.cap + 1) t.ents i with
      | none => none
      | some ents => some ({ t with ents := ents, num := t.num - 1 }, e.2)
    | _ => none

/-- Map.h:124-129, the loop of the copy constructor. -/
def copyLoop (hash : K → Nat) : List (Option (K × Nat)) → HT K → Option (HT K)
  | [], t => some t
  | none :: l, t => copyLoop hash l t
  | some e :: l, t =>
    match t.insertOrReplace hash e.1 e.2 with
    | .ok t' _ => copyLoop hash l t'
    | _ => none

/-- Map.h:117-130 `HashTable(capacity, other)`; `none` is a throw or undefined behaviour. -/
def copy (hash : K → Nat) (cap : Nat) (other : HT K) : Option (HT K) :=
  if cap < other.cap then none else copyLoop hash other.ents (new cap)

end HT
end Verif.Datatype
