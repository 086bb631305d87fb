import Verif.BigHash.Engine
/-!
Model of cachelib/navy/engine/EnginePair.{h,cpp} and NoopEngine.h over arbitrary engines. Statistics are not modelled.
-/
namespace Verif.EnginePair
open Verif
open Verif.BigHash (Status)

abbrev Key := List UInt8
abbrev Val := List UInt8

/-- The Engine interface, Engine.h:39-66. `Ω` is everything an operation's outcome depends on besides the engine's state (device
results, timing, allocation). `insert = none` is undefined behaviour. -/
structure Engine where
  σ : Type
  Ω : Type
  insert : σ → Ω → Key → Val → Option (σ × Status)
  remove : σ → Ω → Key → σ × Status
  lookup : σ → Ω → Key → σ × Status × Option Val
  couldExist : σ → Key → Bool

/-- NoopEngine, NoopEngine.h:24-54. -/
def noop : Engine := ⟨Unit, Unit, fun _ _ _ _ => some ((), .rejected), fun _ _ _ => ((), .notFound), fun _ _ _ => ((), .notFound, none),
  fun _ _ => false⟩

/-- The two engines, EnginePair.h:152-157. -/
structure Pair (L S : Engine) where
  large : L.σ
  small : S.σ

variable {L S : Engine}

/-- isItemLarge, EnginePair.cpp:35-37 and Types.h:114-118. -/
def isItemLarge (maxSmall : Nat) (k : Key) (v : Val) : Bool := decide (k.length + v.length > maxSmall)

/-- `select(hk, value).first.insert(...)`, EnginePair.cpp:39-46, 87, 90-91. -/
def firstInsert (maxSmall : Nat) (p : Pair L S) (ωL : L.Ω) (ωS : S.Ω) (k : Key) (v : Val) : Option (Pair L S × Status) :=
  if isItemLarge maxSmall k v then
    match L.insert p.large ωL k v with | none => none | some (s, st) => some ({ p with large := s }, st)
  else
    match S.insert p.small ωS k v with | none => none | some (s, st) => some ({ p with small := s }, st)

/-- `select(hk, value).second.remove(hk)`, EnginePair.cpp:39-46, 98. -/
def secondRemove (maxSmall : Nat) (p : Pair L S) (ωL : L.Ω) (ωS : S.Ω) (k : Key) (v : Val) : Pair L S × Status :=
  if isItemLarge maxSmall k v then
    let r := S.remove p.small ωS k; ({ p with small := r.1 }, r.2)
  else
    let r := L.remove p.large ωL k; ({ p with large := r.1 }, r.2)

/-- insertInternal after the insertion part, EnginePair.cpp:97-119; `status` is the local variable at line 97. Result: state,
`skipInsertion`, returned status. -/
def insertRest (maxSmall : Nat) (p : Pair L S) (ωL : L.Ω) (ωS : S.Ω) (k : Key) (v : Val) (status : Status) : Pair L S × Bool × Status :=
  if status ≠ .deviceError then
    match secondRemove maxSmall p ωL ωS k v with
    | (p, rs) =>
      if rs = .retry then (p, true, .retry)
      else if rs ≠ .ok ∧ rs ≠ .notFound then (p, true, .badState)
      else (p, true, status)
  else (p, true, status)

/-- insertInternal, EnginePair.cpp:81-120. Result: state, `skipInsertion`, returned status, and (ghost) the status of the insertion into
the selected engine if it was attempted. -/
def insertInternal (maxSmall : Nat) (p : Pair L S) (ωL : L.Ω) (ωS : S.Ω) (k : Key) (v : Val) (skip : Bool) :
    Option (Pair L S × Bool × Status × Option Status) :=
  if !skip then
    match firstInsert maxSmall p ωL ωS k v with
    | none => none
    | some (p, status) =>
      if status = .retry then some (p, false, .retry, some .retry)
      else match insertRest maxSmall p ωL ωS k v status with | (p, sk, st) => some (p, sk, st, some status)
  else match insertRest maxSmall p ωL ωS k v .ok with | (p, sk, st) => some (p, sk, st, none)

/-- lookupInternal, EnginePair.cpp:161-181. Result: state, `skipLargeItemCache`, status, value. -/
def lookupInternal (p : Pair L S) (ωL : L.Ω) (ωS : S.Ω) (k : Key) (skipLarge : Bool) : Pair L S × Bool × Status × Option Val :=
  let (p, status, val) : Pair L S × Status × Option Val :=
    if !skipLarge then
      let r := L.lookup p.large ωL k; ({ p with large := r.1 }, r.2.1, r.2.2)
    else (p, .notFound, none)
  if !skipLarge && status == .retry then (p, skipLarge, .retry, none)
  else if status = .notFound then
    let r := S.lookup p.small ωS k
    ({ p with small := r.1 }, true, r.2.1, r.2.2)
  else (p, true, status, val)

/-- lookupSync, EnginePair.cpp:61-79: retry the large engine once per element of `ωLs` until it does not answer Retry, then the small
one likewise. `none`: still retrying when the oracle list is exhausted. -/
def lookupSyncSmall (p : Pair L S) (k : Key) : List S.Ω → Option (Pair L S × Status × Option Val)
  | [] => none
  | ω :: ωs =>
    let r := S.lookup p.small ω k
    if r.2.1 = .retry then lookupSyncSmall { p with small := r.1 } k ωs else some ({ p with small := r.1 }, r.2.1, r.2.2)

/-- lookupSync, see above. -/
def lookupSync (p : Pair L S) (k : Key) : List L.Ω → List S.Ω → Option (Pair L S × Status × Option Val)
  | [], _ => none
  | ω :: ωs, ωSs =>
    let r := L.lookup p.large ω k
    if r.2.1 = .retry then lookupSync { p with large := r.1 } k ωs ωSs
    else if r.2.1 = .notFound then lookupSyncSmall { p with large := r.1 } k ωSs
    else some ({ p with large := r.1 }, r.2.1, r.2.2)

/-- removeHashedKeyInternal, EnginePair.cpp:214-235. Result: state, `skipSmallItemCache`, status. -/
def removeInternal (p : Pair L S) (ωL : L.Ω) (ωS : S.Ω) (k : Key) (skipSmall : Bool) : Pair L S × Bool × Status :=
  let (p, status) : Pair L S × Status :=
    if !skipSmall then let r := S.remove p.small ωS k; ({ p with small := r.1 }, r.2) else (p, .notFound)
  if status = .notFound then
    let r := L.remove p.large ωL k
    ({ p with large := r.1 }, true, r.2)
  else (p, skipSmall, status)

/-- couldExist, EnginePair.cpp:48-55. -/
def couldExist (p : Pair L S) (k : Key) : Bool := S.couldExist p.small k || L.couldExist p.large k

end Verif.EnginePair
