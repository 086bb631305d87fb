import Verif.HashTable.Model
/-! Specification of C07: an atomic map from keys to items. -/
namespace Verif.HashTable
variable {K : Type} {n : Nat}

/-- The effect of an operation on a map from keys to items, and its answer: `Spec key bucket o m r m'`.
`key p` is the key of item `p`, `bucket k` the bucket of key `k` (only used by `scan`). -/
inductive Spec (key : P → K) (bucket : K → Nat) : Op K → (K → Option P) → Res → (K → Option P) → Prop
  /-- insert adds the item unless its key is present. -/
  | insertNew (nd : P) (m m' : K → Option P) (h : m (key nd) = none) (h1 : m' (key nd) = some nd)
      (h2 : ∀ k, k ≠ key nd → m' k = m k) : Spec key bucket (.insert nd) m (.flag true) m'
  | insertOld (nd p : P) (m : K → Option P) (h : m (key nd) = some p) :
      Spec key bucket (.insert nd) m (.flag false) m
  /-- insertOrReplace makes the key refer to the item and returns what it referred to. -/
  | putNew (nd : P) (thr : Bool) (m m' : K → Option P) (h : m (key nd) = none)
      (h1 : m' (key nd) = some nd) (h2 : ∀ k, k ≠ key nd → m' k = m k) :
      Spec key bucket (.insertOrReplace nd thr) m (.handle none) m'
  | putOld (nd p : P) (m m' : K → Option P) (h : m (key nd) = some p) (hne : p ≠ nd)
      (h1 : m' (key nd) = some nd) (h2 : ∀ k, k ≠ key nd → m' k = m k) :
      Spec key bucket (.insertOrReplace nd false) m (.handle (some p)) m'
  /-- the item is already the one: nothing happens. -/
  | putSame (nd : P) (thr : Bool) (m : K → Option P) (h : m (key nd) = some nd) :
      Spec key bucket (.insertOrReplace nd thr) m (.handle none) m
  /-- the handle of the old item cannot be made: exception, nothing happens. -/
  | putThrow (nd p : P) (m : K → Option P) (h : m (key nd) = some p) (hne : p ≠ nd) :
      Spec key bucket (.insertOrReplace nd true) m .threw m
  /-- replaceIf swaps the items if the old one is present and the predicate accepts it. -/
  | replaceYes (old nd : P) (m m' : K → Option P) (h : m (key old) = some old)
      (h1 : m' (key nd) = some nd) (h2 : ∀ k, k ≠ key nd → m' k = m k) :
      Spec key bucket (.replaceIf old nd true) m (.flag true) m'
  | replaceNo (old nd : P) (p : Bool) (m : K → Option P) (h : m (key old) ≠ some old ∨ p = false) :
      Spec key bucket (.replaceIf old nd p) m (.flag false) m
  /-- remove takes the item out if it is the one its key refers to. -/
  | removeYes (nd : P) (m m' : K → Option P) (h : m (key nd) = some nd) (h1 : m' (key nd) = none)
      (h2 : ∀ k, k ≠ key nd → m' k = m k) : Spec key bucket (.remove nd) m (.flag true) m'
  | removeNo (nd : P) (m : K → Option P) (h : m (key nd) ≠ some nd) :
      Spec key bucket (.remove nd) m (.flag false) m
  | removeIfYes (nd : P) (m m' : K → Option P) (h : m (key nd) = some nd) (h1 : m' (key nd) = none)
      (h2 : ∀ k, k ≠ key nd → m' k = m k) :
      Spec key bucket (.removeIf nd true false) m (.handle (some nd)) m'
  | removeIfThrow (nd : P) (m : K → Option P) (h : m (key nd) = some nd) :
      Spec key bucket (.removeIf nd true true) m .threw m
  | removeIfNo (nd : P) (p thr : Bool) (m : K → Option P) (h : m (key nd) ≠ some nd ∨ p = false) :
      Spec key bucket (.removeIf nd p thr) m (.handle none) m
  /-- find returns what the key refers to. -/
  | find (k : K) (m : K → Option P) : Spec key bucket (.find k) m (.handle (m k)) m
  /-- scanning a bucket returns its items, each once. -/
  | scan (b : Nat) (m : K → Option P) (l : List P) (hn : l.Nodup)
      (h : ∀ p, p ∈ l ↔ m (key p) = some p ∧ bucket (key p) = b) :
      Spec key bucket (.scan b) m (.items l) m

/-- A client of the atomic object: not calling, called, or answered. -/
inductive Client (K : Type) where
  | idle
  | called (o : Op K)
  | answered (r : Res)

/-- The atomic object with its clients. -/
structure Atomic (K : Type) (n : Nat) where
  map : K → Option P
  client : Fin n → Client K

/-- Steps of the atomic object: an operation takes effect at one instant between call and return. -/
inductive AStep (key : P → K) (bucket : K → Nat) : Atomic K n → Label K n → Atomic K n → Prop
  | call (a a' : Atomic K n) (t : Fin n) (o : Op K) (h : a.client t = .idle) (hm : a'.map = a.map)
      (h1 : a'.client t = .called o) (h2 : ∀ x, x ≠ t → a'.client x = a.client x) :
      AStep key bucket a (.call t o) a'
  | effect (a a' : Atomic K n) (t : Fin n) (o : Op K) (r : Res) (h : a.client t = .called o)
      (hs : Spec key bucket o a.map r a'.map) (h1 : a'.client t = .answered r)
      (h2 : ∀ x, x ≠ t → a'.client x = a.client x) : AStep key bucket a .tau a'
  | ret (a a' : Atomic K n) (t : Fin n) (r : Res) (h : a.client t = .answered r) (hm : a'.map = a.map)
      (h1 : a'.client t = .idle) (h2 : ∀ x, x ≠ t → a'.client x = a.client x) :
      AStep key bucket a (.ret t r) a'

/-- Executions of the atomic object from the empty map, with their observable trace. -/
inductive AExec (key : P → K) (bucket : K → Nat) : List (Label K n) → Atomic K n → Prop
  | init : AExec key bucket [] ⟨fun _ => none, fun _ => .idle⟩
  | silent {tr : List (Label K n)} {a a' : Atomic K n} :
      AExec key bucket tr a → AStep key bucket a .tau a' → AExec key bucket tr a'
  | obs {tr : List (Label K n)} {a a' : Atomic K n} {l : Label K n} (hl : l ≠ .tau) :
      AExec key bucket tr a → AStep key bucket a l a' → AExec key bucket (tr ++ [l]) a'

end Verif.HashTable
