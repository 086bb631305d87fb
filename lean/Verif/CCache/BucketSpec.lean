import Verif.CCache.Table

/-! Specification of one bucket of the compact cache: a list of entries, most recently used first. -/
namespace Verif.CCache.Spec

/-- Requests as they reach one bucket: store, note a hit, remove. -/
inductive BOp (K V : Type)
  | set (k : K) (v : V)
  | hit (k : K)
  | del (k : K)

/-- What a walk over the handles of a bucket shows. -/
def shown {K V : Type} (D : Desc K V) (b : D.B) : List (K × V) :=
  ((List.range D.lim).takeWhile (D.valid b)).map fun i => (D.key b i, D.val b i)

section
variable {K V : Type} [DecidableEq K]

/-- The value of a key. -/
def valOf (l : List (K × V)) (k : K) : Option V := (l.find? fun e => e.1 = k).map Prod.snd

/-- Everything but `k`. -/
def others (l : List (K × V)) (k : K) : List (K × V) := l.filter fun e => e.1 ≠ k

/-- Move `k` to the front if more than `far` entries were used after it. -/
def refresh (far : Nat) (l : List (K × V)) (k : K) : List (K × V) :=
  match valOf l k with
  | none => l
  | some v => if l.findIdx (fun e => e.1 = k) > far then (k, v) :: others l k else l

/-- The callbacks for evicted entries, which come in the order least recently used first. -/
def evictions (stillValid : K → Bool) (l : List (K × V)) : List (Ev K V) :=
  l.reverse.map fun e => .removed e.1 e.2 (if stillValid e.1 then .eviction else .normal)

/-- Removal. -/
def removal (l : List (K × V)) (k : K) : List (K × V) × List (Ev K V) :=
  match valOf l k with
  | none => (l, [])
  | some v => (others l k, [.removed k v .normal])

/-- A bucket for `num` entries of fixed size: a new entry goes to the front and pushes out the last one
if there are `num`; a new value for a present key is written in place; a hit moves the entry to the
front if it is in the last three quarters. -/
def fixNext (stillValid : K → Bool) (num : Nat) (l : List (K × V)) :
    BOp K V → List (K × V) × List (Ev K V)
  | .set k v =>
    match valOf l k with
    | none => (((k, v) :: l).take num, evictions stillValid (l.drop (num - 1)))
    | some old => (l.map fun e => if e.1 = k then (k, v) else e, [.replaced k old v])
  | .hit k => (refresh (num / 4) l k, [])
  | .del k => removal l k

end

section
variable {K : Type} [DecidableEq K]

/-- The most recently used entries that fit into `slots` slots and `bytes` bytes, an entry with a value
of `n` bytes taking `over + n`. -/
def fits (over : Nat) : Nat → Nat → List (K × List Nat) → List (K × List Nat)
  | _, _, [] => []
  | slots, bytes, e :: l =>
    if slots = 0 ∨ bytes < over + e.2.length then []
    else e :: fits over (slots - 1) (bytes - (over + e.2.length)) l

/-- A bucket of `cap` bytes and at most 255 entries: the stored entry goes to the front, the most
recently used others stay as long as they fit; a value that is not larger evicts nothing. -/
def varNext (stillValid : K → Bool) (over cap : Nat) (l : List (K × List Nat)) :
    BOp K (List Nat) → List (K × List Nat) × List (Ev K (List Nat))
  | .set k v =>
    match valOf l k with
    | none =>
      let keep := fits over 254 (cap - (over + v.length)) l
      ((k, v) :: keep, evictions stillValid (l.drop keep.length))
    | some old =>
      if v.length ≤ old.length then ((k, v) :: others l k, [.replaced k old v])
      else
        let keep := fits over 254 (cap - (over + v.length)) (others l k)
        ((k, v) :: keep, .replaced k old v :: evictions stillValid ((others l k).drop keep.length))
  | .hit k => (refresh 1 l k, [])
  | .del k => removal l k
end

end Verif.CCache.Spec
