import Verif.CCache.Table

/-! Specification of the compact cache, in terms of requests, results and callbacks only. -/
namespace Verif.CCache.Spec

/-- What the user believes to be cached. -/
abbrev Map (K V : Type) := K → Option V

/-- The belief after learning that `k` is now `o`. -/
def learn {K V : Type} [DecidableEq K] (m : Map K V) (k : K) (o : Option V) : Map K V :=
  fun k' => if k' = k then o else m k'

/-- The callbacks are truthful: every removal reports an entry that was in the cache with exactly that
value (and which is gone afterwards, so that it is not reported twice), every replacement reports the
value that was in the cache. -/
inductive Reports {K V : Type} [DecidableEq K] : Map K V → List (Ev K V) → Map K V → Prop
  | nil (m) : Reports m [] m
  | removed {m k v x es m'} : m k = some v → Reports (learn m k none) es m' →
      Reports m (.removed k v x :: es) m'
  | replaced {m k old new es m'} : m k = some old → Reports (learn m k (some new)) es m' →
      Reports m (.replaced k old new :: es) m'

/-- The callback is a removal. -/
def IsRemoval {K V : Type} : Ev K V → Prop
  | .removed _ _ _ => True
  | .replaced _ _ _ => False

/-- What one request may do, for a cache of `n` chunks whose contents are `m`: the result `o`, the
number of chunks `n'` and contents `m'` afterwards. -/
def Behaves {K V : Type} [DecidableEq K] (n : Nat) (m : Map K V) :
    Op K V → Out K V → Nat → Map K V → Prop
  | .set k v, o, n', m' =>
    -- a disabled cache refuses; otherwise `k` now has the value `v`, a previous value is reported as
    -- replaced, and the only other changes are reported removals
    n' = n ∧ (if n = 0 then o.ret = .error ∧ o.evs = [] ∧ m' = m
      else ∃ es m1, Reports m o.evs m1 ∧ m' = learn m1 k (some v) ∧ (∀ e ∈ es, IsRemoval e) ∧
        match m k with
        | none => o.ret = .notFound ∧ o.evs = es
        | some old => o.ret = .found ∧ o.evs = .replaced k old v :: es)
  | .get k _, o, n', m' =>
    n' = n ∧ m' = m ∧ o.evs = [] ∧ (if n = 0 then o.ret = .error ∧ o.val = none
      else o.val = m k ∧ o.ret = if (m k).isSome then .found else .notFound)
  | .exist k, o, n', m' =>
    n' = n ∧ m' = m ∧ o.evs = [] ∧ (if n = 0 then o.ret = .error
      else o.ret = if (m k).isSome then .found else .notFound)
  | .del k, o, n', m' =>
    n' = n ∧ (if n = 0 then o.ret = .error ∧ o.evs = [] ∧ m' = m
      else m' = learn m k none ∧ o.val = m k ∧
        match m k with
        | none => o.ret = .notFound ∧ o.evs = []
        | some v => o.ret = .found ∧ o.evs = [.removed k v .normal])
  | .purge f, o, n', m' =>
    -- exactly what the filter selects is removed, and reported; after an abort, a part of it
    n' = n ∧ Reports m o.evs m' ∧ (∀ e ∈ o.evs, ∃ k v, e = .removed k v .normal ∧ f k v = .purge) ∧
      (o.ret = .found → ∀ k v, m' k = some v → f k v = .skip) ∧
      (o.ret = .error → ∃ k v, m k = some v ∧ f k v = .abort)
  | .resize new, o, n', m' =>
    -- everything that is lost is reported, except when the cache is disabled
    n' = new ∧ (if new = 0 ∧ n ≠ 0 then o.evs = [] ∧ ∀ k, m' k = none
      else Reports m o.evs m' ∧ ∀ e ∈ o.evs, IsRemoval e)

/-- A whole history. -/
inductive History {K V : Type} [DecidableEq K] :
    Nat → Map K V → List (Op K V × Out K V) → Nat → Map K V → Prop
  | nil (n m) : History n m [] n m
  | cons {n m op o n1 m1 h n2 m2} : Behaves n m op o n1 m1 → History n1 m1 h n2 m2 →
      History n m ((op, o) :: h) n2 m2

end Verif.CCache.Spec
