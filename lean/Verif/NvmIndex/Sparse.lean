import Verif.Base.Chain
import Mathlib.Data.Nat.Bitwise
import Mathlib.Data.List.Nodup
/-
Model of `cachelib/navy/block_cache/SparseMapIndex.{h,cpp}` (C25).

Every operation runs under the mutex of its bucket map and touches only that map (SparseMapIndex.h:189-208), so it is modelled
as atomic.  `tsl::sparse_map` is trusted to be a map; it is an association list without duplicate keys here, in any order.
Statistics (trackRemove, the hits estimator) are left out.  Thrift's integers are exchanged unchanged.
-/
namespace Verif.NvmIndex.Sparse
open Verif

/-- Index.h:47-72 ItemRecord.  `extra` is totalHits or itemHistory. -/
structure Rec where
  addr : Nat
  size : Nat
  extra : Nat
  hits : Nat
deriving DecidableEq, Repr

/-- SparseMapIndex.h:187 Map. -/
abbrev Map := List (Nat × Rec)

/-- `find`. -/
def Map.find (m : Map) (k : Nat) : Option Rec := (m.find? (fun e => e.1 == k)).map (·.2)

/-- Assignment through the iterator of an existing entry. -/
def Map.set (m : Map) (k : Nat) (r : Rec) : Map := m.map (fun e => if e.1 = k then (k, r) else e)

/-- `erase`. -/
def Map.del (m : Map) (k : Nat) : Map := m.filter (fun e => e.1 ≠ k)

/-- `try_emplace`. -/
def Map.emplace (m : Map) (k : Nat) (r : Rec) : Map := if m.find k = none then (k, r) :: m else m

/-- SparseMapIndex.h:174-176, 217: numBucketMaps_ = 2^k, extraField_ is kItemHitHistory iff `hist`, bucketMaps_. -/
structure Idx where
  n : Nat
  hist : Bool
  maps : Nat → Map

/-- SparseMapIndex.h:189-191 bucketMap. -/
def Idx.bucket (s : Idx) (h : Nat) : Nat := (h >>> 32) &&& (s.n - 1)

/-- SparseMapIndex.h:193 subkey. -/
def subkey (h : Nat) : Nat := h &&& 0xffffffff

def Idx.map (s : Idx) (h : Nat) : Map := s.maps (s.bucket h)
def Idx.put (s : Idx) (h : Nat) (m : Map) : Idx := { s with maps := upd s.maps (s.bucket h) m }

/-- SparseMapIndex.cpp:29-34 safeInc. -/
def safeInc (v : Nat) : Nat := if v < 255 then v + 1 else v

/-- SparseMapIndex.cpp:114-129 lookup. -/
def Idx.lookup (s : Idx) (h : Nat) : Idx × Option Rec :=
  match (s.map h).find (subkey h) with
  | none => (s, none)
  | some r => (s.put h ((s.map h).set (subkey h)
      { r with extra := if s.hist then r.extra else safeInc r.extra, hits := safeInc r.hits }), some r)

/-- SparseMapIndex.cpp:131-140 peek. -/
def Idx.peek (s : Idx) (h : Nat) : Option Rec := (s.map h).find (subkey h)

/-- SparseMapIndex.cpp:142-163 insert. -/
def Idx.insert (s : Idx) (h addr size : Nat) : Idx × Option Rec :=
  match (s.map h).find (subkey h) with
  | none => (s.put h ((s.map h).emplace (subkey h) ⟨addr, size, 0, 0⟩), none)
  | some r => (s.put h ((s.map h).set (subkey h) ⟨addr, size, 0, 0⟩), some r)

/-- SparseMapIndex.cpp:165-175 insertIfNotExists. -/
def Idx.insertIfNotExists (s : Idx) (h addr size : Nat) : Idx × Option Rec :=
  (s.put h ((s.map h).emplace (subkey h) ⟨addr, size, 0, 0⟩), (s.map h).find (subkey h))

/-- SparseMapIndex.cpp:188-193: the history is an 8-bit value. -/
def shiftHist (hist : Bool) (r : Rec) : Nat :=
  if hist then (if r.hits > 0 then r.extra / 2 % 128 + 128 else r.extra / 2) else r.extra

/-- SparseMapIndex.cpp:177-198 replaceIfMatch. -/
def Idx.replaceIfMatch (s : Idx) (h new old : Nat) : Idx × Bool :=
  match (s.map h).find (subkey h) with
  | none => (s, false)
  | some r =>
    if r.addr = old then
      (s.put h ((s.map h).set (subkey h) { r with addr := new, extra := shiftHist s.hist r, hits := 0 }), true)
    else (s, false)

/-- SparseMapIndex.cpp:222-235 remove. -/
def Idx.remove (s : Idx) (h : Nat) : Idx × Option Rec :=
  match (s.map h).find (subkey h) with
  | none => (s, none)
  | some r => (s.put h ((s.map h).del (subkey h)), some r)

/-- SparseMapIndex.cpp:237-248 removeIfMatch. -/
def Idx.removeIfMatch (s : Idx) (h addr : Nat) : Idx × Bool :=
  match (s.map h).find (subkey h) with
  | none => (s, false)
  | some r => if r.addr = addr then (s.put h ((s.map h).del (subkey h)), true) else (s, false)

/-- SparseMapIndex.cpp:250-256 reset. -/
def Idx.reset (s : Idx) : Idx := { s with maps := fun i => if i < s.n then [] else s.maps i }

/-- SparseMapIndex.cpp:258-265 computeSize. -/
def Idx.computeSize (s : Idx) : Nat := ((List.range s.n).map (fun i => (s.maps i).length)).sum

/-- SparseMapIndex.cpp:37-82 IteratorImpl: the entries it visits, bucket map by bucket map, with their tokens; without
concurrent updates. -/
def Idx.entries (s : Idx) : List (Nat × Rec) :=
  (List.range s.n).flatMap (fun b => (s.maps b).map (fun e => ((b <<< 32) ||| e.1, e.2)))

/-- SparseMapIndex.cpp:338-391 persist: one record per bucket map. -/
def Idx.persist (s : Idx) : List (Nat × Map) := (List.range s.n).map (fun i => (i, s.maps i))

/-- SparseMapIndex.cpp:407-423: `none` is an exception. -/
def Idx.load (s : Idx) : List (Nat × Map) → Option Idx
  | [] => some s
  | (id, es) :: rs =>
    if s.n ≤ id then none
    else Idx.load { s with maps := upd s.maps id (es.foldl (fun m e => m.emplace e.1 e.2) (s.maps id)) } rs

/-- SparseMapIndex.cpp:393-424 recover; too few records make deserializeProto throw. -/
def Idx.recover (s : Idx) (recs : List (Nat × Map)) : Option Idx :=
  let s := if s.computeSize > 0 then s.reset else s
  if recs.length < s.n then none else Idx.load s (recs.take s.n)

/-- A new index (SparseMapIndex.cpp:84-99). -/
def Idx.new (k : Nat) (hist : Bool) : Idx := { n := 2 ^ k, hist := hist, maps := fun _ => [] }

/-- Operations. -/
inductive Op
  | lookup (h : Nat) | peek (h : Nat) | insert (h addr size : Nat) | insertNE (h addr size : Nat) | replace (h new old : Nat)
  | remove (h : Nat) | removeMatch (h addr : Nat) | reset

/-- Results. -/
inductive Res
  | entry (r : Option Rec) | ok (b : Bool)
deriving DecidableEq, Repr

/-- An operation and its result. -/
def Idx.step (s : Idx) : Op → Idx × Res
  | .lookup h => ((s.lookup h).1, .entry (s.lookup h).2)
  | .peek h => (s, .entry (s.peek h))
  | .insert h a z => ((s.insert h a z).1, .entry (s.insert h a z).2)
  | .insertNE h a z => ((s.insertIfNotExists h a z).1, .entry (s.insertIfNotExists h a z).2)
  | .replace h a o => ((s.replaceIfMatch h a o).1, .ok (s.replaceIfMatch h a o).2)
  | .remove h => ((s.remove h).1, .entry (s.remove h).2)
  | .removeMatch h a => ((s.removeIfMatch h a).1, .ok (s.removeIfMatch h a).2)
  | .reset => (s.reset, .ok true)

/-- A history. -/
def Idx.run (s : Idx) : List Op → Idx × List Res
  | [] => (s, [])
  | o :: os => ((Idx.run (s.step o).1 os).1, (s.step o).2 :: (Idx.run (s.step o).1 os).2)

end Verif.NvmIndex.Sparse
