import Verif.Trackers.Tracker
/-
Model of the decision of `cachelib/navy/block_cache/ReuseTimeReinsertionPolicy.cpp` (C64), on top of the access tracker (C44). Whether the
index holds the key (`found`) and whether the item is expired are inputs; statistics are left out. Accesses are natural numbers as in the
tracker model. `none` is a failed XCHECK. Products of the bucket size are cut to 64 bits, the reuse time to a 32-bit int, as in the code.
-/
namespace Verif.Reuse
open Verif

/-- ReuseTimeReinsertionPolicy.cpp:178-188: the loop over the buckets. -/
def loop (idx : Nat) (a b : Option Nat) : List Nat → Option Nat × Option Nat
  | [] => (a, b)
  | v :: l =>
    if 0 < v then
      match a, b with
      | none, b => loop (idx + 1) (some idx) b l
      | some a, none => loop (idx + 1) (some a) (some idx) l
      | some a, some b => (some a, some b)
    else loop (idx + 1) a b l

/-- ReuseTimeReinsertionPolicy.cpp:164-191 getPrevAccessBuckets; `none` for -1. -/
def prevBuckets (accesses : List Nat) : Option Nat × Option Nat := loop 0 none none accesses

/-- ReuseTimeReinsertionPolicy.cpp:147, 156, 161: `auto reuseTime = 0` is an int; assigned a size_t, returned as size_t. -/
def viaInt (x : Nat) : Nat := if x % 2 ^ 32 < 2 ^ 31 then x % 2 ^ 32 else x % 2 ^ 32 + 2 ^ 64 - 2 ^ 32

/-- ReuseTimeReinsertionPolicy.cpp:134-162 getReuseTime. -/
def reuseTime (size : Nat) (accesses : List Nat) : Option Nat :=
  match prevBuckets accesses with
  | (none, _) => some 0
  | (some i, none) => some (viaInt (max (size * (i + 1) % 2 ^ 64) 0))
  | (some i, some j) => if i < j then some (viaInt (max (size * (i + 1) % 2 ^ 64) ((j - i) * size % 2 ^ 64))) else none

/-- ReuseTimeReinsertionPolicy.cpp:49-80 shouldReinsert. -/
def decide (size thr : Nat) (found expired : Bool) (accesses : List Nat) : Option Bool :=
  if !found then some false
  else if expired then some false
  else (reuseTime size accesses).map fun r => if r = 0 ∨ thr < r then false else true

/-- ReuseTimeReinsertionPolicy.cpp:71, 174: the accesses are those the tracker reports at this moment. -/
def shouldReinsert (c : Trackers.Tracker.Cfg) (thr : Nat) (s : Trackers.Tracker.St) (tick key : Nat) (found expired : Bool) : Option Bool :=
  Reuse.decide c.ticks thr found expired (Trackers.Tracker.getAccesses c s tick key).2

end Verif.Reuse
