import Verif.Sketch.Model
import Verif.Bloom.Model
/-
Model of common/AccessTracker.h (AccessTrackerBase), on top of the models of the count-min sketch (Verif.Sketch) and of the Bloom filter (Verif.Bloom).

What is simplified: calls are sequential (the code allows calls in parallel; see DESIGN.md), the tick is an input of each call,
SpookyHash is a parameter, counters are natural numbers. Feature values are natural numbers instead of doubles.
-/
namespace Verif.Trackers.Tracker

/-- Config (AccessTracker.h:35-77), and the hash functions -/
structure Cfg where
  n : Nat
  ticks : Nat
  useCounts : Bool
  cms : Sketch.Cfg
  comb : Nat → Nat → Nat
  hash : Nat → Nat

/-- the fields (AccessTracker.h:163-178) -/
structure St where
  recent : Nat
  counts : Nat → Sketch.St
  filters : Bloom.BF
  items : Nat → Nat

/-- update of one bucket -/
def upd {α : Type} (f : Nat → α) (i : Nat) (v : α) : Nat → α := fun j => if j = i then v else f j

/-- the constructor (AccessTracker.h:182-205): n empty sketches, or one array of n empty filters -/
def St.new (s : Sketch.St) (b : Bloom.BF) : St := { recent := 0, counts := fun _ => s, filters := b, items := fun _ => 0 }

/-- rotatedIdx (AccessTracker.h:139) -/
def rotatedIdx (c : Cfg) (b : Nat) : Nat := b % c.n

/-- getCurrentBucketIndex (AccessTracker.h:133-136) -/
def currentBucket (c : Cfg) (tick : Nat) : Nat := rotatedIdx c (tick / c.ticks)

/-- getBucketAccessCountLocked (AccessTracker.h:266-271) -/
def bucketCount (c : Cfg) (s : St) (idx h : Nat) : Nat :=
  if c.useCounts then Sketch.getCount c.cms (s.counts idx) h else if s.filters.couldExist c.comb idx h then 1 else 0

/-- updateBucketLocked (AccessTracker.h:274-278) -/
def updateBucket (c : Cfg) (s : St) (idx h : Nat) : St :=
  if c.useCounts then { s with counts := upd s.counts idx (Sketch.increment c.cms (s.counts idx) h), items := upd s.items idx (s.items idx + 1) }
  else { s with filters := s.filters.set c.comb idx h, items := upd s.items idx (s.items idx + 1) }

/-- resetBucketLocked (AccessTracker.h:281-284) -/
def resetBucket (c : Cfg) (s : St) (idx : Nat) : St :=
  if c.useCounts then { s with counts := upd s.counts idx (Sketch.reset c.cms (s.counts idx)), items := upd s.items idx 0 }
  else { s with filters := s.filters.clear idx, items := upd s.items idx 0 }

/-- updateMostRecentAccessedBucket (AccessTracker.h:244-263); without other threads the exchange succeeds -/
def updateRecent (c : Cfg) (s : St) (tick : Nat) : St :=
  let b := currentBucket c tick
  if b = s.recent ∨ rotatedIdx c (b + 1) = s.recent then s else resetBucket c { s with recent := b } b

/-- recordAccess (AccessTracker.h:209-216) -/
def recordAccess (c : Cfg) (s : St) (tick key : Nat) : St :=
  let s := updateRecent c s tick
  updateBucket c s s.recent (c.hash key)

/-- getAccesses (AccessTracker.h:220-237) -/
def getAccesses (c : Cfg) (s : St) (tick key : Nat) : St × List Nat :=
  let s := updateRecent c s tick
  (s, (List.range c.n).map fun i => bucketCount c s (rotatedIdx c (s.recent + c.n - i)) (c.hash key))

/-- recordAndPopulateAccessFeatures (AccessTracker.h:88-92); the clock is read twice -/
def recordAndPopulate (c : Cfg) (s : St) (t1 t2 key : Nat) : St × List Nat :=
  let r := getAccesses c s t1 key
  (recordAccess c r.1 t2 key, r.2)

/-- getRotatedAccessCounts (AccessTracker.h:287-298) -/
def rotatedCounts (c : Cfg) (s : St) (tick : Nat) : List Nat :=
  (List.range c.n).map fun i => s.items (rotatedIdx c (currentBucket c tick + c.n - i))

end Verif.Trackers.Tracker
