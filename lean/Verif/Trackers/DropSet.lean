import Verif.Base.Chain
/-
Model of common/ApproxSplitSet.h: DropSet<uint32_t> (robin-hood table that may drop keys) and ApproxSplitSet.

What is simplified: the table is a function from positions to keys; reading or writing outside the allocated
capacity_ + probeLimit_ entries, a position before the bucket of its key (DCHECKs at 86, 142, 150), or a loop that does not end, is `none`.
Time is an input. The mutex makes each call of ApproxSplitSet atomic.
-/
namespace Verif.Trackers
open Verif

/-- 2^32 -/
def W : Nat := 4294967296

/-- DropSet's fields (ApproxSplitSet.h:167-170); 0 is kEmptyKey (119) -/
structure DSet where
  cap : Nat
  size : Nat
  created : Nat
  table : Nat → Nat

/-- bucketOf (ApproxSplitSet.h:135-139) -/
def bucket (cap key : Nat) : Nat := key * cap / W

/-- the private constructor (ApproxSplitSet.h:121-125) -/
def DSet.new (cap now : Nat) : DSet := { cap := cap, size := 0, created := now, table := fun _ => 0 }

/-- probeDistance (ApproxSplitSet.h:141-144) -/
def probeDistance (s : DSet) (pos : Nat) : Option Nat :=
  if bucket s.cap (s.table pos) ≤ pos then some (pos - bucket s.cap (s.table pos)) else none

/-- the loop of insertNoResize (ApproxSplitSet.h:149-163); the first argument bounds the number of steps -/
def insLoop (P : Nat) : Nat → Nat → Nat → Nat → DSet → Option DSet
  | 0, _, _, _, _ => none
  | fuel + 1, dist, i, key, s =>
    if dist < P then
      if s.cap + P ≤ i then none
      else if s.table i = 0 then some { s with table := upd s.table i key, size := s.size + 1 }
      else
        match probeDistance s i with
        | none => none
        | some cur =>
          if cur ≤ dist then insLoop P fuel (cur + 1) (i + 1) (s.table i) { s with table := upd s.table i key }
          else insLoop P fuel (dist + 1) (i + 1) key s
    else some s

/-- insertNoResize (ApproxSplitSet.h:146-164) -/
def insertNoResize (P : Nat) (s : DSet) (key : Nat) : Option DSet := insLoop P (s.cap + P + 1) 0 (bucket s.cap key) key s

/-- rehashSize (ApproxSplitSet.h:131), 32-bit -/
def rehashSize (cap : Nat) : Nat := cap * 9 % W / 10

/-- rehashCapacity (ApproxSplitSet.h:133), 32-bit -/
def rehashCapacity (cap : Nat) : Nat := max (cap * 3 % W / 2) 16

/-- the loop of insert that copies the entries (ApproxSplitSet.h:69-73): only positions below capacity_ -/
def copyLoop (P : Nat) (t : Nat → Nat) : List Nat → DSet → Option DSet
  | [], dst => some dst
  | i :: l, dst =>
    if t i ≠ 0 then
      match insertNoResize P dst (t i) with
      | none => none
      | some dst => copyLoop P t l dst
    else copyLoop P t l dst

/-- insert (ApproxSplitSet.h:61-77); the new table gets a new creation time -/
def DSet.insert (P now : Nat) (s : DSet) (key : Nat) : Option DSet :=
  if rehashSize s.cap ≤ s.size then
    match copyLoop P s.table (List.range s.cap) (DSet.new (rehashCapacity s.cap) now) with
    | none => none
    | some dst => insertNoResize P dst key
  else insertNoResize P s key

/-- the loop of lookup (ApproxSplitSet.h:85-104); the first argument is probeLimit_ - lookupProbeDistance -/
def lookLoop (P : Nat) (s : DSet) (key : Nat) : Nat → Nat → Nat → Option Bool
  | 0, _, _ => some false
  | n + 1, dist, i =>
    if s.cap + P ≤ i then none
    else if s.table i = key then some true
    else if s.table i = 0 then some false
    else
      match probeDistance s i with
      | none => none
      | some d => if d < dist then some false else lookLoop P s key n (dist + 1) (i + 1)

/-- lookup (ApproxSplitSet.h:79-105) -/
def DSet.lookup (P : Nat) (s : DSet) (key : Nat) : Option Bool := lookLoop P s key P 0 (bucket s.cap key)

/-- reset (ApproxSplitSet.h:107-111) -/
def DSet.reset (s : DSet) (now : Nat) : DSet := { s with size := 0, created := now, table := fun _ => 0 }

/-- kProbeLimit (ApproxSplitSet.h:230) -/
def kProbeLimit : Nat := 10

/-- kInitialCapacity (ApproxSplitSet.h:118) -/
def kInitialCapacity : Nat := 4

/-- ApproxSplitSet (ApproxSplitSet.h:254-256); the front of the list is the front of the deque -/
structure SSet where
  numSplits : Nat
  maxSplitSize : Nat
  splits : List DSet

/-- addNewSplit (ApproxSplitSet.h:241-251) -/
def addNewSplit (s : SSet) (now : Nat) : SSet :=
  if s.splits.length < s.numSplits then { s with splits := s.splits ++ [DSet.new kInitialCapacity now] }
  else
    match s.splits with
    | [] => s
    | f :: l => { s with splits := l ++ [f.reset now] }

/-- constructor (ApproxSplitSet.h:179-186): the division comes first; a division by zero or the exception is `none` -/
def SSet.new (numEntries numSplits now : Nat) : Option SSet :=
  if numSplits = 0 then none
  else if numEntries = 0 then none
  else some (addNewSplit { numSplits := numSplits, maxSplitSize := numEntries / numSplits % W, splits := [] } now)

/-- lookupLocked (ApproxSplitSet.h:232-239); the key is cut to 32 bits -/
def lookupLocked (key : Nat) : List DSet → Option Bool
  | [] => some false
  | d :: l =>
    match d.lookup kProbeLimit (key % W) with
    | none => none
    | some true => some true
    | some false => lookupLocked key l

/-- insert (ApproxSplitSet.h:189-202) -/
def SSet.insert (s : SSet) (now key : Nat) : Option (SSet × Bool) :=
  match lookupLocked key s.splits with
  | none => none
  | some true => some (s, true)
  | some false =>
    match s.splits.getLast? with
    | none => none
    | some b =>
      let s := if s.maxSplitSize ≤ b.size then addNewSplit s now else s
      match s.splits.getLast? with
      | none => none
      | some b =>
        match b.insert kProbeLimit now (key % W) with
        | none => none
        | some b => some ({ s with splits := s.splits.dropLast ++ [b] }, false)

/-- reset (ApproxSplitSet.h:204-208) -/
def SSet.reset (s : SSet) (now : Nat) : SSet := addNewSplit { s with splits := [] } now

/-- numKeysTracked (ApproxSplitSet.h:214-219) -/
def SSet.numKeysTracked (s : SSet) : Nat := (s.splits.map DSet.size).sum

/-- trackingWindowDurationSecs (ApproxSplitSet.h:221-227), as the creation time of the oldest split -/
def SSet.windowStart (s : SSet) : Option Nat := s.splits.head?.map DSet.created

end Verif.Trackers
