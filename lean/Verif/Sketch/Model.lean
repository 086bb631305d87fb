/-!
Model of cachelib/common/CountMinSketch.h. The counter type UINT is given by its maximum `M` (getMaxCount, line 110).
Hash functions (hashInt, combineHashes; common/Hash.h:74-78) are a parameter `h row key`.
-/
namespace Verif.Sketch

/-- Configuration: hash, width_, depth_, numeric_limits<UINT>::max(). CountMinSketch.h:110,122-123. -/
structure Cfg where
  h : Nat → Nat → Nat
  width : Nat
  depth : Nat
  M : Nat

/-- table_ and saturated, CountMinSketch.h:124-127. -/
structure St where
  table : Nat → Nat
  saturated : Nat

/-- Number of counters allocated: width_ * depth_ in 32-bit arithmetic, CountMinSketch.h:151. -/
def Cfg.tableSize (c : Cfg) : Nat := c.width * c.depth % 2 ^ 32

/-- getIndex, CountMinSketch.h:233-240: `hashNum * width_` is a 32-bit product, the sum is 64-bit. -/
def Cfg.getIndex (c : Cfg) (row key : Nat) : Nat := row * c.width % 2 ^ 32 + c.h row key % c.width

/-- Constructor, CountMinSketch.h:138-153 (`none` models the exceptions) with reset, 97-102. -/
def init (c : Cfg) : Option St :=
  if c.width = 0 then none else if c.depth = 0 then none else some ⟨fun _ => 0, 0⟩

def upd (t : Nat → Nat) (i v : Nat) : Nat → Nat := fun j => if j = i then v else t j

/-- Body of the loop of increment, CountMinSketch.h:195-201. -/
def incRow (c : Cfg) (key : Nat) (s : St) (row : Nat) : St :=
  let i := c.getIndex row key
  if s.table i < c.M then
    let t := upd s.table i (s.table i + 1)
    ⟨t, if t i = c.M then s.saturated + 1 else s.saturated⟩
  else s

/-- increment, CountMinSketch.h:192-203. -/
def increment (c : Cfg) (s : St) (key : Nat) : St := (List.range c.depth).foldl (incRow c key) s

/-- getCount, CountMinSketch.h:205-213. -/
def getCount (c : Cfg) (s : St) (key : Nat) : Nat :=
  (List.range c.depth).foldl (fun cnt row => min cnt (s.table (c.getIndex row key))) c.M * (if c.depth ≠ 0 then 1 else 0)

/-- resetCount, CountMinSketch.h:215-222 (UINT subtraction; `resetCount_no_underflow` shows it never wraps). -/
def resetCount (c : Cfg) (s : St) (key : Nat) : St :=
  let count := getCount c s key
  { s with table := (List.range c.depth).foldl (fun t row => let i := c.getIndex row key; upd t i (t i - count)) s.table }

/-- decayCountsBy, CountMinSketch.h:224-231. `f x` models `narrow_cast<UINT>(x * decay)`, a truncated floating-point product. -/
def decay (c : Cfg) (s : St) (f : Nat → Nat) : St :=
  { s with table := fun i => if i < c.tableSize then f (s.table i) else s.table i }

/-- reset, CountMinSketch.h:97-102. -/
def reset (c : Cfg) (s : St) : St := { s with table := fun i => if i < c.tableSize then 0 else s.table i }

end Verif.Sketch
