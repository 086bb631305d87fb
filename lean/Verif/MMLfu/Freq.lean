import Verif.Sketch.Props
/-!
The frequency counters of MMTinyLFU.h and MMWTinyLFU.h (the code of both is the same), over the model of CountMinSketch.

What is simplified: `size_t` products do not overflow; the floating point product of 728-729 / 824-825 is an arbitrary function.
-/
namespace Verif.MMLfu

/-- What the code takes from outside: the row hashes of the sketch (C11) and
`static_cast<size_t>(std::exp(1.0) * maxWindowSize_ / kErrorThreshold)` (MMTinyLFU.h:728-729, MMWTinyLFU.h:824-825). -/
structure Env where
  h : Nat → Nat → Nat
  prod : Nat → Nat

/-- MMTinyLFU.h:661-668, 684-686 (MMWTinyLFU.h:757-764, 780-782): windowSize_, maxWindowSize_, capacity_, accessFreq_. -/
structure Freq where
  window : Nat
  maxWindow : Nat
  capacity : Nat
  skc : Sketch.Cfg
  sk : Sketch.St

/-- The members before the constructor body (default member initializers; CountMinSketch.h:122-124). -/
def Freq.zero : Freq := ⟨0, 0, 0, ⟨fun _ _ => 0, 0, 0, 2 ^ 32 - 1⟩, ⟨fun _ => 0, 0⟩⟩

/-- doubling `p` until it is at least `n`, at most `fuel` times. -/
def doubled (n : Nat) : Nat → Nat → Nat
  | 0, p => p
  | fuel + 1, p => if n ≤ p then p else doubled n fuel (2 * p)

/-- folly::nextPowTwo, for a 64-bit number: the smallest power of two that is not below it. -/
def nextPowTwo (n : Nat) : Nat := doubled n 64 1

/-- `CountMinSketch(numCounters, kHashCount)` (MMTinyLFU.h:726-735): the width is converted to 32 bits (CountMinSketch.h:139);
the counters are uint32_t. -/
def Env.sketch (e : Env) (maxWindow : Nat) : Sketch.Cfg := ⟨e.h, nextPowTwo (e.prod maxWindow) % 2 ^ 32, 4, 2 ^ 32 - 1⟩

/-- MMTinyLFU.h:707-736, MMWTinyLFU.h:803-832 maybeGrowAccessCountersLocked; `size` is lru_.size(), `ratio`
config_.windowToCacheSizeRatio.  `none`: the sketch throws, out of a noexcept function. -/
def Freq.grow (e : Env) (f : Freq) (size ratio : Nat) : Option Freq :=
  if 2 * f.capacity > size then some f
  else
    let capacity := max size 100
    let maxWindow := capacity * ratio
    let skc := e.sketch maxWindow
    (Sketch.init skc).map fun sk => ⟨0, maxWindow, capacity, skc, sk⟩

/-- MMTinyLFU.h:805-817, MMWTinyLFU.h:930-942 updateFrequenciesLocked; halving of a counter is exact in a double. -/
def Freq.count (f : Freq) (hash : Nat) : Freq :=
  let f := { f with sk := Sketch.increment f.skc f.sk hash, window := f.window + 1 }
  if f.window = f.maxWindow then { f with window := f.window / 2, sk := Sketch.decay f.skc f.sk (· / 2) } else f

/-- accessFreq_.getCount(hash) -/
def Freq.get (f : Freq) (hash : Nat) : Nat := Sketch.getCount f.skc f.sk hash

/-- MMTinyLFU.h:601-607 and MMWTinyLFU.h:686-692: the comparison of admitToMain and admitToProbation. -/
def Freq.admit (f : Freq) (newcomerWinsOnTie : Bool) (tinyHash mainHash : Nat) : Bool :=
  let tinyFreq := f.get tinyHash
  let mainFreq := f.get mainHash
  if newcomerWinsOnTie then decide (tinyFreq ≥ mainFreq) else decide (tinyFreq > mainFreq)

/-! ### Specification of the counters -/

/-- What a user knows: everything counted and every halving since the counters were made, how many counts there have been in
the window, and for how many items they were made. -/
structure Counts where
  log : List Sketch.Op
  window : Nat
  maxWindow : Nat
  capacity : Nat

/-- counting one use: the window ends after `maxWindow` uses, then all counts are halved and the window is half used. -/
def Counts.use (c : Counts) (hash : Nat) : Counts :=
  if c.window + 1 = c.maxWindow then
    { c with log := c.log ++ [.inc hash, .decay (· / 2)], window := c.maxWindow / 2 }
  else { c with log := c.log ++ [.inc hash], window := c.window + 1 }

/-- with at least twice the items the counters were made for, all is forgotten and they are made anew. -/
def Counts.fit (c : Counts) (size ratio : Nat) : Counts :=
  if size ≥ 2 * c.capacity then ⟨[], 0, max size 100 * ratio, max size 100⟩ else c

/-- the estimate of the sketch for what was counted. -/
def Counts.est (e : Env) (c : Counts) (hash : Nat) : Nat :=
  Sketch.getCount (e.sketch c.maxWindow) (Sketch.run (e.sketch c.maxWindow) ⟨fun _ => 0, 0⟩ c.log) hash

/-- the true number of uses, halved at every end of a window, of at most 2^32 - 1. -/
def Counts.uses (c : Counts) (hash : Nat) : Nat := Sketch.true' (2 ^ 32 - 1) hash c.log

/-- the counters for a window of this length fit: a sketch of 4 rows is smaller than 2^32. -/
def Env.Fits (e : Env) (maxWindow : Nat) : Prop := 4 * nextPowTwo (e.prod maxWindow) < 2 ^ 32

/-- agreement. -/
structure FLink (e : Env) (f : Freq) (c : Counts) : Prop where
  window : f.window = c.window
  maxWindow : f.maxWindow = c.maxWindow
  capacity : f.capacity = c.capacity
  skc : f.skc = e.sketch c.maxWindow
  sk : f.sk = Sketch.run (e.sketch c.maxWindow) ⟨fun _ => 0, 0⟩ c.log
  halves : ∀ g, Sketch.Op.decay g ∈ c.log → g = (· / 2)
  fits : e.Fits c.maxWindow
  below : c.window < c.maxWindow
  cap : 100 ≤ c.capacity
  two : 2 ≤ c.maxWindow

instance (e : Env) (w : Nat) : Decidable (e.Fits w) := by unfold Env.Fits; infer_instance

theorem doubled_pos (n : Nat) : ∀ fuel p, 0 < p → 0 < doubled n fuel p
  | 0, _, h => h
  | fuel + 1, p, h => by
    unfold doubled
    split
    · exact h
    · exact doubled_pos n fuel (2 * p) (by omega)

theorem nextPowTwo_pos (n : Nat) : 0 < nextPowTwo n := doubled_pos n 64 1 (by omega)

theorem Env.Fits.ok {e : Env} {w : Nat} (h : e.Fits w) : (e.sketch w).Ok := by
  have := nextPowTwo_pos (e.prod w)
  unfold Env.Fits at h
  refine ⟨?_, by show 0 < 4; omega, ?_⟩
  · show 0 < nextPowTwo (e.prod w) % 2 ^ 32
    rw [Nat.mod_eq_of_lt (by omega)]; exact this
  · show nextPowTwo (e.prod w) % 2 ^ 32 * 4 < 2 ^ 32
    rw [Nat.mod_eq_of_lt (by omega)]; omega

theorem FLink.get {e : Env} {f : Freq} {c : Counts} (h : FLink e f c) (x : Nat) : f.get x = c.est e x := by
  unfold Freq.get Counts.est; rw [h.skc, h.sk]

theorem FLink.admit {e : Env} {f : Freq} {c : Counts} (h : FLink e f c) (b : Bool) (t m : Nat) :
    f.admit b t m = if b then decide (c.est e m ≤ c.est e t) else decide (c.est e m < c.est e t) := by
  unfold Freq.admit; rw [h.get, h.get]

theorem FLink.use {e : Env} {f : Freq} {c : Counts} (h : FLink e f c) (x : Nat) :
    FLink e (f.count x) (c.use x) := by
  obtain ⟨h1, h2, h3, h4, h5, h6, h7, h8, h9, h10⟩ := h
  unfold Freq.count Counts.use
  simp only [h1, h2]
  by_cases hw : c.window + 1 = c.maxWindow
  · rw [if_pos hw, if_pos hw]
    refine ⟨by simp only [hw], rfl, h3, h4, ?_, ?_, h7, ?_, h9, h10⟩
    · simp only [h4, h5, Sketch.run, List.foldl_append, List.foldl_cons, List.foldl_nil, Sketch.step]
    · intro g hg
      simp only [List.mem_append, List.mem_cons, List.not_mem_nil, or_false, reduceCtorEq, false_or,
        Sketch.Op.decay.injEq] at hg
      rcases hg with hg | hg
      · exact h6 g hg
      · exact hg
    · simp only; omega
  · rw [if_neg hw, if_neg hw]
    refine ⟨rfl, rfl, h3, h4, ?_, ?_, h7, ?_, h9, h10⟩
    · simp only [h4, h5, Sketch.run, List.foldl_append, List.foldl_cons, List.foldl_nil, Sketch.step]
    · intro g hg
      simp only [List.mem_append, List.mem_cons, List.not_mem_nil, or_false, reduceCtorEq] at hg
      exact h6 g hg
    · simp only; omega

/-- the counters made by `fit` fit. -/
theorem FLink.fit {e : Env} {f : Freq} {c : Counts} (h : FLink e f c) (size ratio : Nat) (hr : 2 ≤ ratio)
    (hf : size ≥ 2 * c.capacity → e.Fits (max size 100 * ratio)) :
    ∃ f', f.grow e size ratio = some f' ∧ FLink e f' (c.fit size ratio) := by
  unfold Freq.grow Counts.fit
  rw [h.capacity]
  by_cases hs : size ≥ 2 * c.capacity
  · rw [if_neg (by omega), if_pos hs]
    have hfit := hf hs
    have hok := hfit.ok
    refine ⟨⟨0, max size 100 * ratio, max size 100, e.sketch (max size 100 * ratio), ⟨fun _ => 0, 0⟩⟩, ?_, ?_⟩
    · have h1 := hok.w
      have h2 := hok.d
      simp only [Sketch.init]
      rw [if_neg (by omega), if_neg (by omega)]; rfl
    · refine ⟨rfl, rfl, rfl, rfl, rfl, by simp, hfit, ?_, by simp only; omega, ?_⟩
      · show 0 < max size 100 * ratio
        exact Nat.mul_pos (by omega) (by omega)
      · exact Nat.le_trans hr (Nat.le_mul_of_pos_left _ (by omega))
  · rw [if_pos (by omega), if_neg hs]
    exact ⟨f, rfl, h⟩

/-- the counters of a new container. -/
theorem FLink.new (e : Env) (size ratio : Nat) (hr : 2 ≤ ratio) (hf : e.Fits (max size 100 * ratio)) :
    ∃ f', Freq.zero.grow e size ratio = some f' ∧ FLink e f' ⟨[], 0, max size 100 * ratio, max size 100⟩ := by
  unfold Freq.grow
  rw [if_neg (by simp [Freq.zero])]
  have hok := hf.ok
  refine ⟨⟨0, max size 100 * ratio, max size 100, e.sketch (max size 100 * ratio), ⟨fun _ => 0, 0⟩⟩, ?_, ?_⟩
  · have h1 := hok.w
    have h2 := hok.d
    simp only [Sketch.init]
    rw [if_neg (by omega), if_neg (by omega)]; rfl
  · refine ⟨rfl, rfl, rfl, rfl, rfl, by simp, hf, ?_, by simp only; omega, ?_⟩
    · show 0 < max size 100 * ratio
      exact Nat.mul_pos (by omega) (by omega)
    · exact Nat.le_trans hr (Nat.le_mul_of_pos_left _ (by omega))

/-- an item is never taken for less used than it is. -/
theorem FLink.never_under {e : Env} {f : Freq} {c : Counts} (h : FLink e f c) (x : Nat) : c.uses x ≤ c.est e x := by
  have hmono : Sketch.MonoDecays c.log := by
    intro g hg a b hab
    rw [h.halves g hg]
    exact Nat.div_le_div_right hab
  have := Sketch.sketch_never_undercounts h.fits.ok ⟨fun _ => 0, 0⟩ (by
    have h1 := h.fits.ok.w
    have h2 := h.fits.ok.d
    simp only [Sketch.init]
    rw [if_neg (by omega), if_neg (by omega)]) c.log hmono (by
      intro g hg
      rw [h.halves g hg]
      exact Nat.div_le_self _ _) x
  exact this.1

end Verif.MMLfu
