/-
Model of `cachelib/common/Cohort.h`: readers take tokens, one writer at a time switches cohorts and waits for the old one.

`w` is the word cohortVal_.  A step is one atomic access to it.  Any number of readers run at once; only one thread switches
at a time (Cohort.h:29-30).  Readers are kept in lists by where they are.
-/
namespace Verif.Cohort

/-- Cohort.h:170-173 -/
def kTop : Nat := 2 ^ 63
def kBottom : Nat := 2 ^ 31
def ref (top : Bool) : Nat := if top then 2 ^ 32 else 1

/-- Cohort.h:126, 129, 140: `cohort & kTopCohortBit` as a boolean. -/
def isTop (w : Nat) : Bool := decide (w &&& kTop ≠ 0)
/-- fetch_add of 64 bits -/
def add (w r : Nat) : Nat := (w + r) % 2 ^ 64
/-- fetch_sub of 64 bits -/
def sub (w r : Nat) : Nat := (w + 2 ^ 64 - r) % 2 ^ 64
/-- Cohort.h:92 -/
def swap (w : Nat) : Nat := w ^^^ (kTop + kBottom)
/-- Cohort.h:96: the loop ends. -/
def drained (w : Nat) : Bool := !(decide ((w <<< 32) % 2 ^ 64 ≠ 0) && decide (w >>> 32 ≠ 0))

/-- Cohort.h:143-147 getPending; `&~bit` is written as xor with the bits in common. -/
def getPending (w : Nat) (top : Bool) : Nat :=
  if top then (w ^^^ (w &&& kTop)) >>> 32 else (((w ^^^ (w &&& kBottom)) <<< 32) % 2 ^ 64) >>> 32

structure S where
  w : Nat
  /-- readers at 128: topCohort, and (ghost) how many switches there had been at 116 -/
  loaded : List (Bool × Nat)
  /-- readers at 132: topCohort -/
  wrong : List Bool
  /-- tokens: (ghost) their number, and top_ -/
  toks : List (Nat × Bool)
  /-- (ghost) the number of the next token -/
  next : Nat
  /-- a switch is at 94-103; (ghost) the tokens there were at 92 -/
  sw : Option (List Nat)
  /-- (ghost) the number of switches so far -/
  nsw : Nat

/-- Cohort.h:175 -/
def S.init : S := ⟨kBottom, [], [], [], 0, none, 0⟩

inductive Step : S → S → Prop
  /-- 116, 126 -/
  | load (s) : Step s { s with loaded := (isTop s.w, s.nsw) :: s.loaded }
  /-- 128-130, when the cohort is still the same.  There must be room for the count (123-124). -/
  | enter (s t k) : (t, k) ∈ s.loaded → s.toks.length + s.wrong.length + 1 < 2 ^ 31 → isTop s.w = t →
      Step s { s with w := add s.w (ref t), loaded := s.loaded.erase (t, k), toks := (s.next, t) :: s.toks, next := s.next + 1 }
  /-- 128-129, when it has changed -/
  | miss (s t k) : (t, k) ∈ s.loaded → s.toks.length + s.wrong.length + 1 < 2 ^ 31 → isTop s.w ≠ t →
      Step s { s with w := add s.w (ref t), loaded := s.loaded.erase (t, k), wrong := t :: s.wrong }
  /-- 132; the reader starts again -/
  | undo (s t) : t ∈ s.wrong → Step s { s with w := sub s.w (ref t), wrong := s.wrong.erase t }
  /-- 155-156 decrActiveReqs of a token -/
  | release (s i t) : (i, t) ∈ s.toks → Step s { s with w := sub s.w (ref t), toks := s.toks.erase (i, t) }
  /-- 85-92 -/
  | swBegin (s) : s.sw = none → Step s { s with w := swap s.w, sw := some (s.toks.map Prod.fst), nsw := s.nsw + 1 }
  /-- 94-103: the loop ends and switchCohorts returns -/
  | swEnd (s l) : s.sw = some l → drained s.w = true → Step s { s with sw := none }

inductive Reach : S → Prop
  | init : Reach S.init
  | step (s s') : Reach s → Step s s' → Reach s'

end Verif.Cohort
