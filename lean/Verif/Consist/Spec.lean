import Verif.Consist.Model
/-! # What a history of one key says about the result of a lookup

A history is the sequence of the begins and ends of the operations on one key. An operation is named by the position
of its begin. ValueHistory.h:32-36: "An operation could take effect in any time point between its begin and end." -/

namespace Verif.Consist.Spec
open Verif.Consist

/-- The operation that a call ends. -/
def ends : Call → Option Nat
  | .endGet b _ | .endSet b | .endDelete b => some b
  | _ => none

/-- Event `e` is the end of the operation begun by event `b`. -/
def Ended (evs : List Call) (b e : Nat) : Prop := ∃ c, evs[e]? = some c ∧ ends c = some b

/-- The end of an operation follows its begin, is of the same kind, and comes once. -/
structure WF (evs : List Call) : Prop where
  get : ∀ (e b : Nat) (r : Option Nat), evs[e]? = some (Call.endGet b r) → evs[b]? = some Call.beginGet
  set : ∀ e b : Nat, evs[e]? = some (Call.endSet b) → ∃ v, evs[b]? = some (Call.beginSet v)
  del : ∀ e b : Nat, evs[e]? = some (Call.endDelete b) → evs[b]? = some Call.beginDelete
  before : ∀ e b : Nat, Ended evs b e → b < e
  once : ∀ e e' b : Nat, Ended evs b e → Ended evs b e' → e = e'

/-- Operation `b` removes the value: a delete, or a lookup that found nothing (the item had been evicted). -/
def Removes (evs : List Call) (b : Nat) : Prop :=
  evs[b]? = some .beginDelete ∨ ∃ e : Nat, evs[e]? = some (Call.endGet b none)

/-- Operation `b` stores `v`. -/
def Stores (evs : List Call) (b v : Nat) : Prop := evs[b]? = some (.beginSet v)

/-- Operation `b` changes the key. -/
def Changes (evs : List Call) (b : Nat) : Prop := Removes evs b ∨ ∃ v, Stores evs b v

/-- The history does not tell what the key held at first: it starts with a lookup that has not missed. -/
def UnknownAtFirst (evs : List Call) : Prop :=
  evs[0]? = some .beginGet ∧ ¬ ∃ e : Nat, evs[e]? = some (Call.endGet 0 none)

/-- A schedule: when the events happened, and when (if at all) the operations took effect. -/
structure Sched (evs : List Call) where
  time : Nat → Nat
  eff : Nat → Option Nat
  /-- the events happened in their order -/
  mono : ∀ i j, i < j → time i < time j
  /-- an operation takes effect after its begin and before its end -/
  inside : ∀ b p, eff b = some p → time b < p ∧ ∀ e, Ended evs b e → p < time e
  /-- a completed change took effect -/
  completed : ∀ b e, Ended evs b e → Changes evs b → ∃ p, eff b = some p
  /-- one after the other -/
  distinct : ∀ a b p, eff a = some p → eff b = some p → a = b

/-- At time `p` the key holds `v` (or may hold it, when its first value is not known). -/
def Sched.Holds {evs} (S : Sched evs) (p v : Nat) : Prop :=
  (∃ s q, Stores evs s v ∧ S.eff s = some q ∧ q < p ∧
     ∀ a r, Changes evs a → S.eff a = some r → r < p → r ≤ q) ∨
  (UnknownAtFirst evs ∧ ∀ a r, Changes evs a → S.eff a = some r → p < r)

/-- A lookup begun by event `g` and ending now may find `v`: in some schedule of the history there is a moment since
its begin at which the key holds `v`. -/
def MayFind (evs : List Call) (g v : Nat) : Prop :=
  ∃ S : Sched evs, ∃ p, S.time g < p ∧ p < S.time evs.length ∧ S.Holds p v

/-- One schedule explains all lookups of the history. -/
def Atomic (evs : List Call) : Prop :=
  ∃ S : Sched evs, ∀ (g e v : Nat), evs[e]? = some (Call.endGet g (some v)) →
    ∃ p, S.time g < p ∧ p < S.time e ∧ S.Holds p v

end Verif.Consist.Spec
