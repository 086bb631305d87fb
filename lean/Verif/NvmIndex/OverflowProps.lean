import Verif.NvmIndex.OverflowStep
import Mathlib.Data.List.Perm.Subperm
/-
C59: the flash index with overflow blocks.
-/
namespace Verif.NvmIndex.Fixed
open Verif

/-! ### Specification: a ledger -/

namespace OvSpec

/-- For each hash, the address it was last given and that was not removed since. -/
abbrev Ledger := Nat → Option Nat

/-- What an operation, with its result, does to the ledger. -/
def next (m : Ledger) : Op → Res → Ledger
  | .insert h a _, _ => fun x => if x = h then some a else m x
  | .insertNE h a _, .entry none => fun x => if x = h then some a else m x
  | .replace h a _, .ok true => fun x => if x = h then some a else m x
  | .remove h, _ => fun x => if x = h then none else m x
  | .removeMatch h a, _ => fun x => if x = h ∧ m h = some a then none else m x
  | .reset, _ => fun _ => none
  | _, _ => m

/-- How the cache uses the index: a new address is not 0 and not in use, sizes fit in 16 bits, and the address to be replaced
is not that of another hash. -/
def Legal (m : Ledger) : Op → Prop
  | .insert _ a z => a ≠ 0 ∧ z < 65536 ∧ ∀ x, m x ≠ some a
  | .insertNE _ a z => a ≠ 0 ∧ z < 65536 ∧ ∀ x, m x ≠ some a
  | .replace h a o => a ≠ 0 ∧ (∀ x, m x ≠ some a) ∧ ∀ x, x ≠ h → m x ≠ some o
  | _ => True

/-- Reading back the key at an address in use may fail, but does not give another key. -/
def Honest (key : Nat → Option Nat) (m : Ledger) : Prop := ∀ x a k, m x = some a → key a = some k → k = x

/-- Reading back the key at an address in use succeeds. -/
def Answers (key : Nat → Option Nat) (m : Ledger) : Prop := ∀ x a, m x = some a → key a = some x

/-- The hash an operation is about. -/
def hash : Op → Option Nat
  | .lookup h | .peek h | .insert h _ _ | .insertNE h _ _ | .replace h _ _ | .remove h | .removeMatch h _ => some h
  | .reset => none

/-- The result that a perfect index gives, as far as addresses are concerned. -/
def exact (m : Ledger) : Op → Res → Prop
  | .lookup h, .entry e | .peek h, .entry e | .insert h _ _, .entry e | .insertNE h _ _, .entry e | .remove h, .entry e =>
    e.map (·.addr) = m h
  | .replace h _ o, .ok b => b = true ↔ m h = some o
  | .removeMatch h a, .ok b => b = true ↔ m h = some a
  | .reset, .ok b => b = true
  | _, _ => False

end OvSpec

open OvSpec

/-- A new index. -/
def OSt.new : OSt := { base := St.new, comb := fun _ => none }

/-- The states that legal use leads to, with the ledger: only hashes in `P` are used, and if `A` holds keys can always be read
back. -/
inductive Reach (c : Cfg) (P : Nat → Prop) (A : Prop) : OSt → Ledger → Prop
  | new : Reach c P A OSt.new (fun _ => none)
  | step {s t : OSt} {m : Ledger} {key : Nat → Option Nat} {o : Op} {r : Res} : Reach c P A s m → Honest key m →
      (A → Answers key m) → Legal m o → (∀ h, hash o = some h → P h) → s.step c key o = some (t, r) → Reach c P A t (next m o r)

theorem upd_eq (m : Ledger) (h : Nat) (v : Option Nat) : upd m h v = fun x => if x = h then v else m x := rfl

/-- One step. -/
theorem step_o {c : Cfg} (hc : c.Good) {s : OSt} {m : Ledger} (hI : OInv c s m) {key : Nat → Option Nat} (hk : Honest key m)
    {o : Op} (hl : Legal m o) : ∃ t r, s.step c key o = some (t, r) ∧ OInv c t (next m o r) := by
  cases o with
  | lookup h =>
    obtain ⟨t, e, l1, l2, -⟩ := lookup_o hc hI h
    exact ⟨t, .entry e, by simp only [OSt.step, l1, Option.map_some], l2⟩
  | peek h =>
    obtain ⟨e, l1, l2⟩ := peek_o hc hI h
    exact ⟨s, .entry e, by simp only [OSt.step, l1, Option.map_some], hI⟩
  | insert h a z =>
    obtain ⟨t, e, l1, l2, -⟩ := insert_o hc hI hk (h := h) hl.1 hl.2.1 hl.2.2
    exact ⟨t, .entry e, by simp only [OSt.step, l1, Option.map_some], l2⟩
  | insertNE h a z =>
    obtain ⟨t, e, l1, l2, -⟩ := insertNE_o hc hI hk (h := h) hl.1 hl.2.1 hl.2.2
    refine ⟨t, .entry e, by simp only [OSt.step, l1, Option.map_some], ?_⟩
    cases e with
    | none => exact l2
    | some v => exact l2
  | replace h a z =>
    obtain ⟨t, e, l1, l2, -⟩ := replace_o hc hI hl.1 hl.2.1 hl.2.2
    refine ⟨t, .ok e, by simp only [OSt.step, l1, Option.map_some], ?_⟩
    cases e with
    | true => exact l2
    | false => exact l2
  | remove h =>
    obtain ⟨t, e, l1, l2, -⟩ := remove_o hc hI h
    exact ⟨t, .entry e, by simp only [OSt.step, l1, Option.map_some], l2⟩
  | removeMatch h a =>
    obtain ⟨t, e, l1, l2, -⟩ := removeMatch_o hc hI h a
    exact ⟨t, .ok e, by simp only [OSt.step, l1, Option.map_some], l2⟩
  | reset => exact ⟨_, .ok true, rfl, reset_o hc hI⟩

theorem reach_inv {c : Cfg} (hc : c.Good) {P : Nat → Prop} {A : Prop} {s : OSt} {m : Ledger} (h : Reach c P A s m) : OInv c s m := by
  induction h with
  | new => exact empty_o (fun _ _ => rfl) (fun _ _ => rfl)
  | step _ hk _ hl _ he ih =>
    obtain ⟨t, r, h1, h2⟩ := step_o hc ih hk hl
    rw [he] at h1
    simp only [Option.some.injEq, Prod.mk.injEq] at h1
    obtain ⟨rfl, rfl⟩ := h1
    exact h2

/-- **No undefined behaviour**: within the lifetime of a process every operation works, whatever the keys read back. -/
theorem overflow_defined {c : Cfg} (hc : c.Good) {P : Nat → Prop} {A : Prop} {s : OSt} {m : Ledger} (h : Reach c P A s m)
    {key : Nat → Option Nat} (hk : Honest key m) {o : Op} (hl : Legal m o) : ∃ t r, s.step c key o = some (t, r) := by
  obtain ⟨t, r, h1, -⟩ := step_o hc (reach_inv hc h) hk hl
  exact ⟨t, r, h1⟩

/-- **Nothing stale**: what a lookup, a peek or a removal reports is the last address given to a hash that has the bucket and
the 8 bits of the hash asked for; a replaced or removed address is never reported. -/
theorem overflow_no_stale {c : Cfg} (hc : c.Good) {P : Nat → Prop} {A : Prop} {s t : OSt} {m : Ledger} (h : Reach c P A s m)
    {key : Nat → Option Nat} {o : Op} {x : Nat} (ho : o = .lookup x ∨ o = .peek x ∨ o = .remove x) {v : View}
    (he : s.step c key o = some (t, .entry (some v))) :
    ∃ y, c.bucketId y = c.bucketId x ∧ (y >>> 40) % 256 = (x >>> 40) % 256 ∧ m y = some v.addr := by
  have hI := reach_inv hc h
  have hb : ∀ z, partialBits z = (z >>> 40) % 256 := fun z => by
    unfold partialBits; exact Nat.and_two_pow_sub_one_eq_mod _ 8
  have key : ∀ e, Reads c s m x e → e = some v → ∃ y, c.bucketId y = c.bucketId x ∧ (y >>> 40) % 256 = (x >>> 40) % 256 ∧ m y = some v.addr := by
    intro e hR hev
    obtain ⟨y, h1, h2⟩ := hR.own v hev
    refine ⟨y, congrArg Prod.fst h1, ?_, h2⟩
    have := congrArg Prod.snd h1
    simp only at this
    rw [← hb, ← hb]; exact this
  rcases ho with rfl | rfl | rfl
  · obtain ⟨t', e, l1, -, -, l2, -⟩ := lookup_o hc hI x
    simp only [OSt.step, l1, Option.map_some, Option.some.injEq, Prod.mk.injEq, Res.entry.injEq] at he
    exact key e l2 he.2
  · obtain ⟨e, l1, l2⟩ := peek_o hc hI x
    simp only [OSt.step, l1, Option.map_some, Option.some.injEq, Prod.mk.injEq, Res.entry.injEq] at he
    exact key e l2 he.2
  · obtain ⟨t', e, l1, -, -, l2⟩ := remove_o hc hI x
    simp only [OSt.step, l1, Option.map_some, Option.some.injEq, Prod.mk.injEq, Res.entry.injEq] at he
    exact key e l2 he.2

/-- A peek finds the current record of `x` exactly when the index holds it. -/
theorem peek_held {c : Cfg} (hc : c.Good) {s : OSt} {m : Ledger} (hI : OInv c s m) {x a : Nat} (hx : m x = some a) :
    (∃ v, s.peek c x = some (some v) ∧ v.addr = a) ↔ Held c s x a := by
  constructor
  · rintro ⟨v, hv, rfl⟩
    unfold OSt.peek at hv
    rcases check_o hc hI x with ⟨h1, h2, h3⟩ | ⟨i, r, h1, hF⟩
    · rw [h1] at hv; cases hv
    · rw [h1] at hv
      simp only [hF.rcd, Option.map_some, seen, hF.valid, if_true, Option.some.injEq] at hv
      subst hv
      rcases hF.kind with ⟨k1, b, r0, k2, k3, k4, k5⟩ | ⟨k1, k2, k3, k4⟩
      · exact .inr ⟨_, k5⟩
      · exact .inl ⟨_, k3⟩
  · intro hh
    obtain ⟨e, h1, h2⟩ := peek_o hc hI x
    obtain ⟨v, rfl, hv⟩ := h2.held a hx hh
    exact ⟨v, h1, hv⟩

/-- **An insertion evicts nothing**: as long as keys can be read back, the current record of every other key stays found. -/
theorem overflow_keeps {c : Cfg} (hc : c.Good) {P : Nat → Prop} {A : Prop} {s t : OSt} {m : Ledger} (h : Reach c P A s m)
    {key : Nat → Option Nat} (hk : Answers key m) {o : Op} {y a z : Nat} (ho : o = .insert y a z ∨ o = .insertNE y a z) (hl : Legal m o)
    {r : Res} (he : s.step c key o = some (t, r)) {x b : Nat} (hx : m x = some b)
    (hne : c.bucketId x ≠ c.bucketId y ∨ (x >>> 40) % 256 ≠ (y >>> 40) % 256)
    (hf : ∃ v, s.peek c x = some (some v) ∧ v.addr = b) : ∃ v, t.peek c x = some (some v) ∧ v.addr = b := by
  have hI := reach_inv hc h
  have hh : Honest key m := fun x a k h1 h2 => by rw [hk x a h1] at h2; cases h2; rfl
  have hb : ∀ z, partialBits z = (z >>> 40) % 256 := fun z => by
    unfold partialBits; exact Nat.and_two_pow_sub_one_eq_mod _ 8
  have hkey : keyOf c x ≠ keyOf c y := by
    intro e
    rcases hne with h1 | h1
    · exact h1 (congrArg Prod.fst e)
    · rw [← hb, ← hb] at h1; exact h1 (congrArg Prod.snd e)
  have hxy : x ≠ y := by rintro rfl; exact hkey rfl
  rw [peek_held hc hI hx] at hf
  obtain ⟨t', r', h1, hI'⟩ := step_o hc hI hh hl
  rw [he] at h1
  simp only [Option.some.injEq, Prod.mk.injEq] at h1
  obtain ⟨rfl, rfl⟩ := h1
  have hx' : next m o r x = some b := by
    rcases ho with rfl | rfl
    · simp only [next, hxy, if_false]; exact hx
    · rcases r with (_ | _) | _ <;> simp only [next, hxy, if_false] <;> exact hx
  rw [peek_held hc hI' hx']
  rcases ho with rfl | rfl
  · obtain ⟨t', e, l1, -, l2, -⟩ := insert_o hc hI hh (h := y) hl.1 hl.2.1 hl.2.2
    simp only [OSt.step, l1, Option.map_some, Option.some.injEq, Prod.mk.injEq] at he
    obtain ⟨rfl, -⟩ := he
    exact l2 hk x b hx hkey hf
  · obtain ⟨t', e, l1, -, l2, -⟩ := insertNE_o hc hI hh (h := y) hl.1 hl.2.1 hl.2.2
    simp only [OSt.step, l1, Option.map_some, Option.some.injEq, Prod.mk.injEq] at he
    obtain ⟨rfl, -⟩ := he
    exact l2 hk x b hx hkey hf

theorem blkRoom_false {n : Nat} (h : blkRoom n = false) : 140 ≤ n := by
  unfold blkRoom at h
  simp only [decide_eq_false_iff_not] at h
  omega

/-- **An inserted record is found**, unless a block that the hash may be in already has 140 other keys. -/
theorem overflow_insert_found {c : Cfg} (hc : c.Good) {P : Nat → Prop} {A : Prop} {s t : OSt} {m : Ledger} (h : Reach c P A s m)
    {key : Nat → Option Nat} (hk : Honest key m) {x a z : Nat} (hl : Legal m (.insert x a z)) {r : Res}
    (he : s.step c key (.insert x a z) = some (t, r)) :
    (∃ v, t.peek c x = some (some v) ∧ v.addr = a) ∨
      ∃ i b, i < 4 ∧ t.comb (c.slot (c.bucketId x) i) = some b ∧ 140 ≤ b.stored.length ∧ x ∉ b.stored := by
  have hI := reach_inv hc h
  obtain ⟨t', e, l1, l2, -, -, l3⟩ := insert_o hc hI hk (h := x) hl.1 hl.2.1 hl.2.2
  simp only [OSt.step, l1, Option.map_some, Option.some.injEq, Prod.mk.injEq] at he
  obtain ⟨rfl, -⟩ := he
  rcases l3 with l3 | ⟨i, b, h1, h2, h3, h4⟩
  · exact .inl ((peek_held hc l2 (upd_same _ _ _)).2 l3)
  · exact .inr ⟨i, b, h1, h2, blkRoom_false h4, h3⟩

/-- What holds when at most 140 hashes are used, of different keys, and keys can be read back. -/
structure Full (c : Cfg) (P : Nat → Prop) (s : OSt) (m : Ledger) : Prop where
  inv : OInv c s m
  dom : ∀ x a, m x = some a → P x
  si : SI P s
  held : ∀ x a, m x = some a → Held c s x a

theorem room_of {P : Nat → Prop} {l : List Nat} (hP : ∀ x, P x → x ∈ l) (hl : l.length ≤ 140) {s : OSt} (hS : SI P s)
    {q : Nat} {b : Blk} (hb : s.comb q = some b) {x : Nat} (hx : P x) (hn : x ∉ b.stored) : blkRoom b.stored.length = true := by
  obtain ⟨h1, h2⟩ := hS q b hb
  have h3 : (x :: b.stored).Nodup := List.nodup_cons.2 ⟨hn, h1⟩
  have h4 : (x :: b.stored) ⊆ l := by
    intro y hy
    rcases List.mem_cons.1 hy with rfl | hy
    · exact hP _ hx
    · exact hP _ (h2 y hy)
  have h5 := (List.subperm_of_subset h3 h4).length_le
  simp only [List.length_cons] at h5
  cases h : blkRoom b.stored.length with
  | true => rfl
  | false => have := blkRoom_false h; omega

theorem reads_exact {c : Cfg} {P : Nat → Prop} (hinj : ∀ x y, P x → P y → keyOf c x = keyOf c y → x = y) {s : OSt} {m : Ledger}
    (hF : Full c P s m) {h : Nat} (hh : P h) {e : Option View} (hR : Reads c s m h e) : e.map (·.addr) = m h := by
  cases e with
  | none =>
    cases hm : m h with
    | none => rfl
    | some a => obtain ⟨v, hv, -⟩ := hR.held a hm (hF.held _ _ hm); cases hv
  | some v =>
    obtain ⟨y, h1, h2⟩ := hR.own v rfl
    have := hinj y h (hF.dom _ _ h2) hh h1
    subst this
    exact h2.symm

theorem full_step {c : Cfg} (hc : c.Good) {P : Nat → Prop} {l : List Nat} (hP : ∀ x, P x → x ∈ l) (hlen : l.length ≤ 140)
    (hinj : ∀ x y, P x → P y → keyOf c x = keyOf c y → x = y) {s t : OSt} {m : Ledger} (hF : Full c P s m)
    {key : Nat → Option Nat} (hk : Answers key m) {o : Op} (hl : Legal m o) (ho : ∀ h, hash o = some h → P h) {r : Res}
    (he : s.step c key o = some (t, r)) : Full c P t (next m o r) ∧ exact m o r := by
  have hI := hF.inv
  have hh : Honest key m := fun x a k h1 h2 => by rw [hk x a h1] at h2; cases h2; rfl
  have hsi : SI P t := by
    refine step_si hc hI hh (o := o) ?_ hF.dom he hF.si
    cases o <;> first | exact ho _ rfl | trivial
  obtain ⟨t', r', h1, hI'⟩ := step_o hc hI hh hl
  rw [he] at h1
  simp only [Option.some.injEq, Prod.mk.injEq] at h1
  obtain ⟨rfl, rfl⟩ := h1
  have hdom : ∀ x a, next m o r x = some a → P x := by
    intro x a hx
    by_cases hox : hash o = some x
    · exact ho x hox
    · refine hF.dom x a ?_
      have hne : ∀ y, hash o = some y → x ≠ y := by rintro y hy rfl; exact hox hy
      cases o with
      | insert h _ _ => simpa only [next, hne h rfl, if_false] using hx
      | insertNE h _ _ =>
        rcases r with (_ | _) | _
        · simpa only [next, hne h rfl, if_false] using hx
        · exact hx
        · exact hx
      | replace h _ _ =>
        rcases r with _ | (_ | _)
        · exact hx
        · exact hx
        · simpa only [next, hne h rfl, if_false] using hx
      | remove h => simpa only [next, hne h rfl, if_false] using hx
      | removeMatch h _ => simpa only [next, hne h rfl, false_and, if_false] using hx
      | reset => cases hx
      | lookup h => exact hx
      | peek h => exact hx
  suffices hs : (∀ x a, next m o r x = some a → Held c t x a) ∧ exact m o r from ⟨⟨hI', hdom, hsi, hs.1⟩, hs.2⟩
  have hkey : ∀ h, P h → ∀ x a, m x = some a → x ≠ h → keyOf c x ≠ keyOf c h :=
    fun h h1 x a h2 h3 h4 => h3 (hinj _ _ (hF.dom _ _ h2) h1 h4)
  cases o with
  | lookup h =>
    obtain ⟨t', e, l1, -, l2, l3, -⟩ := lookup_o hc hI h
    simp only [OSt.step, l1, Option.map_some, Option.some.injEq, Prod.mk.injEq] at he
    obtain ⟨rfl, rfl⟩ := he
    exact ⟨fun x a hx => (l2 x a).2 (hF.held x a hx), reads_exact hinj hF (ho h rfl) l3⟩
  | peek h =>
    obtain ⟨e, l1, l2⟩ := peek_o hc hI h
    simp only [OSt.step, l1, Option.map_some, Option.some.injEq, Prod.mk.injEq] at he
    obtain ⟨rfl, rfl⟩ := he
    exact ⟨hF.held, reads_exact hinj hF (ho h rfl) l2⟩
  | insert h a z =>
    obtain ⟨t', e, l1, l2, l3, l4, l5⟩ := insert_o hc hI hh (h := h) hl.1 hl.2.1 hl.2.2
    simp only [OSt.step, l1, Option.map_some, Option.some.injEq, Prod.mk.injEq] at he
    obtain ⟨rfl, rfl⟩ := he
    refine ⟨fun x b hx => ?_, reads_exact hinj hF (ho h rfl) (l4 hk)⟩
    simp only [next] at hx
    split at hx
    · next e => 
      subst e; cases hx
      rcases l5 with l5 | ⟨i, b, -, h2, h3, h4⟩
      · exact l5
      · rw [room_of hP hlen hsi h2 (ho _ rfl) h3] at h4; cases h4
    · next e => exact l3 hk x b hx (hkey h (ho h rfl) x b hx e) (hF.held x b hx)
  | insertNE h a z =>
    obtain ⟨t', e, l1, l2, l3, l4, l5, l6⟩ := insertNE_o hc hI hh (h := h) hl.1 hl.2.1 hl.2.2
    simp only [OSt.step, l1, Option.map_some, Option.some.injEq, Prod.mk.injEq] at he
    obtain ⟨rfl, rfl⟩ := he
    refine ⟨fun x b hx => ?_, reads_exact hinj hF (ho h rfl) (l4 hk)⟩
    cases e with
    | some v => exact l6 v rfl x b hx (hF.held x b hx)
    | none =>
      simp only [next] at hx
      split at hx
      · next e =>
        subst e; cases hx
        rcases l5 rfl with l5 | ⟨i, b, -, h2, h3, h4⟩
        · exact l5
        · rw [room_of hP hlen hsi h2 (ho _ rfl) h3] at h4; cases h4
      · next e => exact l3 hk x b hx (hkey h (ho h rfl) x b hx e) (hF.held x b hx)
  | replace h a o =>
    obtain ⟨t', e, l1, l2, l3, l4, l5, l6⟩ := replace_o hc hI hl.1 hl.2.1 hl.2.2
    simp only [OSt.step, l1, Option.map_some, Option.some.injEq, Prod.mk.injEq] at he
    obtain ⟨rfl, rfl⟩ := he
    refine ⟨fun x b hx => ?_, ⟨fun h1 => (l4 h1).1, fun h1 => l6 h1 (hF.held _ _ h1)⟩⟩
    cases e with
    | false => rw [l5 rfl]; exact hF.held x b hx
    | true =>
      simp only [next] at hx
      split at hx
      · next e => subst e; cases hx; exact (l4 rfl).2
      · next e => exact l3 x b (hkey h (ho h rfl) x b hx e) (hF.held x b hx)
  | remove h =>
    obtain ⟨t', e, l1, l2, l3, l4⟩ := remove_o hc hI h
    simp only [OSt.step, l1, Option.map_some, Option.some.injEq, Prod.mk.injEq] at he
    obtain ⟨rfl, rfl⟩ := he
    refine ⟨fun x b hx => ?_, reads_exact hinj hF (ho h rfl) l4⟩
    simp only [next] at hx
    split at hx
    · cases hx
    · next e => exact l3 x b (hkey h (ho h rfl) x b hx e) (hF.held x b hx)
  | removeMatch h a =>
    obtain ⟨t', e, l1, l2, l3, l4, l5, l6⟩ := removeMatch_o hc hI h a
    simp only [OSt.step, l1, Option.map_some, Option.some.injEq, Prod.mk.injEq] at he
    obtain ⟨rfl, rfl⟩ := he
    refine ⟨fun x b hx => ?_, ⟨fun h1 => ?_, fun h1 => l5 h1 (hF.held _ _ h1)⟩⟩
    · simp only [next] at hx
      split at hx
      · cases hx
      · next e2 =>
        by_cases e3 : x = h
        · subst e3
          cases e with
          | false => exact l6 rfl x b (hF.held x b hx)
          | true =>
            obtain ⟨y, y1, y2⟩ := l4 rfl
            have := hinj y x (hF.dom _ _ y2) (ho _ rfl) y1
            subst this
            exact absurd ⟨rfl, y2⟩ e2
        · exact l3 x b (hkey h (ho h rfl) x b hx e3) (hF.held x b hx)
    · obtain ⟨y, y1, y2⟩ := l4 h1
      have := hinj y h (hF.dom _ _ y2) (ho _ rfl) y1
      subst this
      exact y2
  | reset =>
    simp only [OSt.step, Option.some.injEq, Prod.mk.injEq] at he
    obtain ⟨rfl, rfl⟩ := he
    exact ⟨fun x a hx => (by cases hx), rfl⟩

/-- **A perfect index**: with at most 140 hashes, no two of the same bucket and the same 8 bits, and keys that can be read back,
every operation of every history gives the result of a map. (Without overflow blocks four entries of a bucket are the most.) -/
theorem overflow_exact {c : Cfg} (hc : c.Good) {l : List Nat} (hlen : l.length ≤ 140)
    (hinj : ∀ x ∈ l, ∀ y ∈ l, c.bucketId x = c.bucketId y → (x >>> 40) % 256 = (y >>> 40) % 256 → x = y)
    {s t : OSt} {m : Ledger} (h : Reach c (· ∈ l) True s m) {key : Nat → Option Nat} (hk : Answers key m) {o : Op} (hl : Legal m o)
    (ho : ∀ x, hash o = some x → x ∈ l) {r : Res} (he : s.step c key o = some (t, r)) : exact m o r := by
  have hb : ∀ z, partialBits z = (z >>> 40) % 256 := fun z => by
    unfold partialBits; exact Nat.and_two_pow_sub_one_eq_mod _ 8
  have hinj' : ∀ x y, x ∈ l → y ∈ l → keyOf c x = keyOf c y → x = y := by
    intro x y hx hy hxy
    refine hinj x hx y hy (congrArg Prod.fst hxy) ?_
    rw [← hb, ← hb]; exact congrArg Prod.snd hxy
  have hF : Full c (· ∈ l) s m := by
    clear he hl ho hk
    induction h with
    | new =>
      refine ⟨empty_o (fun _ _ => rfl) (fun _ _ => rfl), ?_, ?_, ?_⟩
      · intro x a hx; cases hx
      · intro q b hq; cases hq
      · intro x a hx; cases hx
    | step _ _ ha hl ho he ih => exact (full_step hc (fun _ h => h) hlen hinj' ih (ha trivial) hl ho he).1
  exact (full_step hc (fun _ h => h) hlen hinj' hF hk hl ho he).2

/-! ### A concrete history -/

namespace OvEx

/-- 128 buckets in one shard. -/
def cfg : Cfg := ⟨1, 7, 128⟩

/-- Different hashes that share a bucket. -/
def hs (i : Nat) : Nat := (i <<< 40) + 5

def key (a : Nat) : Option Nat := some (hs (a - 1))

def used (n : Nat) : List Nat := (List.range n).map hs

/-- The state after `n` insertions. -/
def st : Nat → Option OSt
  | 0 => some OSt.new
  | n + 1 => (st n).bind fun s => (s.step cfg key (.insert (hs n) (n + 1) 100)).map (·.1)

def led (n : Nat) : Ledger := fun x => if x ∈ (List.range n).map hs then some (x >>> 40 + 1) else none

theorem good : cfg.Good := ⟨by decide, by decide, by decide, by decide⟩

theorem hs_shift (i : Nat) : hs i >>> 40 = i := by
  unfold hs; rw [Nat.shiftRight_eq_div_pow, Nat.shiftLeft_eq]; omega

theorem led_some {n x a : Nat} (h : led n x = some a) : ∃ i < n, x = hs i ∧ a = i + 1 := by
  unfold led at h
  split at h
  · next hx =>
    simp only [List.mem_map, List.mem_range] at hx
    obtain ⟨i, h1, rfl⟩ := hx
    rw [hs_shift] at h
    exact ⟨i, h1, rfl, by injection h with h; exact h.symm⟩
  · cases h

theorem ans (n : Nat) : Answers key (led n) := by
  intro x a h
  obtain ⟨i, -, rfl, rfl⟩ := led_some h
  rfl

theorem reach (k n : Nat) (hn : n ≤ k) : ∃ s, st n = some s ∧ Reach cfg (· ∈ used k) True s (led n) := by
  induction n with
  | zero =>
    refine ⟨OSt.new, rfl, ?_⟩
    have : led 0 = fun _ => none := by funext x; simp [led]
    rw [this]; exact .new
  | succ n ih =>
    obtain ⟨s, h1, h2⟩ := ih (by omega)
    have hl : Legal (led n) (.insert (hs n) (n + 1) 100) := by
      refine ⟨by omega, by omega, ?_⟩
      intro x hx
      obtain ⟨i, hi, -, h4⟩ := led_some hx
      omega
    have hh : Honest key (led n) := fun x a k h1 h2 => by rw [ans n x a h1] at h2; cases h2; rfl
    obtain ⟨t, r, ht⟩ := overflow_defined good h2 hh hl
    refine ⟨t, by simp only [st, h1, Option.bind_some, ht, Option.map_some], ?_⟩
    have h3 := Reach.step h2 hh (fun _ => ans n) hl (by
      intro h hx
      simp only [OvSpec.hash, Option.some.injEq] at hx
      subst hx
      simp only [used, List.mem_map, List.mem_range]
      exact ⟨n, by omega, rfl⟩) ht
    have e : next (led n) (.insert (hs n) (n + 1) 100) r = led (n + 1) := by
      funext x
      simp only [next, led, List.range_succ, List.map_append, List.map_cons, List.map_nil, List.mem_append, List.mem_singleton]
      by_cases hx : x = hs n
      · subst hx; simp [hs_shift]
      · simp [hx]
    rw [e] at h3
    exact h3

/-- The hypotheses of `overflow_exact` are met. -/
theorem used_ok : (used 8).length ≤ 140 ∧
    ∀ x ∈ used 8, ∀ y ∈ used 8, cfg.bucketId x = cfg.bucketId y → (x >>> 40) % 256 = (y >>> 40) % 256 → x = y := by
  decide +kernel

/-- The eight hashes are in the same bucket, so that four of them are all that fits without blocks. -/
example : ∃ b, (used 8).map cfg.bucketId = List.replicate 8 b := ⟨cfg.bucketId 5, by decide +kernel⟩

/-- All eight are found, one plain record less than slots because slot 0 became a block. -/
example : (st 8).map (fun s => (used 8).map fun x => (s.peek cfg x).map (·.map (·.addr))) =
    some [some (some 1), some (some 2), some (some 3), some (some 4), some (some 5), some (some 6), some (some 7), some (some 8)] := by
  decide +kernel

/-- Without overflow blocks the first is overwritten by the fifth. -/
example : ((St.run cfg St.new [.insert (hs 0) 1 100, .insert (hs 1) 2 100, .insert (hs 2) 3 100, .insert (hs 3) 4 100,
    .insert (hs 4) 5 100]).1.peek cfg (hs 0)) = none := by decide +kernel

/-- When the key cannot be read back the record of slot 0 is lost, as without blocks. -/
example : ((st 4).bind fun s => (s.step cfg (fun _ => none) (.insert (hs 4) 5 100)).bind fun x => x.1.peek cfg (hs 0)) = some none := by
  decide +kernel

/-- A replacement and a removal in a block. -/
example : ((st 8).bind fun s => (s.step cfg key (.replace (hs 6) 90 7)).bind fun x => (x.1.step cfg key (.remove (hs 7))).bind fun y =>
    (y.1.peek cfg (hs 6)).bind fun a => (y.1.peek cfg (hs 7)).map fun b => (a.map (·.addr), b.map (·.addr), y.2)) =
    some (some 90, none, .entry (some ⟨8, sizeExpToHint (sizeHintToExp 100), 0⟩)) := by decide +kernel

end OvEx

end Verif.NvmIndex.Fixed
