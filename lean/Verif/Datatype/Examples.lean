import Verif.Datatype.MapProps
import Verif.Datatype.RangeMapProps

/-! # Non-vacuity: concrete containers meeting the hypotheses of the theorems -/

namespace Verif.Datatype.Examples
open Verif.Datatype

/-- One-byte keys. -/
def E : KeyEnc UInt8 where
  ks := 1
  enc k := [k]
  dec l := l.headD 0
  len := by intro k; rfl
  pos := by decide
  dec_enc := by intro k; rfl

/-- An environment that grants everything. -/
def yes : Orc := ⟨true, fun _ => true, true, true, fun _ => 170⟩
/-- An environment without memory. -/
def no : Orc := ⟨false, fun _ => false, false, false, fun _ => 170⟩

/-! ## Map -/

def mcfg : MapCfg UInt8 := ⟨E, fun k => k.toNat * 7, 12, 4000000, 4000000, fun n c => decide (n * 10 > c * 9)⟩

theorem mcfg_ok : MapM.CfgOK mcfg := by
  refine ⟨?_, by decide, by decide⟩
  intro k
  have := k.toNat_lt
  show k.toNat * 7 < 4294967296
  omega

/-- Creation with a tiny index and a tiny buffer: later insertions must expand both. -/
def mW : Option (World (MapItem UInt8)) := MapM.create mcfg 3 16 yes

theorem mW_some : mW.isSome = true := by decide +kernel

/-- Insert, insert again, replace, erase, find, move to new items, fail for want of memory, compact. -/
def mcalls : List (Orc × MapOp UInt8) :=
  [(yes, .insert 1 [10, 11]), (yes, .publish), (yes, .insert 1 [12]), (yes, .insert 2 [20, 21, 22, 23]), (yes, .insert 3 [30]),
   (no, .insert 4 [40, 41, 42, 43, 44, 45, 46, 47, 48]), (yes, .insertOrReplace 1 [13, 14, 15]), (yes, .find 1 3), (yes, .erase 2),
   (yes, .find 2 0), (yes, .insert 4 [40]), (yes, .insert 5 [50, 51]), (yes, .size), (yes, .compact), (yes, .poke 5 1 99),
   (yes, .find 5 2), (yes, .iterate (fun _ => 1)), (yes, .attach 0), (yes, .size), (yes, .find 1 2)]

/-- A decidable image of the results. -/
def mShow : MapOut UInt8 → List Nat
  | .ub => [0]
  | .throws => [1]
  | .broken => [2]
  | .bool b => [3, if b then 1 else 0]
  | .found none => [4]
  | .found (some v) => 5 :: v.map UInt8.toNat
  | .entries l => 6 :: l.flatMap (fun e => e.1.toNat :: e.2.map UInt8.toNat)
  | .num n => [7, n]
  | .unit => [8]

/-- The theorem `map_is_a_map` applies to this run … -/
example : ∀ W, mW = some W → MapM.Conforms 1 ⟨[fun _ => none], 0, none⟩ (MapM.run mcfg W mcalls) :=
  fun _ h => MapM.map_is_a_map mcfg_ok h (by decide) (by decide) mcalls

/-- … and these are its results: no undefined behaviour, every kind of result but `broken` occurs. -/
example : (mW.map (fun W => (MapM.run mcfg W mcalls).map (fun x => mShow x.2))) =
    some [[3, 1], [8], [3, 0], [3, 1], [3, 1], [1], [3, 1], [5, 13, 14, 15], [3, 1], [4], [3, 1], [3, 1], [7, 4], [8], [8],
      [5, 50, 99], [6, 3, 30, 1, 13, 4, 40, 5, 50], [8], [7, 2], [5, 10, 11]] := by
  decide +kernel

/-- `compact` may break the container: with as many entries as the index admits it throws although nothing is wrong
(the default capacity is 20, so 19 entries suffice there). -/
example : (mW.map (fun W => (MapM.run mcfg W [(yes, .insert 1 [1]), (yes, .insert 2 [1]), (yes, .erase 1),
    (yes, .insert 3 [2]), (yes, .compact)]).map (fun x => mShow x.2))) = some [[3, 1], [3, 1], [3, 1], [3, 1], [2]] := by
  decide +kernel

/-- The hypotheses of `insert_succeeds` and `compact_succeeds` are met: by the new container. -/
example : ∃ W it, MapM.Reach mcfg W ∧ W.curItem = some it ∧ it.bufs.length < 1023 ∧
    8 + it.ht.cap * 2 * mcfg.es ≤ mcfg.maxHT ∧ it.ht.num + 1 < it.ht.cap := by
  cases h : mW with
  | none => have := mW_some; rw [h] at this; cases this
  | some W =>
    have hw : (mW.bind World.curItem).map (fun it => (it.bufs.length, it.ht.cap, it.ht.num)) = some (1, 3, 0) := by
      decide +kernel
    rw [h] at hw
    simp only [Option.bind_some, Option.map_eq_some_iff, Prod.mk.injEq] at hw
    obtain ⟨it, h1, h2, h3, h4⟩ := hw
    refine ⟨W, it, .create (n := 3) (b := 16) (o := yes) (by decide) (by decide) h, h1, by omega, ?_, by omega⟩
    rw [h3]; decide

/-! ## RangeMap -/

def rcfg : RMCfg UInt8 := ⟨E, fun a b => decide (a.toNat < b.toNat), 12, 4000000⟩

theorem rcfg_ok : RMapM.CfgOK rcfg := by
  refine ⟨⟨?_, ?_, ?_⟩, by decide, by decide⟩
  · intro a; simp [rcfg]
  · intro a b c h1 h2; simp only [rcfg, decide_eq_true_eq] at *; omega
  · intro a b h
    simp only [rcfg, decide_eq_true_eq]
    have : a.toNat ≠ b.toNat := fun he => h (UInt8.toNat_inj.mp he)
    omega

def ryes : RMOrc UInt8 := ⟨yes, fun _ => (77, 1234)⟩
def rno : RMOrc UInt8 := ⟨no, fun _ => (77, 1234)⟩

def rW : Option (World (RMItem UInt8)) := RMapM.create rcfg 2 16 ryes

theorem rW_some : rW.isSome = true := by decide +kernel

def rcalls : List (RMOrc UInt8 × RMOp UInt8) :=
  [(ryes, .insert 5 [10, 11]), (ryes, .publish), (ryes, .insert 5 [12]), (ryes, .insert 2 [20, 21, 22, 23]), (ryes, .insert 9 [30]),
   (rno, .insert 4 [40, 41, 42, 43, 44, 45, 46, 47, 48]), (ryes, .insertOrReplace 5 [13, 14, 15]), (ryes, .lookup 5 3),
   (ryes, .iterate (fun _ => 1)), (ryes, .range 2 5 (fun _ => 1)), (ryes, .range 3 9 (fun _ => 1)),
   (ryes, .approx 3 9 (fun _ => 1)), (ryes, .remove 2), (ryes, .insert 7 [70, 71]), (ryes, .removeBefore 7), (ryes, .size),
   (ryes, .poke 7 1 99), (ryes, .compact), (ryes, .lookup 7 2), (ryes, .lookup 2 0), (ryes, .attach 0), (ryes, .size),
   (ryes, .lookup 5 2)]

def rShow : RMOut UInt8 → List Nat
  | .ub => [0]
  | .throws => [1]
  | .bool b => [3, if b then 1 else 0]
  | .found none => [4]
  | .found (some v) => 5 :: v.map UInt8.toNat
  | .entries l => 6 :: l.flatMap (fun e => e.1.toNat :: e.2.map UInt8.toNat)
  | .num n => [7, n]
  | .unit => [8]

example : ∀ W, rW = some W →
    RMapM.Conforms rcfg.lt 1 ⟨[fun _ => none], 0, none⟩ (RMapM.run rcfg W rcalls) :=
  fun _ h => RMapM.rangemap_is_a_sorted_map rcfg_ok h (by decide) (by decide) (by decide) rcalls

example : (rW.map (fun W => (RMapM.run rcfg W rcalls).map (fun x => rShow x.2))) =
    some [[3, 1], [8], [3, 0], [3, 1], [3, 1], [1], [3, 1], [5, 13, 14, 15], [6, 2, 20, 5, 13, 9, 30], [6, 2, 20, 5, 13],
      [6], [6, 5, 13, 9, 30], [3, 1], [3, 1], [7, 1], [7, 2], [8], [8], [5, 70, 99], [4], [8], [7, 1], [5, 10, 11]] := by
  decide +kernel

/-- The hypotheses of `insert_succeeds` are met: by the new container. -/
example : ∃ W it, RMapM.Reach rcfg W ∧ W.curItem = some it ∧ it.bufs.length < 1023 ∧
    8 + it.idx.cap * 2 * rcfg.es ≤ rcfg.maxItem := by
  cases h : rW with
  | none => have := rW_some; rw [h] at this; cases this
  | some W =>
    have hw : (rW.bind World.curItem).map (fun it => (it.bufs.length, it.idx.cap)) = some (1, 2) := by
      decide +kernel
    rw [h] at hw
    simp only [Option.bind_some, Option.map_eq_some_iff, Prod.mk.injEq] at hw
    obtain ⟨it, h1, h2, h3⟩ := hw
    refine ⟨W, it, .create (n := 2) (b := 16) (o := ryes) (by decide) (by decide) (by decide) h, h1, by omega, ?_⟩
    rw [h3]; decide

end Verif.Datatype.Examples
