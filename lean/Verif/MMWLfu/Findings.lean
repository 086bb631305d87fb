import Verif.MMWLfu.Props
/-!
What does not hold of the W-TinyLFU container (C55).
-/
namespace Verif.MMLfu.W
open Verif MultiDList

/-- a configuration that only differs from the default in this share of protected items, with ratio 2 for the example. -/
def cfgPct (pct : Nat) : Config := ⟨60, 60, fun _ => 0, false, true, false, 2, 1, 0, true, 3, pct⟩

/-- items 1, 2 and 3 are added, 1 is accessed three times. -/
def hits : List (Op Nat) :=
  [.add 1 0, .add 2 0, .add 3 0, .promote 1 100, .promote 1 200, .promote 1 300]

/-- "An access makes its item a later candidate for eviction": with a share of protected items of 20 percent (any percentage is
accepted, even 0) and three items, the fourth access to the most used item makes it the first of all to be evicted. -/
theorem violated_hit_protects :
    let u := ((U.new (cfgPct 20) 0 id : U Nat).run env0 hits).1
    let v := (u.step env0 (.promote 1 400)).1
    (cfgPct 20).check = true ∧ u.evictions env0 = [2, 3, 1] ∧ (u.step env0 (.promote 1 400)).2 = true ∧
      v.evictions env0 = [1, 2, 3] := by
  decide +kernel

/-- the same with the default share of 80 percent, for the only item of a container: it is never protected. -/
theorem violated_single_item_protected :
    let u := ((U.new (cfgPct 80) 0 id : U Nat).run env0
      [.add 1 0, .promote 1 100, .promote 1 200, .promote 1 300, .promote 1 400, .promote 1 500]).1
    u.main = [] ∧ u.prob = [1] ∧ u.est env0 1 = 6 := by
  decide +kernel

/-- "Removals keep protected items within their share": after removals all items are protected, and new ones are the only candidates. -/
theorem violated_protected_share :
    let u := ((U.new (cfgPct 80) 0 id : U Nat).run env0
      (hits ++ [.promote 1 400, .remove 2, .remove 3])).1
    u.main = [1] ∧ u.prob = [] ∧ u.cfg.protPct * (u.prob.length + u.main.length) / 100 = 0 := by
  decide +kernel

/-- a new container with this configuration. -/
def fresh (c : Config) : State Nat :=
  ⟨MultiDList.new 3 ⟨fun _ => none, fun _ => none⟩, Freq.zero, nextTime c 0, c.refresh, c, fun _ => false, fun _ => false,
    fun _ => false, fun _ => false, fun _ => 0, id⟩

/-- "Saving keeps the configuration": a container that uses try-locks waits for them after a restart, and a refresh time of 900
seconds computed from the ages has become the configured minimum. -/
theorem violated_save_keeps_config :
    let c : Config := ⟨60, 60, fun _ => 5000, false, true, true, 32, 1, 10, false, 3, 80⟩
    let s := reconfigure (fresh c) 100
    c.check = true ∧ s.config.defaultRefresh = 60 ∧ s.config.tryLock = true ∧
    (saveState s).config.map (·.defaultRefresh) = some 900 ∧ (saveState s).config.map (·.tryLock) = some false := by
  decide

end Verif.MMLfu.W
