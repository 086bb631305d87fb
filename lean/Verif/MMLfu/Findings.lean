import Verif.MMLfu.Props
/-!
What does not hold of the TinyLFU container (C54).
-/
namespace Verif.MMLfu.Tiny
open Verif MultiDList

/-- Hashes of the examples, and the number of counters for a window: e / 5 of it, with e rounded down (MMTinyLFU.h:728-729, 648). -/
def env1 : Env := ⟨fun r k => r + k, fun w => w * 2718 / 5000⟩

/-- "The counters fit": when a container with the default configuration grows to 52,428,800 items, it makes a table of four rows of
2^30 counters, whose size is 0 in 32 bits: every use from then on is counted outside the table.  (The hypothesis `Fits` of the
theorems excludes this.) -/
theorem violated_counters_fit :
    ∃ f0 f : Freq, (⟨60, 60, id, false, true, false, 32, 1, 0, false⟩ : Config).check = true ∧
      Freq.zero.grow env1 26214400 32 = some f0 ∧ Sketch.Cfg.tableSize f0.skc = 2 ^ 31 ∧
      f0.grow env1 52428800 32 = some f ∧ f.skc.width = 2 ^ 30 ∧ Sketch.Cfg.tableSize f.skc = 0 ∧
      ∀ row key, ¬ f.skc.getIndex row key < Sketch.Cfg.tableSize f.skc := by
  refine ⟨_, _, by decide, rfl, by decide +kernel, rfl, by decide +kernel, by decide +kernel, ?_⟩
  intro row key h
  rw [show Sketch.Cfg.tableSize (env1.sketch (max 52428800 100 * 32)) = 0 by decide +kernel] at h
  omega

/-- "Frequencies survive growth": an item used three times counts for nothing after the container has grown. -/
theorem violated_growth_keeps_counts :
    ∃ f0 f : Freq, Freq.zero.grow env1 0 32 = some f0 ∧ (((f0.count 7).count 7).count 7).get 7 = 3 ∧
      (((f0.count 7).count 7).count 7).grow env1 200 32 = some f ∧ f.get 7 = 0 :=
  ⟨_, _, rfl, by decide +kernel, rfl, by decide +kernel⟩

/-- a new container with this configuration. -/
def fresh (c : Config) : State Nat :=
  ⟨MultiDList.new 2 ⟨fun _ => none, fun _ => none⟩, Freq.zero, nextTime c 0, c.refresh, c, fun _ => false, fun _ => false,
    fun _ => false, fun _ => 0, id⟩

/-- "Saving keeps the configuration": a container that uses try-locks waits for them after a restart, and a refresh time of 900
seconds computed from the ages has become the configured minimum. -/
theorem violated_save_keeps_config :
    let c : Config := ⟨60, 60, fun _ => 5000, false, true, true, 32, 1, 10, false⟩
    let s := reconfigure (fresh c) 100
    c.check = true ∧ s.config.defaultRefresh = 60 ∧ s.config.tryLock = true ∧
    (saveState s).config.map (·.defaultRefresh) = some 900 ∧ (saveState s).config.map (·.tryLock) = some false := by
  decide

/-- "The configured refresh time is a minimum": with a default of an hour, the first reconfiguration sets 900 seconds. -/
theorem violated_refresh_minimum :
    let c : Config := ⟨3600, 3600, fun _ => 0, false, true, false, 32, 1, 10, false⟩
    c.check = true ∧ (fresh c).refreshTime = 3600 ∧ (reconfigure (fresh c) 100).refreshTime = 900 := by
  decide

/-- "Newcomers have at most their share": after removals two of three items are newcomers although half of them, at most, may be. -/
theorem violated_tiny_share :
    let u := ((U.new cfg0 0 id : U Nat).run env0 ops0).1
    u.tiny.length = 2 ∧ u.cfg.tinyPct * u.items.length / 100 = 1 := by
  decide +kernel

end Verif.MMLfu.Tiny
