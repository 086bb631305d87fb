import Verif.BlockCache.Faults
/-
Property C45 for the large-object flash engine: a clean restart changes no lookup.  (That the theorems of `Props.lean` hold over
any number of restarts is by the definition of `Reach`.)
-/
set_option linter.unusedSectionVars false
namespace Verif.BlockCache
open Verif

section
variable {K V H : Type} [DecidableEq K] [DecidableEq V] [DecidableEq H]

/-- The step that a lookup takes next when nothing else runs. -/
def nextAct (x : Rd K V) : Option (Act K V) :=
  match x.pc with
  | .begin => some (.rdSeq x)
  | .seq _ => some (.rdLook x)
  | .found .. => some (.rdOpen x)
  | .opened .. => some (.rdCheck x)
  | .valid .. => some (.rdRead x)
  | .failed .. => some (.rdFail x true)
  | .read .. => some (.rdDrop x)
  | .close .. => some (.rdClose x)
  | .done .. => none

/-- The lookup at the head of the list runs alone to its end. -/
def runAlone (c : Cfg K V H) : Nat → St K V H → Option (Res V)
  | 0, _ => none
  | f + 1, s =>
    match s.rds with
    | [] => none
    | x :: _ =>
      match x.pc with
      | .done _ _ res => some res
      | _ =>
        match nextAct x with
        | none => none
        | some a => (exec c s a).bind (runAlone c f)

/-- The result of a lookup of `k` that begins in `s` and runs alone. -/
def lookupAlone (c : Cfg K V H) (s : St K V H) (k : K) : Option (Res V) :=
  (exec c s (.rdBegin k)).bind (runAlone c 9)

/-- What a lookup that reads the device finds. -/
def onDevice (c : Cfg K V H) (s : St K V H) (k : K) : Res V :=
  match s.index (c.hash k) with
  | none => .notFound
  | some (r, e) =>
    match (s.reg r).dev e with
    | none => .checksum
    | some sl => if sl.key = k then .ok sl.val else .notFound

theorem setRd_self (s : St K V H) (x x' : Rd K V) (l : List (Rd K V)) (h : s.rds = x :: l) : setRd s x x' = { s with rds := x' :: l } := by
  unfold setRd
  rw [h, List.erase_cons_head]

theorem run_step (c : Cfg K V H) (f : Nat) (s s1 : St K V H) (x : Rd K V) (l : List (Rd K V)) (a : Act K V) (hr : s.rds = x :: l)
    (hd : ∀ t1 t2 res, x.pc ≠ .done t1 t2 res) (ha : nextAct x = some a) (he : exec c s a = some s1) :
    runAlone c (f + 1) s = runAlone c f s1 := by
  rw [runAlone, hr]
  simp only [ha, he, Option.bind_some]

theorem lookupAlone_eq (c : Cfg K V H) (s : St K V H) (k : K)
    (h : ∀ r e, s.index (c.hash k) = some (r, e) → (s.reg r).block = false ∧ (s.reg r).buf = none) :
    lookupAlone c s k = some (onDevice c s k) := by
  unfold lookupAlone
  simp only [exec, Option.bind_some]
  rw [run_step c 8 _ { s with rds := ⟨k, s.log.length, .seq s.seq⟩ :: s.rds } ⟨k, s.log.length, .begin⟩ s.rds _ rfl (by nofun) rfl
    (by simp [exec, setRd])]
  unfold onDevice
  cases hi : s.index (c.hash k) with
  | none =>
    rw [run_step c 7 _ { s with rds := ⟨k, s.log.length, .done s.log.length s.log.length .notFound⟩ :: s.rds }
      ⟨k, s.log.length, .seq s.seq⟩ s.rds _ rfl (by nofun) rfl (by simp [exec, setRd, hi])]
    rfl
  | some a =>
    obtain ⟨r, e⟩ := a
    obtain ⟨hb, hn⟩ := h r e hi
    rw [run_step c 7 _ { s with rds := ⟨k, s.log.length, .found s.seq r e s.log.length⟩ :: s.rds }
      ⟨k, s.log.length, .seq s.seq⟩ s.rds _ rfl (by nofun) rfl (by simp [exec, setRd, hi])]
    rw [run_step c 6 _ { s with reg := upd s.reg r { s.reg r with phys := (s.reg r).phys + 1 },
                                 rds := ⟨k, s.log.length, .opened s.seq r e true s.log.length⟩ :: s.rds }
      ⟨k, s.log.length, .found s.seq r e s.log.length⟩ s.rds _ rfl (by nofun) rfl
      (by simp [exec, setRd, setReg, Reg.openForRead, hb, hn])]
    rw [run_step c 5 _ { s with reg := upd s.reg r { s.reg r with phys := (s.reg r).phys + 1 },
                                 rds := ⟨k, s.log.length, .valid r e true s.log.length⟩ :: s.rds }
      ⟨k, s.log.length, .opened s.seq r e true s.log.length⟩ s.rds _ rfl (by nofun) rfl (by simp [exec, setRd])]
    dsimp only
    have key : ∀ res, readEntry { s.reg r with phys := (s.reg r).phys + 1 } true e k = some res →
        runAlone c 5 { s with reg := upd s.reg r { s.reg r with phys := (s.reg r).phys + 1 },
                              rds := ⟨k, s.log.length, .valid r e true s.log.length⟩ :: s.rds } = some res := by
      intro res hres
      rw [run_step c 4 _ { s with reg := upd s.reg r { s.reg r with phys := (s.reg r).phys + 1 },
                                   rds := ⟨k, s.log.length, .read r e true s.log.length res⟩ :: s.rds }
        ⟨k, s.log.length, .valid r e true s.log.length⟩ s.rds _ rfl (by nofun) rfl
        (by simp [exec, setRd, upd_same, hres])]
      have : ∃ ix : H → Option Addr, exec c ⟨s.index, s.seq, upd s.reg r { s.reg r with phys := (s.reg r).phys + 1 }, s.place, s.ws,
            ⟨k, s.log.length, .read r e true s.log.length res⟩ :: s.rds, s.log, s.fault⟩
          (.rdDrop ⟨k, s.log.length, .read r e true s.log.length res⟩) =
          some ⟨ix, s.seq, upd s.reg r { s.reg r with phys := (s.reg r).phys + 1 }, s.place, s.ws,
            ⟨k, s.log.length, .close r true s.log.length res⟩ :: s.rds, s.log, s.fault⟩ := by
        simp only [exec, List.mem_cons, true_or, if_true, setRd, List.erase_cons_head]
        split
        · exact ⟨_, rfl⟩
        · exact ⟨s.index, rfl⟩
      obtain ⟨ix, hix⟩ := this
      rw [run_step c 3 _ _ ⟨k, s.log.length, .read r e true s.log.length res⟩ s.rds _ rfl (by nofun) rfl hix]
      rw [run_step c 2 _ { s with index := ix,
                                   reg := upd (upd s.reg r { s.reg r with phys := (s.reg r).phys + 1 }) r
                                     (Reg.closeRead { s.reg r with phys := (s.reg r).phys + 1 } true),
                                   rds := ⟨k, s.log.length, .done s.log.length s.log.length res⟩ :: s.rds }
        ⟨k, s.log.length, .close r true s.log.length res⟩ s.rds _ rfl (by nofun) rfl
        (by simp [exec, setRd, setReg, upd_same])]
      rfl
    refine key _ ?_
    unfold readEntry
    simp only [if_true]
    cases (s.reg r).dev e with
    | none => rfl
    | some sl => simp only; split <;> rfl

theorem quiet_lookup {c : Cfg K V H} {s : St K V H} (hRS : c.RS ≤ 2 ^ 30) (h : Reach c s) (hf : s.fault = false) (hq : Quiet s) (k : K) :
    lookupAlone c s k = some (onDevice c s k) := by
  have ⟨_, i⟩ := inv_reach hRS h
  have ⟨i1, i2⟩ := i hf
  refine lookupAlone_eq c s k fun r e hi => ?_
  have hl := (i2.ix _ r e hi).1
  have ht : s.place r = .tracked := by
    rcases hq.place r with hc | ht
    · rw [hc] at hl; simp [Place.live] at hl
    · exact ht
  constructor
  · cases hb : (s.reg r).block with
    | false => rfl
    | true => rcases (i1.blk r).1 hb with h | h <;> rw [ht] at h <;> simp at h
  · have := i1.bufP r
    rw [ht] at this
    simpa [Place.hasBuf] using this

/-- C45: a lookup of any key has the same result before a clean shutdown and after the recovery. -/
theorem restart_same_lookups {c : Cfg K V H} {s s' : St K V H} (hRS : c.RS ≤ 2 ^ 30) (h : Reach c s) (hf : s.fault = false)
    (hq : Quiet s) (hr : Restart s s') (k : K) : lookupAlone c s' k = lookupAlone c s k ∧ lookupAlone c s k ≠ none := by
  have e1 := quiet_lookup hRS h hf hq k
  have hq' : Quiet s' := by
    refine ⟨by rw [hr.ws, hq.ws], by rw [hr.rds]; exact hq.rds, fun r => ?_⟩
    rcases hr.place r with h | h
    · exact .inr h
    · exact .inl h.1
  have e2 := quiet_lookup hRS (.restart h hq hr) (by rw [hr.fault]; exact hf) hq' k
  have e3 : onDevice c s' k = onDevice c s k := by
    unfold onDevice
    rw [hr.index]
    cases s.index (c.hash k) with
    | none => rfl
    | some a => obtain ⟨r, e⟩ := a; simp only [hr.reg r, Reg.restored]
  rw [e1, e2, e3]
  simp

/-- C45: after a restart, as before, a lookup returns the last value inserted for its key or nothing. -/
theorem restart_value {c : Cfg K V H} {s s' : St K V H} (hRS : c.RS ≤ 2 ^ 30) (h : Reach c s) (hf : s.fault = false)
    (hq : Quiet s) (hr : Restart s s') (k : K) (v : V) (hl : lookupAlone c s' k = some (.ok v)) : Value s.log k (some v) := by
  have ⟨_, i⟩ := inv_reach hRS h
  have ⟨i1, i2⟩ := i hf
  rw [(restart_same_lookups hRS h hf hq hr k).1, quiet_lookup hRS h hf hq k] at hl
  simp only [Option.some.injEq] at hl
  unfold onDevice at hl
  cases hi : s.index (c.hash k) with
  | none => rw [hi] at hl; simp at hl
  | some a =>
    obtain ⟨r, e⟩ := a
    rw [hi] at hl
    obtain ⟨hlv, x, hx, e1, e2, e3, e4⟩ := i2.ix _ r e hi
    have ht : s.place r = .tracked := by
      rcases hq.place r with hc | ht
      · rw [hc] at hlv; simp [Place.live] at hlv
      · exact ht
    have hd := e3.2 (by rw [ht]; rfl)
    rw [e1] at hd
    simp only [hd] at hl
    split at hl
    · rename_i hk
      simp only [Res.ok.injEq] at hl
      have := value_valAt s.log x.slot.key
      rw [e4, hk, hl] at this
      exact this
    · simp at hl

/-- C45: a recovery that fails leaves an empty engine: no key is found. -/
theorem wipe_empty {c : Cfg K V H} {s s' : St K V H} (hr : Wipe s s') (k : K) : lookupAlone c s' k = some .notFound := by
  rw [lookupAlone_eq c s' k (by intro r e h; rw [hr.index] at h; simp at h), onDevice, hr.index]

end

namespace Faults

/-- 7 ↦ 1 is inserted and flushed to region 0; all regions but 0 and 1 are only in the policy, region 1 is clean. -/
def quietRun : List A := freeUp 0 ++ freeUp 1 ++ ins 7 1 0 blank ++ flush 0

theorem quietRun_place : ∀ r, (runs cfg s0 quietRun).map (fun s => decide (s.place r = .clean ∨ s.place r = .tracked)) = some true := by
  intro r
  match r with
  | 0 => decide +kernel
  | 1 => decide +kernel
  | r + 2 =>
    simp [quietRun, freeUp, ins, flush, runs, exec, s0, init, upd, setPlace, setReg, setW, startW, writeW, afterClose, allocate,
      Reg.openAndAllocate, cfg, Reg.closeWrite, dec32, Reg.reset]

/-- The hypotheses of the theorems above are met: a quiet state with an entry, and a restart of it after which region 1 is clean
and the lookup finds the entry. -/
example : ∃ s s' : S, Reach cfg s ∧ s.fault = false ∧ Quiet s ∧ Restart s s' ∧ lookupAlone cfg s' 7 = some (.ok 1) := by
  have h1 : (runs cfg s0 quietRun).map (fun s => (s.fault, s.ws, s.rds, (s.reg 1).num)) = some (false, [], [], 0) := by
    decide +kernel
  have h3 : (runs cfg s0 quietRun).map (fun s => lookupAlone cfg s 7) = some (some (.ok 1)) := by decide +kernel
  have h2 := quietRun_place
  cases hr : runs cfg s0 quietRun with
  | none => rw [hr] at h1; simp at h1
  | some s =>
    simp only [hr, Option.map_some, Option.some.injEq, decide_eq_true_eq, Prod.mk.injEq] at h1 h2 h3
    obtain ⟨a1, a2, a3, a4⟩ := h1
    have hq : Quiet s := ⟨a2, by rw [a3]; simp, h2⟩
    let s' : S := ⟨s.index, 0, fun r => (s.reg r).restored, fun r => if r = 1 then .clean else .tracked, s.ws, s.rds, s.log, s.fault⟩
    have hre : Restart s s' := by
      refine ⟨rfl, rfl, fun _ => rfl, fun r => ?_, rfl, rfl, rfl, rfl⟩
      by_cases h : r = 1
      · subst h; exact .inr ⟨rfl, a4⟩
      · exact .inl (if_neg h)
    have hR := reach_runs (.init _) hr
    exact ⟨s, s', hR, a1, hq, hre, by rw [(restart_same_lookups (by decide) hR a1 hq hre 7).1]; exact h3⟩

end Faults
end Verif.BlockCache
