/-
C50: histories that show that the claims are not about nothing, and what the code does outside of them.
-/
import Verif.WarmRestart.Props

namespace Verif.WarmRestart

/-- No process runs. -/
def World.idle (w : World) : Bool := (List.range w.next).all fun q => (w.proc q).isNone

/-- A run in which a process starts only when the others are over. -/
def World.serialRuns (w : World) : List Act → Option World
  | [] => some w
  | a :: as =>
    match a, w.idle with
    | .start _, false => none
    | _, _ => match w.exec a with | some w' => w'.serialRuns as | none => none

theorem serialRuns_serial {as : List Act} : ∀ {w w' : World}, Serial w → w.serialRuns as = some w' → Serial w' := by
  induction as with
  | nil => intro w w' h he; cases he; exact h
  | cons a as ih =>
    intro w w' h he
    unfold World.serialRuns at he
    have key : ∀ w1, w.exec a = some w1 → (∀ c, a = .start c → w.idle = true) → Serial w1 := by
      intro w1 h1 h2
      refine .step a h ?_ h1
      intro c hc q
      have hid := h2 c hc
      cases hq : w.proc q with
      | none => rfl
      | some x =>
        have := (serial_inv h).lt q (by simp [hq])
        simp only [World.idle, List.all_eq_true, List.mem_range] at hid
        have := hid q this
        simp [hq] at this
    split at he
    · cases he
    · rename_i hne
      split at he
      · rename_i w1 hx
        refine ih (key w1 hx ?_) he
        intro c hc
        cases hid : w.idle
        · exact absurd hid (hne c hc)
        · rfl
      · cases he

theorem runs_reach {as : List Act} (ha : ∀ a ∈ as, a ≠ .delMeta) : ∀ {w w' : World}, Reach w → w.runs as = some w' → Reach w' := by
  induction as with
  | nil => intro w w' h he; cases he; exact h
  | cons a as ih =>
    intro w w' h he
    unfold World.runs at he
    cases hx : w.exec a with
    | none => simp [hx] at he
    | some w1 =>
      simp only [hx] at he
      exact ih (fun b hb => ha b (List.mem_cons_of_mem _ hb)) (.step a h (ha a (by simp)) hx) he

def go1 (p v : Nat) : List Act := [.go p true v]
def goN (p n : Nat) : List Act := List.replicate n (.go p true 0)

def cNew : Cfg := { attach := false, posix := true, nvm := true, fmt := 7, idx := true, dropOnNew := false }
def cAtt : Cfg := { cNew with attach := true }

/-- A process makes a cache, uses it and shuts down. -/
def life (c : Cfg) : List Act :=
  [.start c, .go 0 true 0, .go 0 true 11, .go 0 true 12, .go 0 true 13, .go 0 true 0, .go 0 true 0, .go 0 true 14, .go 0 true 0,
   .go 0 true 0, .go 0 true 0, .touch 0 .cache 21, .touch 0 .ht 22, .touchNvm 0 24 25]
def life0 : List Act := life cNew
/-- Its shutdown: 4 steps to mark the NVM cache, 2 to save the RAM cache, 4 of ShmManager. -/
def down (p : Nat) : List Act := goN p 10

/-- A whole cycle: what is found by the second process, and that a third one, after a crash of the second, finds nothing. -/
theorem cycle : ∃ w, ({} : World).serialRuns (life0 ++ down 0 ++ attachRun 1 cAtt ++ goN 1 3 ++ [.crash 1, .start cAtt] ++ goN 2 4) = some w ∧
    w.log.take 6 = [.over 2, .start 2 cAtt, .over 1, .nvmRecovered 1 (24, some 25) (24, some 25), .attached 1 (21, 22, 13) (21, 22, 13),
      .start 1 cAtt] := by
  refine ⟨_, rfl, ?_⟩
  decide +kernel

/-- The hypotheses of `attach_exact`, `nvm_exact` hold of it. -/
example : ∃ w later earlier, Serial w ∧ w.log = later ++ .attached 1 (21, 22, 13) (21, 22, 13) :: earlier := by
  obtain ⟨w, h, hl⟩ := cycle
  refine ⟨w, w.log.take 4, w.log.drop 5, serialRuns_serial .init h, ?_⟩
  have : w.log = w.log.take 6 ++ w.log.drop 6 := (List.take_append_drop _ _).symm
  rw [hl] at this
  rw [this]; rfl

/-- The hypotheses of `clean_then_recover` hold after the shutdown. -/
theorem left : ∃ w, ({} : World).serialRuns (life0 ++ down 0) = some w ∧ w.drop = false ∧ w.ice = false ∧
    w.log.take 3 = [.over 0, .clean 0 (21, 22, 13), .nvmSafe 0 24 (some 25)] ∧ w.log.getLast? = some (.start 0 cNew) := by
  refine ⟨_, rfl, ?_⟩
  decide +kernel

/-- A metadata file that does not deserialize (ShmManager.cpp:131-136): every start is refused, SharedMemNew too, and the file stays
as it is, unless the ColdRoll file is there. -/
theorem torn_refuses_all (w : World) (hm : w.md = .torn) (hd : w.drop = false) (c : Cfg) (ok : Bool) (v : Nat) :
    ∃ w', w.runs [.start c, .go w.next ok v] = some w' ∧ w'.log = .over w.next :: .start w.next c :: w.log ∧ w'.md = .torn ∧ w'.drop = false := by
  simp [World.runs, World.exec, World.say, World.put, World.setProc, World.go, hm, hd, World.refused, World.gone]

/-- The same for metadata written with the other kind of shared memory (ShmManager.cpp:138-142). -/
theorem posix_refuses_all (w : World) (b : Bool) (l : List Name) (hm : w.md = .names b l) (hd : w.drop = false) (c : Cfg) (hc : c.posix ≠ b)
    (ok : Bool) (v : Nat) :
    ∃ w', w.runs [.start c, .go w.next ok v] = some w' ∧ w'.log = .over w.next :: .start w.next c :: w.log ∧ w'.md = .names b l ∧ w'.drop = false := by
  have hc' : b ≠ c.posix := fun h => hc h.symm
  simp [World.runs, World.exec, World.say, World.put, World.setProc, World.go, hm, hd, World.refused, World.gone, hc']

/-- A crash while the metadata file is written leads there. -/
theorem torn_reachable : ∃ w, ({} : World).serialRuns (life0 ++ goN 0 7 ++ [.crash 0]) = some w ∧ w.md = .torn ∧ w.drop = false := by
  refine ⟨_, rfl, ?_⟩
  decide +kernel

/-- ShmManager reads the metadata file (102) before it takes the lock (107).  Process 1 has read the metadata that process 0 left;
process 2 starts, attaches, uses the cache and crashes before it removes the info segment; process 1 goes on and attaches to a cache
that is not the one that was saved. -/
theorem stale_attach : ∃ w, ({} : World).runs (life0 ++ down 0 ++ [.start cAtt, .go 1 true 0] ++ attachRun 2 cAtt ++ goN 2 5 ++
    [.touch 2 .cache 99, .crash 2] ++ goN 1 6) = some w ∧ w.log.head? = some (.attached 1 (21, 22, 13) (99, 22, 13)) := by
  refine ⟨_, rfl, ?_⟩
  decide +kernel

theorem stale_attach_reach : ∃ w p saved found l, Reach w ∧ w.log = .attached p saved found :: l ∧ saved ≠ found := by
  obtain ⟨w, h, hl⟩ := stale_attach
  cases hw : w.log with
  | nil => rw [hw] at hl; cases hl
  | cons e l =>
    rw [hw] at hl; cases hl
    exact ⟨w, _, _, _, l, runs_reach (by intro a ha hd; subst hd; simp [life0, life, down, goN, attachRun] at ha) .init h, hw, by decide⟩

def cNoIdx : Cfg := { cAtt with idx := false }

/-- ShmManager::shutDown releases the lock (197) before it removes the segments that were not attached (201), by name.  Process 1
attaches without the index in shared memory and shuts down; when it has released the lock, process 2 starts with the index in shared
memory; process 1 then removes the segment that process 2 made. -/
theorem removes_anothers_segment : ∃ w w', ({} : World).runs (life0 ++ down 0 ++ [.start cNoIdx] ++ goN 1 13 ++ goN 1 9 ++
    [.start cAtt] ++ goN 2 7 ++ goN 2 3) = some w ∧ w.segs .idx = some (.data 0) ∧ w.log.head? = some (.wrote 2 .idx 0) ∧
    w.exec (.go 1 true 0) = some w' ∧ w'.segs .idx = none := by
  refine ⟨_, _, rfl, ?_, ?_, rfl, ?_⟩ <;> decide +kernel

/-- An exception in saveRamCache (6033), when the NVM cache has been marked safe and is off: the RAM cache goes on being changed,
and the next start has the NVM cache as it was before that. -/
theorem stale_nvm : ∃ w, ({} : World).serialRuns (life { cNew with idx := false } ++ goN 0 4 ++
    [.go 0 false 0, .touch 0 .cache 77, .crash 0, .start { cNew with idx := false }] ++ goN 1 9) = some w ∧
    (w.log.filter fun | .wrote 1 _ _ => false | _ => true).take 6 =
      [.nvmRecovered 1 (24, none) (24, none), .start 1 { cNew with idx := false }, .over 0, .wrote 0 .cache 77, .nvmSafe 0 24 none, .wroteNvm 0 24] := by
  refine ⟨_, rfl, ?_⟩
  decide +kernel

end Verif.WarmRestart
