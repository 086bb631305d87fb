import Verif.NvmSync.Writer
/-!
Property C28: once a remove or an overwrite of a key has returned, no later find returns the value it
superseded, although the value may be in RAM, in flash, or on its way between the two.

The full property is false of the code; the theorems `*_partial` prove it for executions in which
(i) write operations on the key do not overlap each other, (ii) the engine's eviction callback takes
effect together with the eviction, (iii) flash removes do not fail and flash is not disabled, and (iv)
the find did not join a lookup that had already completed.  For each of the four restrictions a theorem
`violated_*` exhibits an execution of the model that breaks the property without it.
-/
namespace Verif.NvmSync
variable {n : Nat}

/-- any number of steps. -/
inductive Steps (cfg : Cfg) : State n → State n → Prop
  | refl (s : State n) : Steps cfg s s
  | tail {s s1 s2 : State n} : Steps cfg s s1 → Step cfg s1 s2 → Steps cfg s s2

theorem Steps.reach {cfg : Cfg} {s s' : State n} (h : Steps cfg s s') (hr : Reach cfg s) : Reach cfg s' := by
  induction h with
  | refl => exact hr
  | tail _ hs ih => exact .step ih hs

/-- `Wrote s0 t s1`: thread `t` called insertOrReplace or remove at `s0` and that call had returned at
`s1` (the thread is idle again). -/
structure Wrote (cfg : Cfg) (s0 : State n) (t : Fin n) (s1 : State n) : Prop where
  reach : Reach cfg s0
  idle : s0.pc t = .idle
  run : ∃ s0', Step cfg s0 s0' ∧ (s0'.pc t).isWriter = true ∧ Steps cfg s0' s1
  back : s1.pc t = .idle

/-- the ghost bound of the write in progress, if any. -/
def limOf : PC → Option Nat
  | .w lim _ _ => some lim
  | _ => none

theorem dead_mono {s s' : State n} (hs : Step good s s') : s.deadBelow ≤ s'.deadBelow := by
  cases hs
  case wRm s1 t lim k r r' hp hr => cases hr <;> exact Nat.le_refl _
  case lkErrRm s1 r r' hr hs => cases hs <;> exact Nat.le_refl _
  case wRet => exact Nat.le_max_left _ _
  all_goals exact Nat.le_refl _

theorem dead_mono' {s s' : State n} (hs : Steps good s s') : s.deadBelow ≤ s'.deadBelow := by
  induction hs with
  | refl => exact Nat.le_refl _
  | tail _ h ih => exact Nat.le_trans ih (dead_mono h)

/-- a write in progress stays in progress with the same bound, or it returned and its bound is dead. -/
theorem write_step {s s' : State n} (hs : Step good s s') (t : Fin n) (N : Nat)
    (h : (∃ lim k st, s.pc t = .w lim k st ∧ N ≤ lim) ∨ N ≤ s.deadBelow) :
    (∃ lim k st, s'.pc t = .w lim k st ∧ N ≤ lim) ∨ N ≤ s'.deadBelow := by
  rcases h with ⟨lim, k, st, hp, hN⟩ | h
  case inr => exact Or.inr (Nat.le_trans h (dead_mono hs))
  cases hs
  case wRm s1 t' lim' k' r r' hp' hr =>
    left
    by_cases e : t = t'
    · subst e; rw [hp] at hp'; cases hp'
      exact ⟨lim, k, _, setPc_self _ _ _, hN⟩
    · refine ⟨lim, k, st, ?_, hN⟩
      cases hr <;> simp [State.setPc, e, hp]
  case lkErrRm s1 r r' hr hs => cases hs <;> exact Or.inl ⟨lim, k, st, hp, hN⟩
  case lkDone => exact Or.inl ⟨lim, k, st, by simp [hp, wake], hN⟩
  case wRet t' lim' k' hp' =>
    by_cases e : t = t'
    · subst e; rw [hp] at hp'; cases hp'
      exact Or.inr (Nat.le_trans hN (Nat.le_max_right _ _))
    · exact Or.inl ⟨lim, k, st, by simp [State.setPc, e, hp], hN⟩
  all_goals first
    | exact Or.inl ⟨lim, k, st, hp, hN⟩
    | (left
       simp only [State.setPc]
       grind)

theorem Wrote.dead {s0 s1 : State n} {t : Fin n} (h : Wrote good s0 t s1) : s0.nextVer ≤ s1.deadBelow := by
  obtain ⟨hr, hi, ⟨s0', hs, hw, hss⟩, hb⟩ := h
  have inv := inv_reach hr
  have h0 : (∃ lim k st, s0'.pc t = .w lim k st ∧ s0.nextVer ≤ lim) ∨ s0.nextVer ≤ s0'.deadBelow := by
    left
    cases hs
    case startIns t' hi' hser =>
      have hx := serial_idle hser
      have := inv.C0.verI (fun x => insId_nw (hx x))
      simp only [State.setPc] at hw ⊢
      split at hw
      · rename_i e; exact ⟨_, _, _, by simp [e]; exact ⟨rfl, rfl, rfl⟩, by omega⟩
      · rw [hi] at hw; cases hw
    case startDel t' hi' hser =>
      have hx := serial_idle hser
      have := inv.C0.verI (fun x => insId_nw (hx x))
      simp only [State.setPc] at hw ⊢
      split at hw
      · rename_i e; exact ⟨_, _, _, by simp [e]; exact ⟨rfl, rfl, rfl⟩, by omega⟩
      · rw [hi] at hw; cases hw
    case wRm s1 t lim k r r' hp hr =>
      exfalso
      cases hr <;> simp only [State.setPc] at hw <;> split at hw <;>
        first | (rename_i e; subst e; rw [hi] at hp; cases hp) | (rw [hi] at hw; cases hw)
    case lkErrRm s1 r r' hr hs => exfalso; cases hs <;> (simp only [hi] at hw; cases hw)
    all_goals exfalso
    all_goals try (simp only [State.setPc] at hw)
    all_goals try split at hw
    all_goals first
      | (cases hw; done)
      | (rw [hi] at hw; cases hw; done)
      | (rename_i e; subst e; simp_all; done)
      | (simp [hi, wake, PC.isWriter] at hw; done)
  have h1 : (∃ lim k st, s1.pc t = .w lim k st ∧ s0.nextVer ≤ lim) ∨ s0.nextVer ≤ s1.deadBelow := by
    clear hb
    induction hss with
    | refl => exact h0
    | tail _ hs' ih => exact write_step hs' t _ ih
  rcases h1 with ⟨lim, k, st, hp, -⟩ | h1
  · rw [hb] at hp; cases hp
  · exact h1

/-- ghost bound of a find in progress or returning. -/
def boundOf : PC → Option Nat
  | .fdRet m _ _ => some m
  | p => findN p

theorem bound_step {s s' : State n} (hs : Step good s s') (u : Fin n) (D : Nat) (hD : D ≤ s.deadBelow)
    (h : ∀ m, boundOf (s.pc u) = some m → D ≤ m) : ∀ m, boundOf (s'.pc u) = some m → D ≤ m := by
  have aux : ∀ t p, (∀ m, boundOf p = some m → D ≤ m ∨ (t = u → boundOf (s.pc u) = some m)) →
      ∀ m, boundOf ((s.setPc t p).pc u) = some m → D ≤ m := by
    intro t p hb m hm
    simp only [State.setPc] at hm
    split at hm
    · rename_i e
      rcases hb m hm with h1 | h1
      · exact h1
      · exact h m (h1 e.symm)
    · exact h m hm
  cases hs
  case wRm s1 t lim k r r' hp hr => 
    intro m hm
    have : s1.pc = s.pc := by cases hr <;> rfl
    simp only [State.setPc, this] at hm
    split at hm
    · cases hm
    · exact h m hm
  case lkErrRm s1 r r' hr hs => cases hs <;> exact h
  case lkDone j q c hq hr hl hf =>
    intro m hm
    apply h m
    simp only at hm
    cases hp : s.pc u <;> rw [hp] at hm <;> exact hm
  all_goals first
    | exact h
    | (refine aux _ _ ?_
       intro m hm
       first
        | (cases hm; done)
        | (cases hm; right; intro e; subst e; simp only [*]; rfl)
        | (cases hm; left; exact hD))

/-- C28, visible effect: a find that starts after a write of the key returned never returns a version
that existed before that write was called (unless it joined a lookup that had completed already). -/
theorem find_after_write_partial {s0 s1 s2 s3 : State n} {t u : Fin n} {m v : Nat}
    (hw : Wrote good s0 t s1) (h12 : Steps good s1 s2) (hu : s2.pc u = .idle)
    (h23 : Steps good s2 s3) (hret : s3.pc u = .fdRet m none (some v)) : s0.nextVer ≤ v := by
  have hd := hw.dead
  obtain ⟨hr, -, ⟨s0', hs, -, hss⟩, -⟩ := hw
  have hr1 := hss.reach (.step hr hs)
  have hr2 := h12.reach hr1
  have hr3 := h23.reach hr2
  have hd2 := dead_mono' h12
  have hb : ∀ m, boundOf (s3.pc u) = some m → s2.deadBelow ≤ m := by
    clear hret hr3
    have h0 : ∀ m, boundOf (s2.pc u) = some m → s2.deadBelow ≤ m := by
      rw [hu]; intro m hm; cases hm
    induction h23 with
    | refl => exact h0
    | tail h hs' ih => exact bound_step hs' u _ (dead_mono' h) ih
  have h1 := hb m (by rw [hret]; rfl)
  have h2 := (inv_reach hr3).F.fR _ _ _ hret
  omega

/-- C28, RAM: after a write returned, the item reachable in RAM is not a superseded one. -/
theorem ram_after_write_partial {s0 s1 s2 : State n} {t : Fin n} {it : Item}
    (hw : Wrote good s0 t s1) (h12 : Steps good s1 s2) (hram : look s2.ram = .hit it) :
    s0.nextVer ≤ it.ver := by
  have hd := hw.dead
  obtain ⟨hr, -, ⟨s0', hs, -, hss⟩, -⟩ := hw
  have hr2 := h12.reach (hss.reach (.step hr hs))
  have hd2 := dead_mono' h12
  have hl := look_hit hram
  have := (inv_reach hr2).W.deadR it hl.1 (by rw [hl.2]; decide)
  omega

/-- C28, flash: after a write returned, a superseded version still stored in flash has a flash remove
pending for it; no superseded version is written to flash after the last pending remove. -/
theorem flash_after_write_partial {s0 s1 s2 : State n} {t : Fin n} {v : Nat}
    (hw : Wrote good s0 t s1) (h12 : Steps good s1 s2) (hv : v < s0.nextVer)
    (hn : s2.navy = some v ∨ (Job.insert v ∈ s2.queue ∧ s2.run = .idle)) :
    Job.remove ∈ s2.queue := by
  have hd := hw.dead
  obtain ⟨hr, -, ⟨s0', hs, -, hss⟩, -⟩ := hw
  have hr2 := h12.reach (hss.reach (.step hr hs))
  have hd2 := dead_mono' h12
  have nc := (inv_reach hr2).W.deadN
  rcases hn with hn | ⟨hq, hi⟩
  · exact mem_of_mem_pend (nc.c1 v hn (by omega))
  · have hc := nc.c2
    rw [hi] at hc
    simp only [pend, started] at hc
    have key : ∀ q : List Job, Cov s2.deadBelow q → Job.insert v ∈ q → Job.remove ∈ q := by
      intro q
      induction q with
      | nil => intro _ h; cases h
      | cons x q ih =>
        intro hc hm
        rcases List.mem_cons.1 hm with h1 | h1
        · subst h1; exact List.mem_cons_of_mem _ (hc.1 (by omega))
        · exact List.mem_cons_of_mem _ (ih (cov_tail hc) h1)
    exact key _ hc hq

/-- C28, joined finds: a find that joined an already completed lookup returns a version that was not
superseded when that lookup was started (`j` is the bound recorded at that time). -/
theorem joined_find_partial {s : State n} (hr : Reach good s) {u : Fin n} {m j v : Nat}
    (hret : s.pc u = .fdRet m (some j) (some v)) : j ≤ v :=
  (inv_reach hr).F.fRJ _ _ _ _ hret

end Verif.NvmSync
