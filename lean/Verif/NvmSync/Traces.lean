import Verif.NvmSync.Props
/-! Concrete executions: the hypotheses of the C28 theorems are met, and each restriction is needed. -/
namespace Verif.NvmSync

/-- thread states of the two threads. -/
def two (p q : PC) : Fin 2 → PC := fun x => if x = 0 then p else q

/-- a state given by its parts. -/
def mk (ram : Option Item) (fill : Option Ctx) (queue : List Job) (run : Run) (navy : Option Nat)
    (enabled : Bool) (nextVer nextId retBelow deadBelow : Nat) (p q : PC) : State 2 :=
  ⟨ram, none, fill, none, queue, run, navy, enabled, nextVer, nextId, retBelow, deadBelow, two p q⟩

theorem noTomb {s : State 2} (h0 : (s.pc 0).holdsTomb = false) (h1 : (s.pc 1).holdsTomb = false)
    (h2 : s.run.holdsTomb = false) (h3 : Job.remove ∉ s.queue) : ¬ HasTomb s := by
  rintro (⟨t, ht⟩ | h | h)
  · match t with
    | 0 => rw [h0] at ht; cases ht
    | 1 => rw [h1] at ht; cases ht
  · rw [h2] at h; cases h
  · exact h3 h

/-- `isPut p`: the thread has a put context. -/
def isPut : PC → Bool
  | .evCtx _ => true
  | _ => false

theorem noPutCtx {s : State 2} (h0 : isPut (s.pc 0) = false) (h1 : isPut (s.pc 1) = false)
    (h2 : s.queue = [] ∨ s.queue = [.lookup]) : ¬ HasPutCtx s := by
  rintro (⟨t, it, ht⟩ | ⟨v, h⟩)
  · match t with
    | 0 => rw [ht] at h0; cases h0
    | 1 => rw [ht] at h1; cases h1
  · rcases h2 with h2 | h2 <;> rw [h2] at h <;> simp at h

theorem noHeld {s : State 2} {i : Nat} (h0 : (s.pc 0).holds i = false) (h1 : (s.pc 1).holds i = false) :
    ¬ Held s i := by
  rintro ⟨t, ht⟩
  match t with
  | 0 => rw [h0] at ht; cases ht
  | 1 => rw [h1] at ht; cases ht

theorem allIdle {s : State 2} (h0 : (s.pc 0).isWriter = false) (h1 : (s.pc 1).isWriter = false) :
    ∀ x, (s.pc x).isWriter = false := by
  intro x
  match x with
  | 0 => exact h0
  | 1 => exact h1

/-- cast a reached state to an equal one written by its parts. -/
theorem cast {cfg : Cfg} {s s' : State 2} (h : Reach cfg s) (e : s = s') : Reach cfg s' := e ▸ h

/-- version 0 was inserted, evicted from RAM and written to flash. -/
def flash0 : State 2 := mk none none [] .idle (some 0) true 1 1 1 0 .idle .idle

/-- equality of states with two threads. -/
theorem ext2 {s s' : State 2} (h1 : s.ram = s'.ram) (h2 : s.token = s'.token) (h3 : s.fill = s'.fill)
    (h4 : s.lock = s'.lock) (h5 : s.queue = s'.queue) (h6 : s.run = s'.run) (h7 : s.navy = s'.navy)
    (h8 : s.enabled = s'.enabled) (h9 : s.nextVer = s'.nextVer) (h10 : s.nextId = s'.nextId)
    (h11 : s.retBelow = s'.retBelow) (h12 : s.deadBelow = s'.deadBelow)
    (h13 : s.pc 0 = s'.pc 0) (h14 : s.pc 1 = s'.pc 1) : s = s' := by
  cases s; cases s'
  simp only [State.mk.injEq] at *
  refine ⟨h1, h2, h3, h4, h5, h6, h7, h8, h9, h10, h11, h12, ?_⟩
  funext x
  match x with
  | 0 => exact h13
  | 1 => exact h14

theorem reach_flash0 (cfg : Cfg) : Reach cfg flash0 := by
  have r := Reach.init (cfg := cfg) (n := 2)
  have r := r.step (.startIns _ 0 rfl (fun _ => allIdle rfl rfl))
  have r := r.step (.insNone _ 0 _ _ _ rfl rfl)
  have r := r.step (.wTomb _ 0 _ _ rfl)
  have r := r.step (.wSync _ 0 _ _ rfl rfl)
  have r := r.step (.wRm _ _ 0 _ _ _ _ rfl (.on _ rfl))
  have r := r.step (.wRm _ _ 0 _ _ _ _ rfl (.inval _))
  have r := r.step (.wRm _ _ 0 _ _ _ _ rfl (.noCtx _ (noPutCtx rfl rfl (Or.inl rfl))))
  have r := r.step (.wRm _ _ 0 _ _ _ _ rfl (.skip _ rfl))
  have r := r.step (.wRet _ 0 _ _ rfl)
  have r := r.step (.evMarkTok _ 0 _ rfl rfl rfl (noHeld rfl rfl) rfl)
  have r := r.step (.evUnlinkPut _ 0 _ rfl)
  have r := r.step (.putCtx _ 0 _ rfl (by decide) rfl (noTomb rfl rfl rfl (by decide)))
  have r := r.step (.putEnq _ 0 _ _ rfl rfl)
  have r := r.step (.jInsert _ 0 [] (some 0) rfl rfl (Or.inl rfl))
  have r := r.step (.jInsertCb _ _ _ rfl rfl)
  exact cast r (ext2 rfl rfl rfl rfl rfl rfl rfl rfl rfl rfl rfl rfl rfl rfl)

/-- thread 0 is waiting for its flash lookup, which has read version 0. -/
def lookup0 (e : Bool) (navy : Option Nat) : State 2 :=
  mk none (some ⟨true, none, 0⟩) [.lookup] (.lkOpen 0) navy e 1 1 1 0 (.fdWait 0 none) .idle

theorem reach_lookup0 (cfg : Cfg) : Reach cfg (lookup0 true (some 0)) := by
  have r := reach_flash0 cfg
  have r := r.step (.fStart _ 0 rfl)
  have r := r.step (.fMiss _ 0 _ rfl (by decide))
  have r := r.step (.fOn _ 0 _ rfl rfl)
  have r := r.step (.fInval _ 0 _ rfl)
  have r := r.step (.fSharedGo _ 0 _ rfl rfl)
  have r := r.step (.fLock _ 0 _ rfl rfl)
  have r := r.step (.fRam2Go _ 0 _ rfl rfl)
  have r := r.step (.fCreate _ 0 _ rfl rfl)
  have r := r.step (.fEnq _ 0 _ rfl)
  have r := r.step (.jLookup _ [] (.hit 0) rfl rfl (Or.inr (Or.inr ⟨0, rfl, rfl⟩)))
  have r := r.step (.lkOpen _ 0 rfl rfl)
  exact cast r (ext2 rfl rfl rfl rfl rfl rfl rfl rfl rfl rfl rfl rfl rfl rfl)

/-- The property is violated when the engine drops a key before its eviction callback has run: a
remove returns without touching flash, and the lookup in flight then brings the removed value back into
RAM. -/
theorem violated_evict_window : ∃ s : State 2, Reach ⟨true, false, false⟩ s ∧ s.pc 1 = .idle ∧
    ∃ it, look s.ram = .hit it ∧ it.ver < s.deadBelow := by
  have r := reach_lookup0 ⟨true, false, false⟩
  have r := r.step (.navyDrop _ rfl)
  have r := r.step (.startDel _ 1 rfl (fun _ => allIdle rfl rfl))
  have r := r.step (.wTomb _ 1 _ _ rfl)
  have r := r.step (.wSync _ 1 _ _ rfl rfl)
  have r := r.step (.delMiss _ 1 _ _ rfl rfl)
  have r := r.step (.wRm _ _ 1 _ _ _ _ rfl (.on _ rfl))
  have r := r.step (.wRm _ _ 1 _ _ _ _ rfl (.inval _))
  have r := r.step (.wRm _ _ 1 _ _ _ _ rfl (.noCtx _ (noPutCtx rfl rfl (Or.inr rfl))))
  have r := r.step (.wRm _ _ 1 _ _ _ _ rfl (.skip _ rfl))
  have r := r.step (.wRet _ 1 _ _ rfl)
  have r := r.step (.lkLock _ 0 rfl rfl)
  have r := r.step (.lkCheck _ 0 _ rfl (noTomb rfl rfl rfl (by decide)) rfl rfl)
  have r := r.step (.lkInsert _ 0 _ rfl rfl rfl)
  exact ⟨_, r, rfl, ⟨1, 0, true, false, .free⟩, rfl, by decide⟩

/-- The property is violated when flash gets disabled (by a failing request for another key): a remove
returns at once, and the lookup in flight brings the removed value back into RAM. -/
theorem violated_disable : ∃ s : State 2, Reach ⟨true, true, true⟩ s ∧ s.pc 1 = .idle ∧
    ∃ it, look s.ram = .hit it ∧ it.ver < s.deadBelow := by
  have r := reach_lookup0 ⟨true, true, true⟩
  have r := r.step (.disable _ rfl)
  have r := r.step (.startDel _ 1 rfl (fun _ => allIdle rfl rfl))
  have r := r.step (.wTomb _ 1 _ _ rfl)
  have r := r.step (.wSync _ 1 _ _ rfl rfl)
  have r := r.step (.delMiss _ 1 _ _ rfl rfl)
  have r := r.step (.wRm _ _ 1 _ _ _ _ rfl (.off _ rfl))
  have r := r.step (.wRet _ 1 _ _ rfl)
  have r := r.step (.lkLock _ 0 rfl rfl)
  have r := r.step (.lkCheck _ 0 _ rfl (noTomb rfl rfl rfl (by decide)) rfl rfl)
  have r := r.step (.lkInsert _ 0 _ rfl rfl rfl)
  exact ⟨_, r, rfl, ⟨1, 0, true, false, .free⟩, rfl, by decide⟩

/-- The property is violated when an overwrite and a remove of the key overlap: the remove takes the
new item out of RAM and skips flash because that item is not NvmClean, while the overwrite has not yet
removed the old flash copy.  After both returned and flash is idle the old value is in RAM. -/
theorem violated_overlap : ∃ s : State 2, Reach ⟨false, true, false⟩ s ∧ s.pc 0 = .idle ∧
    s.pc 1 = .idle ∧ s.queue = [] ∧ s.navy = none ∧
    ∃ it, look s.ram = .hit it ∧ it.ver < s.deadBelow := by
  have r := reach_flash0 ⟨false, true, false⟩
  have r := r.step (.startIns _ 0 rfl (fun h => nomatch h))
  have r := r.step (.insNone _ 0 _ _ _ rfl rfl)
  have r := r.step (.startDel _ 1 rfl (fun h => nomatch h))
  have r := r.step (.wTomb _ 1 _ _ rfl)
  have r := r.step (.wSync _ 1 _ _ rfl rfl)
  have r := r.step (.delHit _ 1 _ _ ⟨1, 1, false, false, .free⟩ rfl rfl)
  have r := r.step (.delImpl _ 1 _ _ _ rfl)
  have r := r.step (.delFlag _ 1 _ _ _ rfl)
  have r := r.step (.wRet _ 1 _ _ rfl)
  have r := r.step (.fStart _ 1 rfl)
  have r := r.step (.fMiss _ 1 _ rfl (by decide))
  have r := r.step (.fOn _ 1 _ rfl rfl)
  have r := r.step (.fInval _ 1 _ rfl)
  have r := r.step (.fSharedGo _ 1 _ rfl rfl)
  have r := r.step (.fLock _ 1 _ rfl rfl)
  have r := r.step (.fRam2Go _ 1 _ rfl rfl)
  have r := r.step (.fCreate _ 1 _ rfl rfl)
  have r := r.step (.fEnq _ 1 _ rfl)
  have r := r.step (.jLookup _ [] (.hit 0) rfl rfl (Or.inr (Or.inr ⟨0, rfl, rfl⟩)))
  have r := r.step (.lkOpen _ 0 rfl rfl)
  have r := r.step (.lkLock _ 0 rfl rfl)
  have r := r.step (.lkCheck _ 0 _ rfl (noTomb rfl rfl rfl (by decide)) rfl rfl)
  have r := r.step (.lkInsert _ 0 _ rfl rfl rfl)
  have r := r.step (.lkDone _ _ _ _ rfl rfl rfl rfl)
  have r := r.step (.fEnd _ 1 _ _ _ rfl)
  have r := r.step (.wTomb _ 0 _ _ rfl)
  have r := r.step (.wSync _ 0 _ _ rfl rfl)
  have r := r.step (.wRm _ _ 0 _ _ _ _ rfl (.on _ rfl))
  have r := r.step (.wRm _ _ 0 _ _ _ _ rfl (.inval _))
  have r := r.step (.wRm _ _ 0 _ _ _ _ rfl (.hasCtx _))
  have r := r.step (.wRm _ _ 0 _ _ _ _ rfl (.enq _))
  have r := r.step (.wRet _ 0 _ _ rfl)
  have r := r.step (.jRemove _ _ rfl rfl)
  have r := r.step (.jRemoveCb _ _ _ rfl rfl)
  exact ⟨_, r, rfl, rfl, rfl, rfl, ⟨2, 0, true, false, .free⟩, rfl, by decide⟩

/-- A find that starts after a remove returned can join a lookup that completed before the remove and
was not yet taken out of the fill map: it returns the removed value. -/
theorem violated_join : ∃ s : State 2, Reach good s ∧ ∃ m j v, s.pc 1 = .fdRet m (some j) (some v) ∧
    v < m := by
  have r := reach_lookup0 good
  have r := r.step (.lkLock _ 0 rfl rfl)
  have r := r.step (.lkCheck _ 0 _ rfl (noTomb rfl rfl rfl (by decide)) rfl rfl)
  have r := r.step (.lkInsert _ 0 _ rfl rfl rfl)
  have r := r.step (.startDel _ 1 rfl (fun _ => allIdle rfl rfl))
  have r := r.step (.wTomb _ 1 _ _ rfl)
  have r := r.step (.wSync _ 1 _ _ rfl rfl)
  have r := r.step (.delHit _ 1 _ _ ⟨1, 0, true, false, .free⟩ rfl rfl)
  have r := r.step (.delImpl _ 1 _ _ _ rfl)
  have r := r.step (.delFlag _ 1 _ _ _ rfl)
  have r := r.step (.wRm _ _ 1 _ _ _ _ rfl (.on _ rfl))
  have r := r.step (.wRm _ _ 1 _ _ _ _ rfl (.inval _))
  have r := r.step (.wRm _ _ 1 _ _ _ _ rfl (.noCtx _ (noPutCtx rfl rfl (Or.inr rfl))))
  have r := r.step (.wRm _ _ 1 _ _ _ _ rfl (.could _))
  have r := r.step (.wRm _ _ 1 _ _ _ _ rfl (.enq _))
  have r := r.step (.wRet _ 1 _ _ rfl)
  have r := r.step (.fStart _ 1 rfl)
  have r := r.step (.fMiss _ 1 _ rfl (by decide))
  have r := r.step (.fOn _ 1 _ rfl rfl)
  have r := r.step (.fInval _ 1 _ rfl)
  have r := r.step (.fSharedGo _ 1 _ rfl rfl)
  have r := r.step (.fLock _ 1 _ rfl rfl)
  have r := r.step (.fRam2Go _ 1 _ rfl rfl)
  have r := r.step (.fJoin _ 1 _ _ rfl rfl)
  have r := r.step (.lkDone _ _ _ _ rfl rfl rfl rfl)
  exact ⟨_, r, 1, 0, 0, rfl, by decide⟩

/-- a write that returned: version 0 is in flash, thread 1 overwrites the key; the flash remove is
queued when the call returns. -/
def wrote1 : State 2 :=
  mk (some ⟨1, 1, false, false, .free⟩) none [.remove] .idle (some 0) true 2 2 2 1 .idle .idle

/-- the same for `Steps`. -/
theorem castS {s s1 s2 : State 2} (h : Steps good s s1) (e : s1 = s2) : Steps good s s2 := e ▸ h

theorem wrote_example : Wrote good flash0 1 wrote1 := by
  refine ⟨reach_flash0 _, rfl, ⟨_, .startIns _ 1 rfl (fun _ => allIdle rfl rfl), rfl, ?_⟩, rfl⟩
  have r := Steps.refl (cfg := good) ({ flash0.setPc 1 (.w 1 (some (1, 1)) .ins) with
        nextVer := 2, nextId := 2 })
  have r := r.tail (.insNone _ 1 _ _ _ rfl rfl)
  have r := r.tail (.wTomb _ 1 _ _ rfl)
  have r := r.tail (.wSync _ 1 _ _ rfl rfl)
  have r := r.tail (.wRm _ _ 1 _ _ _ _ rfl (.on _ rfl))
  have r := r.tail (.wRm _ _ 1 _ _ _ _ rfl (.inval _))
  have r := r.tail (.wRm _ _ 1 _ _ _ _ rfl (.noCtx _ (noPutCtx rfl rfl (Or.inl rfl))))
  have r := r.tail (.wRm _ _ 1 _ _ _ _ rfl (.could _))
  have r := r.tail (.wRm _ _ 1 _ _ _ _ rfl (.enq _))
  have r := r.tail (.wRet _ 1 _ _ rfl)
  exact castS r (ext2 rfl rfl rfl rfl rfl rfl rfl rfl rfl rfl rfl rfl rfl rfl)

/-- The hypotheses of `find_after_write_partial` are met: after the overwrite thread 0 evicts the new
item to flash, later finds it there and gets version 1. -/
example : ∃ s3 : State 2, Steps good wrote1 s3 ∧ s3.pc 0 = .fdRet 1 none (some 1) := by
  have r := Steps.refl (cfg := good) wrote1
  have r := r.tail (.jRemove _ _ rfl rfl)
  have r := r.tail (.jRemoveCb _ _ _ rfl rfl)
  have r := r.tail (.evMarkTok _ 0 _ rfl rfl rfl (noHeld rfl rfl) rfl)
  have r := r.tail (.evUnlinkPut _ 0 _ rfl)
  have r := r.tail (.putCtx _ 0 _ rfl (by decide) rfl (noTomb rfl rfl rfl (by decide)))
  have r := r.tail (.putEnq _ 0 _ _ rfl rfl)
  have r := r.tail (.jInsert _ 1 [] (some 1) rfl rfl (Or.inl rfl))
  have r := r.tail (.jInsertCb _ _ _ rfl rfl)
  have r := r.tail (.fStart _ 0 rfl)
  have r := r.tail (.fMiss _ 0 _ rfl (by decide))
  have r := r.tail (.fOn _ 0 _ rfl rfl)
  have r := r.tail (.fInval _ 0 _ rfl)
  have r := r.tail (.fSharedGo _ 0 _ rfl rfl)
  have r := r.tail (.fLock _ 0 _ rfl rfl)
  have r := r.tail (.fRam2Go _ 0 _ rfl rfl)
  have r := r.tail (.fCreate _ 0 _ rfl rfl)
  have r := r.tail (.fEnq _ 0 _ rfl)
  have r := r.tail (.jLookup _ [] (.hit 1) rfl rfl (Or.inr (Or.inr ⟨1, rfl, rfl⟩)))
  have r := r.tail (.lkOpen _ 1 rfl rfl)
  have r := r.tail (.lkLock _ 1 rfl rfl)
  have r := r.tail (.lkCheck _ 1 _ rfl (noTomb rfl rfl rfl (by decide)) rfl rfl)
  have r := r.tail (.lkInsert _ 1 _ rfl rfl rfl)
  have r := r.tail (.lkDone _ _ _ _ rfl rfl rfl rfl)
  exact ⟨_, r, rfl⟩

/-- `ram_after_write_partial` and `flash_after_write_partial` at the moment the overwrite returned: RAM
shows the new version, flash still stores the old one, with the remove queued. -/
example : look wrote1.ram = .hit ⟨1, 1, false, false, .free⟩ ∧ wrote1.navy = some 0 ∧
    Job.remove ∈ wrote1.queue := ⟨rfl, rfl, by decide⟩

end Verif.NvmSync
