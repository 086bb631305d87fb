import Verif.HashTable.Props
/-!
Model of `ChainedHashTable::Container::saveState` and of the restoring constructor, and property C45 for the index in RAM: over any
number of restarts, the table is still the map of C07.

What is simplified: buckets, hooks and flags of the items are in the shared memory, so a restart finds them as they were.  Numbers
fit their thrift types.  A pointer of a bucket takes 4 bytes (the size is only compared).  A hasher is given by its magic id.
-/
namespace Verif.HashTable
variable {K : Type} {n : Nat}

/-- The configuration of one process (ChainedHashTable.h:238-330) and the page size of its shared memory. -/
structure Proc where
  bucketsPower : Nat
  locksPower : Nat
  magic : Nat
  page : Nat

/-- objects.thrift:175-186 ChainedHashTableObject. -/
structure Saved where
  bucketsPower : Nat
  locksPower : Nat
  numKeys : Int
  magic : Nat

/-- The table of a process; `hasher m` is the function of the hasher with magic id `m`, `key` the key of each item. -/
def Proc.cfg (p : Proc) (hasher : Nat → K → Nat) (key : P → K) : Cfg K := ⟨hasher p.magic, key, p.bucketsPower, p.locksPower⟩

/-- common/Utils.h:274-278 getAlignedSize. -/
def alignUp (size page : Nat) : Nat := if size % page = 0 then size else size + page - size % page

/-- ChainedHashTable.h:169-171 size, and the memory that createShm gives for it. -/
def Proc.memory (p : Proc) : Nat := alignUp (2 ^ p.bucketsPower * 4) p.page

/-- ChainedHashTable.h:1312-1330 saveState of a table in shared memory with `iters` iterators; `none` is an exception. -/
def save (p : Proc) (iters : Nat) (s : State K n) : Option Saved :=
  if iters ≠ 0 then none else some ⟨p.bucketsPower, p.locksPower, s.numKeys, p.magic⟩

/-- ChainedHashTable.h:1069-1109 the restoring constructor on memory of `nBytes` bytes that holds the buckets, hooks and flags of
`s`; `none` is an exception.  Locks are new, and no thread is in the table. -/
def restore (p : Proc) (o : Saved) (nBytes : Nat) (s : State K n) : Option (State K n) :=
  if p.bucketsPower ≠ o.bucketsPower then none
  else if nBytes ≠ alignUp (2 ^ p.bucketsPower * 4) p.page then none
  else if o.magic ≠ 0 ∧ o.magic ≠ p.magic then none
  else some { s with numKeys := o.numKeys, pc := fun _ => .idle }

/-- Executions of the table over any number of processes: each may have another configuration, and the next one starts when
nobody is in the table.  `m` is the size of the shared memory, made by the first process. -/
inductive RExec (hasher : Nat → K → Nat) (key : P → K) : Proc → Nat → List (Label K n) → State K n → Prop
  | init (p : Proc) : RExec hasher key p p.memory [] (init K n)
  | step {p : Proc} {m : Nat} {tr : List (Label K n)} {s s' : State K n} {l : Label K n} :
      RExec hasher key p m tr s → Step (p.cfg hasher key) s l s' → RExec hasher key p m (observe tr l) s'
  | restart {p p' : Proc} {m : Nat} {tr : List (Label K n)} {s s' : State K n} {o : Saved} :
      RExec hasher key p m tr s → (∀ t, s.pc t = .idle) → save p 0 s = some o → restore p' o m s = some s' →
      RExec hasher key p' m tr s'

theorem sim_restart {c c' : Cfg K} {s s' : State K n} {L : Nat → List P} {a : Atomic K n} (h : Sim c s L a) (hq : ∀ t, s.pc t = .idle)
    (h1 : c'.hash = c.hash) (h2 : c'.key = c.key) (h3 : c'.bucketsPower = c.bucketsPower) (hs : s' = { s with pc := fun _ => .idle }) :
    Sim c' s' L a := by
  have hb : c'.bucket = c.bucket := by funext k; unfold Cfg.bucket; rw [h1, h3]
  have hbk : ∀ p, c'.bkt p = c.bkt p := fun p => by unfold Cfg.bkt; rw [hb, h2]
  have e : s' = s := by
    subst hs
    have : (fun _ => PC.idle) = s.pc := by funext t; exact (hq t).symm
    rw [this]
  rw [e]
  refine ⟨⟨?_, ?_, ?_, ?_, ?_, ?_, ?_, ?_⟩, ?_, h.client⟩
  · intro b
    have := h.inv.good b
    unfold Good at this ⊢
    rw [h2]
    exact ⟨this.1, fun p hp => (hbk p).trans (this.2 p hp)⟩
  · intro t; rw [hq t]; trivial
  · intro b _
    exact h.inv.clean b fun t o ho => by rw [hq t] at ho; cases ho
  · intro t t' o o' _ ho; rw [hq t] at ho; cases ho
  · intro t t' o o' nd _ ho; rw [hq t] at ho; cases ho
  · intro t nd ho; rw [hq t] at ho; cases ho
  · intro p hp
    rw [hbk p]
    exact h.inv.flag p hp
  · rw [h3]; exact h.inv.count
  · intro k p
    rw [hb, h2]
    exact h.map k p

/-- C45: the table is linearizable over any number of restarts: what all the processes together observe is what they could observe
of one atomic map.  Magic ids that are not 0 are those of one hasher each; restarts change neither the hasher nor the number of
buckets, although they may change the locks. -/
theorem linearizable_restarts {hasher : Nat → K → Nat} {key : P → K} {p : Proc} {m : Nat} {tr : List (Label K n)} {s : State K n}
    (h : RExec hasher key p m tr s) (h0 : ∀ k, hasher 0 k = hasher p.magic k) :
    ∃ a, AExec key (p.cfg hasher key).bucket tr a := by
  suffices hh : ∃ a L, AExec key (p.cfg hasher key).bucket tr a ∧ Sim (p.cfg hasher key) s L a from by
    obtain ⟨a, _, ha, _⟩ := hh
    exact ⟨a, ha⟩
  induction h with
  | init p => exact ⟨_, _, .init, sim_init _⟩
  | @step p m tr s s' l _ hs ih =>
    obtain ⟨a, L, ha, hsim⟩ := ih h0
    obtain ⟨a', L', hsim', h⟩ := sim_step hsim hs
    refine ⟨a', L', ?_, hsim'⟩
    rcases h with ⟨rfl, rfl⟩ | h
    · exact ha
    · cases l with
      | tau => exact .silent ha h
      | call t o => exact .obs (by simp) ha h
      | ret t r => exact .obs (by simp) ha h
  | @restart p p' m tr s s' o _ hq hsv hrs ih =>
    unfold save at hsv
    rw [if_neg (by simp), Option.some.injEq] at hsv
    subst hsv
    unfold restore at hrs
    dsimp only at hrs
    split at hrs
    · cases hrs
    rename_i e1
    split at hrs
    · cases hrs
    split at hrs
    · cases hrs
    rename_i e2
    rw [Option.some.injEq] at hrs
    have e1 : p'.bucketsPower = p.bucketsPower := Classical.byContradiction fun h => e1 h
    have hh : (p'.cfg hasher key).hash = (p.cfg hasher key).hash := by
      show hasher p'.magic = hasher p.magic
      by_cases hz : p.magic = 0
      · funext k; rw [hz]; exact (h0 k).symm
      · have : p.magic = p'.magic := Classical.byContradiction fun h => e2 ⟨hz, h⟩
        rw [this]
    have hb : (p'.cfg hasher key).bucket = (p.cfg hasher key).bucket := by
      funext k
      have e1' : (p'.cfg hasher key).bucketsPower = (p.cfg hasher key).bucketsPower := e1
      unfold Cfg.bucket; rw [hh, e1']
    obtain ⟨a, L, ha, hsim⟩ := ih (fun k => (h0 k).trans (congrFun hh k))
    rw [hb]
    exact ⟨a, L, ha, sim_restart hsim hq hh rfl e1 hrs.symm⟩

/-- C45: what was saved is accepted by a process with the same number of buckets, hasher and page size, whatever its locks; the
contents of the table are the same. -/
theorem restore_save {p p' : Proc} {s : State K n} (hq : ∀ t, s.pc t = .idle) (h1 : p'.bucketsPower = p.bucketsPower)
    (h2 : p'.magic = p.magic) (h3 : p'.page = p.page) : ∃ o, save p 0 s = some o ∧ restore p' o p.memory s = some s := by
  refine ⟨_, rfl, ?_⟩
  unfold restore Proc.memory
  dsimp only
  rw [if_neg (not_not.2 h1), h1, h3, if_neg (not_not.2 rfl), if_neg (fun h => h.2 h2.symm)]
  have : (fun _ => PC.idle) = s.pc := by funext t; exact (hq t).symm
  rw [this]

/-- C45: another number of buckets, or another hasher, is refused. -/
theorem restore_refuses {p p' : Proc} {m : Nat} {s : State K n} {o : Saved} (h : save p 0 s = some o)
    (hd : p'.bucketsPower ≠ p.bucketsPower ∨ (p.magic ≠ 0 ∧ p'.magic ≠ p.magic)) : restore p' o m s = none := by
  unfold save at h
  rw [if_neg (by simp), Option.some.injEq] at h
  subst h
  unfold restore
  dsimp only
  rcases hd with hd | hd
  · rw [if_pos hd]
  · split
    · rfl
    · split
      · rfl
      · rw [if_pos ⟨hd.1, hd.2.symm⟩]

/-- C45: the state is not saved while an iterator exists. -/
theorem save_refuses_iterators {p : Proc} {s : State K n} {i : Nat} (h : i ≠ 0) : save p i s = none := if_pos h

/-! ### Examples -/

/-- Items `p` and `q` have one key if `p / 4 = q / 4`; hasher 1 is the identity, hasher 2 is not. -/
def exHasher (m : Nat) (k : Nat) : Nat := if m = 2 then k + 1 else k

/-- An item is inserted, the process ends, another one with another number of locks starts and finds the item. -/
example : ∃ s : State Nat 1, RExec exHasher (fun p => p / 4) ⟨1, 1, 1, 4096⟩ 4096
    [.call 0 (.insert 5), .ret 0 (.flag true), .call 0 (.find 1), .ret 0 (.handle (some 5))] s := by
  have free : ∀ (c : Cfg Nat) (s : State Nat 1) b x, (s.pc 0).inLock = false → ∀ t, ¬ c.conflict (s.pc t) b x := by
    intro c s b x h0 t
    rintro ⟨o, -, hl, -⟩
    match t with
    | 0 => rw [h0] at hl; cases hl
  have e := RExec.init (hasher := exHasher) (key := fun p => p / 4) (n := 1) ⟨1, 0, 1, 4096⟩
  have e := e.step (.call _ 0 (.insert 5) rfl (by
    intro t o ho; cases ho))
  have e := e.step (.preGo _ 0 _ _ _ rfl rfl rfl)
  have e := e.step (.lock _ 0 _ rfl (free _ _ _ _ rfl))
  have e := e.step (.noTest _ 0 _ rfl rfl)
  have e := e.step (.head _ 0 _ _ rfl rfl)
  have e := e.step (.absent _ 0 _ _ _ rfl rfl)
  have e := e.step (.iHead _ 0 _ rfl)
  have e := e.step (.iLink _ 0 _ _ _ rfl rfl)
  have e := e.step (.iNext _ 0 _ _ _ rfl rfl)
  have e := e.step (.iMark _ 0 _ _ _ rfl rfl)
  have e := e.step (.iCountIns _ 0 _ rfl)
  have e := e.step (.unlock _ 0 _ _ rfl)
  have e := e.step (.ret _ 0 _ _ rfl)
  have e := e.restart (p' := ⟨1, 1, 1, 4096⟩) (fun t => by match t with | 0 => rfl) rfl rfl
  have e := e.step (.call _ 0 (.find 1) rfl trivial)
  have e := e.step (.preSkip _ 0 _ rfl rfl)
  have e := e.step (.lock _ 0 _ rfl (free _ _ _ _ rfl))
  have e := e.step (.noTest _ 0 _ rfl rfl)
  have e := e.step (.head _ 0 _ _ rfl rfl)
  have e := e.step (.found _ 0 1 none (some 5) rfl (by intro x hx; cases hx; rfl))
  have e := e.step (.unlock _ 0 _ _ rfl)
  have e := e.step (.ret _ 0 _ _ rfl)
  exact ⟨_, e⟩

/-- C45, finding: a hasher whose magic id is 0 is not recognised: a process with another hasher is accepted, and does not find
what is in the table. -/
theorem zero_magic_lost : ∃ s : State Nat 1, RExec exHasher (fun p => p / 4) ⟨1, 0, 2, 4096⟩ 4096
    [.call 0 (.insert 5), .ret 0 (.flag true), .call 0 (.find 1), .ret 0 (.handle none)] s := by
  have free : ∀ (c : Cfg Nat) (s : State Nat 1) b x, (s.pc 0).inLock = false → ∀ t, ¬ c.conflict (s.pc t) b x := by
    intro c s b x h0 t
    rintro ⟨o, -, hl, -⟩
    match t with
    | 0 => rw [h0] at hl; cases hl
  have e := RExec.init (hasher := exHasher) (key := fun p => p / 4) (n := 1) ⟨1, 0, 0, 4096⟩
  have e := e.step (.call _ 0 (.insert 5) rfl (by
    intro t o ho; cases ho))
  have e := e.step (.preGo _ 0 _ _ _ rfl rfl rfl)
  have e := e.step (.lock _ 0 _ rfl (free _ _ _ _ rfl))
  have e := e.step (.noTest _ 0 _ rfl rfl)
  have e := e.step (.head _ 0 _ _ rfl rfl)
  have e := e.step (.absent _ 0 _ _ _ rfl rfl)
  have e := e.step (.iHead _ 0 _ rfl)
  have e := e.step (.iLink _ 0 _ _ _ rfl rfl)
  have e := e.step (.iNext _ 0 _ _ _ rfl rfl)
  have e := e.step (.iMark _ 0 _ _ _ rfl rfl)
  have e := e.step (.iCountIns _ 0 _ rfl)
  have e := e.step (.unlock _ 0 _ _ rfl)
  have e := e.step (.ret _ 0 _ _ rfl)
  have e := e.restart (p' := ⟨1, 0, 2, 4096⟩) (fun t => by match t with | 0 => rfl) rfl rfl
  have e := e.step (.call _ 0 (.find 1) rfl trivial)
  have e := e.step (.preSkip _ 0 _ rfl rfl)
  have e := e.step (.lock _ 0 _ rfl (free _ _ _ _ rfl))
  have e := e.step (.noTest _ 0 _ rfl rfl)
  have e := e.step (.head _ 0 _ _ rfl rfl)
  have e := e.step (.found _ 0 1 none none rfl (by intro x hx; cases hx))
  have e := e.step (.unlock _ 0 _ _ rfl)
  have e := e.step (.ret _ 0 _ _ rfl)
  exact ⟨_, e⟩

end Verif.HashTable
