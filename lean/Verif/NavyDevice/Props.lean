import Verif.NavyDevice.IoStep
/-
C51: the device is one array of bytes.
-/
namespace Verif.NavyDevice

/-- **C51.** A read that succeeds returns, for every byte, what the last write of that byte wrote (if that one succeeded), whatever
the number of files, stripe size, limits on IO sizes, alignment, kind of IO, order and interleaving of the operations on the files,
operations that were submitted again, and whatever failed before. -/
theorem read_exact {c : Cfg} (hm : Made c) (hc : ∀ e, c.enc = some e → ∃ E D, BlockCipher e E D) {w : World} (h : Reach c w)
    {later earlier : List Ev} {off size : Nat} {f : Nat → Byte} (hl : w.log = later ++ .didRead off size (some f) :: earlier)
    {i : Nat} {b : Byte} (hi : i < size) (hb : LastWrote earlier (off + i) b) : f i = b := by
  obtain ⟨E, D, hg⟩ := good_exists hc
  exact (h.inv hm hg).reads later earlier off size f hl i b hi hb

/-- An operation that is in progress. -/
def World.Pending (w : World) (op : Op) : Prop := ∃ id x r n, w.calls id = some x ∧ x.req = some r ∧ (op, n) ∈ r.pend

/-- **C51.** No operation goes outside of the files. -/
theorem io_in_bounds {c : Cfg} (hm : Made c) (hc : ∀ e, c.enc = some e → ∃ E D, BlockCipher e E D) {w : World} (h : Reach c w)
    {op : Op} (hp : w.Pending op) (hs : 0 < op.size) : op.fd < c.nfiles ∧ op.off + op.size ≤ c.fileSize := by
  obtain ⟨E, D, hg⟩ := good_exists hc
  obtain ⟨id, x, r, n, hx, hr, hin⟩ := hp
  have hi := (h.inv hm hg).calls id x hx
  obtain ⟨q1, q2, q3⟩ := hi.req r hr
  obtain ⟨a1, a2⟩ := q2 _ hin
  dsimp only at a1 a2
  have hdev := hi.inDev
  have hf : c.nfiles > 1 → c.fileSize % c.stripe = 0 := by
    intro hn
    have h1 := hm.accepted
    unfold Cfg.accepted at h1
    simp only [Bool.and_eq_true, Bool.or_eq_true, decide_eq_true_eq, beq_iff_eq] at h1
    rcases h1.2 with h2 | h2
    · omega
    · exact h2
  have hb := loc_bound hm.files hm.stripe hf (o := x.off + x.pos + op.buf + (op.size - 1)) (by omega)
  rw [a2 _ (by omega)] at hb
  dsimp only at hb
  exact ⟨hb.1, by omega⟩

/-! ### Errors -/

/-- The device did all of the operation that completes in this step. -/
def Good1 (c : Cfg) (w : World) : Act → Prop
  | .io id k res _ => ∀ x r op n, w.calls id = some x → x.req = some r → r.pend[k]? = some (op, n) →
      if c.fdp = true ∧ r.sync = false then res = 0 else res = op.size
  | _ => True

/-- States that can be reached without an error of a file. -/
inductive ReachOk (c : Cfg) : World → Prop
  | init (disk : Nat → Nat → Byte) : ReachOk c { disk }
  | step {w w' : World} (a : Act) (h : ReachOk c w) (ha : Good1 c w a) (he : w.exec c a = some w') : ReachOk c w'

/-- An encryptor that does not fail. -/
def Total (c : Cfg) : Prop := ∀ e, c.enc = some e → ∀ v n s, e.enc v n s ≠ none ∧ e.dec v n s ≠ none

/-- The call returned an error. -/
def Ev.isError : Ev → Prop
  | .wrote _ _ _ ok => ok = false
  | .didRead _ _ r => r = none

/-- **C51.** A call returns an error only if the device or the encryptor reported one. -/
theorem no_spurious_error {c : Cfg} (ht : Total c) {w : World} (h : ReachOk c w) : ∀ e ∈ w.log, ¬ e.isError := by
  have key : (∀ e ∈ w.log, ¬ e.isError) ∧ ∀ id x r, w.calls id = some x → x.req = some r → r.ok = true := by
    induction h with
    | init disk => exact ⟨fun e he => (by cases he), fun id x r hx => (by cases hx)⟩
    | @step w w' a _ ha he ih =>
      obtain ⟨i1, i2⟩ := ih
      have henc : ∀ d n s, c.encrypt d n s ≠ some none := by
        intro d n s
        unfold Cfg.encrypt
        split
        · intro e; injection e with e; cases e
        · rename_i e he'
          split
          · intro e2; injection e2 with e2; exact (ht e he' d n s).1 e2
          · intro e2; cases e2
      have hdec : ∀ d n s, c.decrypt d n s ≠ some none := by
        intro d n s
        unfold Cfg.decrypt
        split
        · intro e; injection e with e; cases e
        · rename_i e he'
          split
          · intro e2; injection e2 with e2; exact (ht e he' d n s).2 e2
          · intro e2; cases e2
      have hset : ∀ {w : World} {id : Nat} {y : Option Call}, (∀ id x r, w.calls id = some x → x.req = some r → r.ok = true) →
          (∀ z r, y = some z → z.req = some r → r.ok = true) →
          ∀ i x r, (w.setCall id y).calls i = some x → x.req = some r → r.ok = true := by
        intro w id y h1 h2 i x r hx hr
        rw [setCall_calls] at hx
        split at hx
        · exact h2 x r hx hr
        · exact h1 i x r hx hr
      have hwb : ∀ {id uo us : Nat} {ud : Nat → Byte} {o s : Nat} {d : Nat → Byte}, w.writeBuffer c id uo us ud o s d = some w' →
          (∀ e ∈ w'.log, ¬ e.isError) ∧ ∀ id x r, w'.calls id = some x → x.req = some r → r.ok = true := by
        intro id uo us ud o s d he
        unfold World.writeBuffer at he
        split at he
        · cases he
        · rename_i h1; exact absurd h1 (henc _ _ _)
        · injection he with he; subst he
          exact ⟨i1, hset i2 (fun z r hz hr => by injection hz with hz; subst hz; cases hr)⟩
      cases a with
      | writeBuffer id off size data => exact hwb he
      | writeView id off size data pad =>
        simp only [World.exec, World.writeView] at he
        split at he
        · exact hwb he
        · injection he with he; subst he
          exact ⟨i1, hset i2 (fun z r hz hr => by injection hz with hz; subst hz; cases hr)⟩
      | readBuffer id off size mem =>
        injection he with he; subst he
        exact ⟨i1, hset i2 (fun z r hz hr => by injection hz with hz; subst hz; cases hr)⟩
      | readInto id off size mem =>
        injection he with he; subst he
        exact ⟨i1, hset i2 (fun z r hz hr => by injection hz with hz; subst hz; cases hr)⟩
      | chunk id sync limit =>
        simp only [World.exec, World.chunk] at he
        split at he
        · split at he
          · cases he
          · split at he
            · injection he with he; subst he
              refine ⟨i1, hset i2 (fun z r hz hr => ?_)⟩
              injection hz with hz; subst hz; injection hr with hr; subst hr; rfl
            · cases he
        · cases he
      | io id k res junk =>
        simp only [World.exec, World.io] at he
        split at he
        · cases he
        · rename_i x hx
          split at he
          · cases he
          · rename_i r hr
            split at he
            · cases he
            · rename_i op n hp
              have hres := ha x r op n hx hr hp
              split at he
              · cases he
              · injection he with he; subst he
                refine ⟨i1, hset (w := { w with disk := _ }) i2 (fun z r' hz hr' => ?_)⟩
                injection hz with hz; subst hz; injection hr' with hr'; subst hr'
                split
                · exact i2 id x r hx hr
                · dsimp only
                  rw [i2 id x r hx hr, Bool.true_and]
                  unfold doneLen
                  cases hf : c.fdp <;> cases hs : r.sync <;> simp [hf, hs] at hres ⊢ <;> simp [hres]
      | chunkDone id =>
        simp only [World.exec, World.chunkDone] at he
        split at he
        · cases he
        · rename_i x hx
          split at he
          · cases he
          · rename_i r hr
            split at he
            · cases he
            · rw [i2 id x r hx hr] at he
              simp only [if_true] at he
              injection he with he; subst he
              exact ⟨i1, hset i2 (fun z r hz hr => by injection hz with hz; subst hz; cases hr)⟩
      | ret id =>
        simp only [World.exec, World.ret] at he
        split at he
        · cases he
        · rename_i x hx
          split at he
          · cases he
          · split at he
            · cases he
            · split at he
              · injection he with he; subst he
                refine ⟨fun e hm => ?_, hset i2 (fun z r hz hr => by cases hz)⟩
                rcases List.mem_cons.1 hm with rfl | hm
                · intro h2; cases h2
                · exact i1 e hm
              · split at he
                · cases he
                · rename_i h1; exact absurd h1 (hdec _ _ _)
                · injection he with he; subst he
                  refine ⟨fun e hm => ?_, hset i2 (fun z r hz hr => by cases hz)⟩
                  rcases List.mem_cons.1 hm with rfl | hm
                  · intro h2; cases h2
                  · exact i1 e hm
  exact key.1

/-! ### The order of the paths -/

/-- The order in which createFileDevice opens the files (Device.cpp:1341-1348). -/
def openOrder (paths : List String) : List String := paths.mergeSort (fun a b => decide (a ≤ b))

/-- **C51.** The files are used in the same order, whatever the order in which the paths are given. -/
theorem order_of_paths {l m : List String} (h : l.Perm m) : openOrder l = openOrder m := by
  have ht : ∀ a b c : String, decide (a ≤ b) = true → decide (b ≤ c) = true → decide (a ≤ c) = true := by
    intro a b c h1 h2
    simp only [decide_eq_true_eq] at h1 h2 ⊢
    exact String.le_trans h1 h2
  have hto : ∀ a b : String, (decide (a ≤ b) || decide (b ≤ a)) = true := by
    intro a b
    simp only [Bool.or_eq_true, decide_eq_true_eq]
    exact String.le_total a b
  refine List.Perm.eq_of_pairwise ?_ (List.pairwise_mergeSort ht hto l) (List.pairwise_mergeSort ht hto m)
    (((List.mergeSort_perm l _).trans h).trans (List.mergeSort_perm m _).symm)
  intro a b _ _ h1 h2
  simp only [decide_eq_true_eq] at h1 h2
  exact String.le_antisymm h1 h2

end Verif.NavyDevice
