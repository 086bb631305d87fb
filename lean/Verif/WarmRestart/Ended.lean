/-
What a clean shutdown leaves, and which process it was.
-/
import Verif.WarmRestart.Live

namespace Verif.WarmRestart

/-- What is left by a clean shutdown with configuration `c` when the RAM cache was `s`. -/
structure Left (w : World) (c : Cfg) (s : Nat × Nat × Nat) (l : List Ev) : Prop where
  ex : ∃ ns, w.md = .names c.posix ns ∧ .info ∈ ns ∧ .cache ∈ ns ∧ .ht ∈ ns ∧ .cht ∈ ns ∧
    w.segs .info = some (.info s.1 s.2.1 s.2.2) ∧ w.segs .cache = some (.data s.1) ∧ w.segs .ht = some (.data s.2.1) ∧
    w.segs .cht = some (.data s.2.2) ∧
    ∀ p d i l', l = .nvmSafe p d i :: l' → w.nvmFile = .safe c.fmt ∧ w.dev = d ∧ w.navy = some (d, i) ∧
      (c.idx = false → i = none) ∧ (c.idx = true → ∃ j, i = some j ∧ .idx ∈ ns ∧ w.segs .idx = some (.data j))

/-- About the newest event while the process runs. -/
structure HP (w : World) (p : Nat) (x : Proc) : Prop where
  head : x.pc.late = false → ∀ p' s l, w.log ≠ .clean p' s :: l
  headN : x.pc.closing = false → x.pc.late = false → ∀ p' d i l, w.log ≠ .nvmSafe p' d i :: l
  safe : x.pc.closing = true → ∀ p' d i l, w.log = .nvmSafe p' d i :: l → p' = p ∧ x.cfg.nvm = true ∧
    w.nvmFile = .safe x.cfg.fmt ∧ w.dev = d ∧ w.navy = some (d, i) ∧ i = if x.cfg.idx then some (w.val .idx) else none
  late : x.pc.late = true → ∀ p' s l, w.log = .clean p' s :: l → p' = p ∧ Left w x.cfg s l ∧
    (∀ n, n = .info ∨ n = .cache ∨ n = .ht ∨ n = .cht → n ∈ x.att) ∧
    ∀ p d i l', l = .nvmSafe p d i :: l' → x.cfg.idx = true → .idx ∈ x.att

section
variable {w w' : World} {p : Nat} {x x' : Proc} {ok : Bool} {v : Nat}

/-- A new event is the newest. -/
theorem HP.fresh {e : Ev} {l : List Ev} (hl : w'.log = e :: l) (h1 : ∀ p' s, e ≠ .clean p' s) (h2 : ∀ p' d i, e ≠ .nvmSafe p' d i) : HP w' p x' := by
  refine ⟨?_, ?_, ?_, ?_⟩
  · intro _ p' s l' h; rw [hl] at h; exact h1 _ _ (List.cons.inj h).1
  · intro _ _ p' d i l' h; rw [hl] at h; exact absurd (List.cons.inj h).1 (h2 _ _ _)
  · intro _ p' d i l' h; rw [hl] at h; exact absurd (List.cons.inj h).1 (h2 _ _ _)
  · intro _ p' s l' h; rw [hl] at h; exact absurd (List.cons.inj h).1 (h1 _ _)

theorem HP.carry (h : HP w p x) (hl : w'.log = w.log) (c1 : x'.pc.late = false) (c2 : x.pc.late = false)
    (c3 : x'.pc.closing = false → x.pc.closing = false)
    (c4 : x'.pc.closing = true → x.pc.closing = true → x'.cfg = x.cfg ∧ w'.nvmFile = w.nvmFile ∧ w'.dev = w.dev ∧ w'.navy = w.navy ∧ w'.val .idx = w.val .idx) :
    HP w' p x' := by
  refine ⟨?_, ?_, ?_, ?_⟩
  · intro _; rw [hl]; exact h.head c2
  · intro a _; rw [hl]; exact h.headN (c3 a) c2
  · intro a p' d i l hll
    rw [hl] at hll
    cases hc : x.pc.closing
    · exact absurd hll (h.headN hc c2 p' d i l)
    · obtain ⟨e1, e2, e3, e4, e5⟩ := c4 a hc
      rw [e1, e2, e3, e4, e5]
      exact h.safe hc p' d i l hll
  · intro a; rw [c1] at a; cases a

theorem make_log {n : Name} {pc : PC} : (w.make p x n v pc).log = .wrote p n v :: w.log := rfl

theorem hp_go (h : HP w p x) (hl : LP w x) (hi : PInv w p x) (hx : w.proc p = some x) (hx' : (w.go p x ok v).proc p = some x') :
    HP (w.go p x ok v) p x' := by
  unfold World.go at hx' ⊢
  cases hpc : x.pc <;> simp only [hpc] at hx' ⊢
  case read =>
    revert hx'
    (repeat' split) <;> intro hx' <;>
      first
      | exact absurd hx' refused_proc
      | (rw [put_proc] at hx'; cases hx'
         refine h.carry rfl ?_ ?_ ?_ ?_ <;> cases hc : x.cfg.attach <;> simp [hpc, PC.late, PC.closing])
  case lock =>
    split at hx'
    · rename_i hc
      rw [if_pos hc, put_proc] at *; cases hx'
      refine h.carry rfl ?_ ?_ ?_ ?_ <;> simp [hpc, PC.late, PC.closing]
    · exact absurd hx' refused_proc
  case attInfo =>
    split at hx'
    · rename_i hc
      rw [if_pos hc]
      split at hx'
      · rename_i hs
        rw [put_proc] at hx'; cases hx'
        refine h.carry rfl ?_ ?_ ?_ ?_ <;> simp [hpc, PC.late, PC.closing]
      · exact absurd hx' unwind_proc
    · exact absurd hx' unwind_proc
  case attCache =>
    cases hc : w.canAttach x .cache with
    | none => cases ok <;> simp only [hc] at hx' <;> exact absurd hx' unwind_proc
    | some u =>
      cases ok <;> simp only [hc] at hx'
      · exact absurd hx' unwind_proc
      rw [put_proc] at hx'; cases hx'
      refine h.carry rfl ?_ ?_ ?_ ?_ <;> simp [hpc, PC.late, PC.closing]
  case attHt =>
    cases hc : w.canAttach x .ht with
    | none => cases ok <;> simp only [hc] at hx' <;> exact absurd hx' unwind_proc
    | some u =>
      cases ok <;> simp only [hc] at hx'
      · exact absurd hx' unwind_proc
      rw [put_proc] at hx'; cases hx'
      refine h.carry rfl ?_ ?_ ?_ ?_ <;> simp [hpc, PC.late, PC.closing]
  case attCht =>
    cases hc : w.canAttach x .cht with
    | none => cases ok <;> simp only [hc] at hx' <;> exact absurd hx' unwind_proc
    | some u =>
      cases ok <;> simp only [hc] at hx'
      · exact absurd hx' unwind_proc
      exact HP.fresh rfl nofun nofun
  case mkCache => exact HP.fresh rfl nofun nofun
  case mkHt => exact HP.fresh rfl nofun nofun
  case mkCht => exact HP.fresh rfl nofun nofun
  case nvmInit =>
    have reset : HP (w.resetNvm p x v) p x' := by
      unfold World.resetNvm
      dsimp only
      split <;> exact HP.fresh rfl nofun nofun
    unfold World.initNvm at hx' ⊢
    split at hx'
    · rename_i hc; rw [if_pos hc]; exact reset
    rename_i hc; rw [if_neg hc]
    cases w.navy with
    | none => exact HP.fresh rfl nofun nofun
    | some di =>
      obtain ⟨d, i⟩ := di
      dsimp only at hx' ⊢
      cases ok
      · exact reset
      cases x.cfg.idx <;> cases i <;> simp only [Bool.false_eq_true, Bool.true_eq_false, if_false, if_true] at hx' ⊢
      · exact HP.fresh rfl nofun nofun
      · exact reset
      · exact reset
      · cases w.canAttach x .idx
        · exact reset
        · exact HP.fresh rfl nofun nofun
  case rmInfo =>
    rw [put_proc] at hx'; cases hx'
    refine h.carry rfl ?_ ?_ ?_ ?_ <;> simp [hpc, PC.late, PC.closing]
  case sdInfo =>
    split at hx'
    · rename_i hok
      rw [if_pos hok]
      rw [put_proc] at hx'; cases hx'
      refine h.carry rfl ?_ ?_ ?_ ?_
      · rfl
      · rw [hpc]; rfl
      · simp [PC.closing]
      · exact fun _ _ => ⟨afterCreate_cfg _ _ _, rfl, rfl, rfl, rfl⟩
    · rename_i hok
      rw [if_neg hok]
      rw [put_proc] at hx'; cases hx'
      refine h.carry rfl ?_ ?_ ?_ ?_
      · rfl
      · rw [hpc]; rfl
      · simp [PC.closing]
      · exact fun _ _ => ⟨rfl, rfl, rfl, rfl, rfl⟩
  case sdFill =>
    rw [put_proc] at hx'; cases hx'
    refine h.carry rfl ?_ ?_ ?_ ?_
    · rfl
    · rw [hpc]; rfl
    · simp [PC.closing]
    · exact fun _ _ => ⟨rfl, rfl, rfl, rfl, rfl⟩
  case half => rw [hx] at hx'; cases hx'; exact h
  case sdMark2 =>
    simp only [World.say] at hx'
    rw [put_proc] at hx'; cases hx'
    have hm := hi.mark (by simp [hpc])
    have hn := hi.nvm (by simp [hpc])
    refine ⟨fun _ => nofun, fun a => (by cases a), ?_, fun a => (by cases a)⟩
    intro _ p' d i l hll
    have hll' : Ev.nvmSafe p w.dev (if x.cfg.idx then some (w.val .idx) else none) :: w.log = .nvmSafe p' d i :: l := hll
    simp only [List.cons.injEq, Ev.nvmSafe.injEq] at hll'
    obtain ⟨⟨rfl, rfl, rfl⟩, rfl⟩ := hll'
    exact ⟨rfl, hn, rfl, rfl, hm, rfl⟩
  case sdMeta =>
    have hh := h.head (by rw [hpc]; rfl)
    split at hx'
    · rename_i hm
      rw [if_pos hm]
      rw [put_proc] at hx'; cases hx'
      refine ⟨fun a => (by cases a), fun _ a => (by cases a), fun a => (by cases a), ?_⟩
      intro _ p' s l hll
      exact absurd hll (hh p' s l)
    · rename_i hm
      rw [if_neg hm]
      rw [put_proc] at hx'; cases hx'
      refine h.carry rfl ?_ ?_ ?_ ?_
      · rfl
      · rw [hpc]; rfl
      · simp [PC.closing]
      · exact fun _ _ => ⟨rfl, rfl, rfl, rfl, rfl⟩
  case sdMeta2 =>
    have hh := h.head (by rw [hpc]; rfl)
    split at hx'
    · rename_i hm
      rw [if_pos hm]
      rw [put_proc] at hx'; cases hx'
      refine ⟨fun a => (by cases a), fun _ a => (by cases a), fun a => (by cases a), ?_⟩
      intro _ p' s l hll
      exact absurd hll (hh p' s l)
    rename_i hm
    rw [if_neg hm]
    split at hx'
    · rename_i hok
      rw [if_pos hok]
      simp only [World.say] at hx'
      rw [put_proc] at hx'; cases hx'
      refine ⟨fun a => (by cases a), fun _ a => (by cases a), fun a => (by cases a), ?_⟩
      intro _ p' s l hll
      have hll' : Ev.clean p (w.val .cache, w.val .ht, w.val .cht) :: w.log = .clean p' s :: l := hll
      simp only [List.cons.injEq, Ev.clean.injEq] at hll'
      obtain ⟨⟨rfl, rfl⟩, rfl⟩ := hll'
      obtain ⟨c1, c2, c, c3⟩ := hl.cache (by rw [hpc]; rfl)
      obtain ⟨t1, t2, t, t3⟩ := hl.ht (by rw [hpc]; rfl)
      obtain ⟨k1, k2, k, k3⟩ := hl.cht (by rw [hpc]; rfl)
      obtain ⟨i1, i2⟩ := hl.info (by simp [hpc])
      have hfi := hl.filled (by simp [hpc])
      have hcv : w.val .cache = c := by simp [World.val, c3]
      have htv : w.val .ht = t := by simp [World.val, t3]
      have hkv : w.val .cht = k := by simp [World.val, k3]
      refine ⟨rfl, ⟨x.names.filter (· ∈ x.att), rfl, by simp [i1, i2], by simp [c1, c2], by simp [t1, t2], by simp [k1, k2], hfi, ?_, ?_, ?_, ?_⟩, ?_, ?_⟩
      · show w.segs .cache = _; rw [c3, hcv]
      · show w.segs .ht = _; rw [t3, htv]
      · show w.segs .cht = _; rw [k3, hkv]
      · intro p' d i l' hl'
        obtain ⟨-, hn, s1, s2, s3, s4⟩ := h.safe (by rw [hpc]; rfl) p' d i l' hl'
        refine ⟨s1, s2, s3, ?_, ?_⟩
        · intro hid; rw [s4]; simp only at hid; simp [hid]
        · intro hid
          simp only at hid
          obtain ⟨j1, j2, j, j3⟩ := hl.idx (by rw [hpc]; rfl) hn hid
          exact ⟨j, by rw [s4]; simp [hid, World.val, j3], by simp [j1, j2], j3⟩
      · intro n hn
        rcases hn with h | h | h | h <;> subst h <;> assumption
      · intro p' d i l' hl' hid
        obtain ⟨-, hn, -⟩ := h.safe (by rw [hpc]; rfl) p' d i l' hl'
        exact (hl.idx (by rw [hpc]; rfl) hn hid).2.1
    · rename_i hok
      rw [if_neg hok]
      rw [put_proc] at hx'; cases hx'
      refine ⟨fun a => (by cases a), fun _ a => (by cases a), fun a => (by cases a), ?_⟩
      intro _ p' s l hll
      exact absurd hll (hh p' s l)
  case sdUnlock =>
    rw [put_proc] at hx'; cases hx'
    refine ⟨fun a => (by cases a), fun _ a => (by cases a), fun a => (by cases a), ?_⟩
    intro _ p' s l hll
    obtain ⟨a, ⟨b⟩, c⟩ := h.late (by rw [hpc]; rfl) p' s l hll
    exact ⟨a, ⟨b⟩, c⟩
  case sdClean => rw [gone_proc] at hx'; cases hx'
  case sdNvm =>
    split at hx'
    · rename_i hok
      rw [if_pos hok]
      rw [put_proc] at hx'; cases hx'
      refine h.carry rfl ?_ ?_ ?_ ?_ <;> simp [hpc, PC.late, PC.closing]
    · rename_i hok
      rw [if_neg hok]
      rw [put_proc] at hx'; cases hx'
      refine h.carry rfl ?_ ?_ ?_ ?_ <;> simp [hpc, PC.late, PC.closing]
  all_goals
    rw [put_proc] at hx'; cases hx'
    refine h.carry rfl ?_ ?_ ?_ ?_ <;> cases hn : x.cfg.nvm <;> cases hn : x.cfg.attach <;> simp [hpc, PC.late, PC.closing]

end

theorem go_cfg {w : World} {p : Nat} {x x' : Proc} {ok : Bool} {v : Nat} (hx : w.proc p = some x)
    (hx' : (w.go p x ok v).proc p = some x') : x'.cfg = x.cfg := by
  have hm : ∀ (w0 : World) (y : Proc) n u c, (w0.make p y n u c).proc p = some x' → x'.cfg = y.cfg := by
    intro w0 y n u c h
    rw [make_proc h]; exact afterCreate_cfg _ _ _
  have hr : (w.resetNvm p x v).proc p = some x' → x'.cfg = x.cfg := by
    intro h
    unfold World.resetNvm at h
    dsimp only at h
    split at h
    · rw [hm _ _ _ _ _ h]
    · rw [put_proc] at h; cases h; rfl
  unfold World.go at hx'
  unfold World.initNvm at hx'
  repeat' split at hx'
  all_goals first
    | exact absurd hx' unwind_proc
    | exact absurd hx' refused_proc
    | exact hm _ _ _ _ _ hx'
    | exact hr hx'
    | (rw [gone_proc] at hx'; cases hx'; done)
    | (rw [hx] at hx'; cases hx'; rfl)
    | (simp only [World.say] at hx'; rw [put_proc] at hx'; cases hx'; first | rfl | exact afterRemove_cfg _ _ _ | exact afterCreate_cfg _ _ _)
    | (rw [put_proc] at hx'; cases hx'; first | rfl | exact afterRemove_cfg _ _ _ | exact afterCreate_cfg _ _ _)

/-- Events that are neither starts nor what the claims are about. -/
def Ev.plain : Ev → Bool
  | .wrote .. | .wroteNvm .. | .env => true
  | _ => false

theorem go_log (w : World) (p : Nat) (x : Proc) (ok : Bool) (v : Nat) :
    (∃ es, (w.go p x ok v).log = es ++ w.log ∧ ∀ e ∈ es, e.plain = true) ∨
    (x.pc = .attCht ∧ ∃ u, w.canAttach x .cht = some u ∧ (w.go p x ok v).log = .attached p x.snap (x.seen.1, x.seen.2.1, u) :: w.log) ∨
    (x.pc = .nvmInit ∧ x.fresh = false ∧ ∃ d i, w.navy = some (d, i) ∧
      ((i = none ∧ (w.go p x ok v).log = .nvmRecovered p (d, i) (w.dev, none) :: w.log) ∨
       ∃ j u, i = some j ∧ w.canAttach x .idx = some u ∧ (w.go p x ok v).log = .nvmRecovered p (d, i) (w.dev, some u) :: w.log)) ∨
    (∃ d i, (w.go p x ok v).log = .nvmSafe p d i :: w.log) ∨
    (∃ s, (w.go p x ok v).log = .clean p s :: w.log) ∨
    ((w.go p x ok v).log = .over p :: w.log ∧ (w.go p x ok v).proc p = none) := by
  have reset : ∃ es, (w.resetNvm p x v).log = es ++ w.log ∧ ∀ e ∈ es, e.plain = true := by
    unfold World.resetNvm
    dsimp only
    split
    · exact ⟨[.wrote p .idx v, .wroteNvm p v], rfl, by simp [Ev.plain]⟩
    · exact ⟨[.wroteNvm p v], rfl, by simp [Ev.plain]⟩
  have e0 : ∀ w' : World, w'.log = w.log → ∃ es, w'.log = es ++ w.log ∧ ∀ e ∈ es, e.plain = true :=
    fun w' h => ⟨[], h, by simp⟩
  have e1 : ∀ (w' : World) e, w'.log = e :: w.log → e.plain = true → ∃ es, w'.log = es ++ w.log ∧ ∀ e ∈ es, e.plain = true :=
    fun w' e h he => ⟨[e], h, by simp [he]⟩
  unfold World.go
  cases hpc : x.pc <;> dsimp only
  case attCht =>
    cases hc : w.canAttach x .cht with
    | none => cases ok <;> exact .inr (.inr (.inr (.inr (.inr ⟨rfl, gone_proc _ _⟩))))
    | some u =>
      cases ok
      · exact .inr (.inr (.inr (.inr (.inr ⟨rfl, gone_proc _ _⟩))))
      · exact .inr (.inl ⟨rfl, u, rfl, rfl⟩)
  case nvmInit =>
    unfold World.initNvm
    split
    · exact .inl reset
    rename_i hf
    have hf' : x.fresh = false := by
      cases hf' : x.fresh
      · rfl
      · exact absurd (.inl hf') hf
    cases hn : w.navy with
    | none => exact .inl (e1 _ _ rfl rfl)
    | some di =>
      obtain ⟨d, i⟩ := di
      dsimp only
      cases ok
      · exact .inl reset
      simp only [Bool.true_eq_false, if_false]
      cases x.cfg.idx <;> cases i <;> simp only [Bool.false_eq_true, if_false, if_true]
      · exact .inr (.inr (.inl ⟨by trivial, hf', d, none, rfl, .inl ⟨by trivial, rfl⟩⟩))
      · exact .inl reset
      · exact .inl reset
      · rename_i j
        cases hc : w.canAttach x .idx with
        | none => exact .inl reset
        | some u => exact .inr (.inr (.inl ⟨by trivial, hf', d, some j, rfl, .inr ⟨j, u, by trivial, by trivial, rfl⟩⟩))
  case sdMark2 => exact .inr (.inr (.inr (.inl ⟨_, _, rfl⟩)))
  case sdMeta2 =>
    split
    · exact .inl (e0 _ rfl)
    split
    · exact .inr (.inr (.inr (.inr (.inl ⟨_, rfl⟩))))
    · exact .inl (e0 _ rfl)
  all_goals
    (repeat' split) <;> first
      | exact .inl (e0 _ rfl)
      | exact .inl (e1 _ _ rfl rfl)
      | exact .inr (.inr (.inr (.inr (.inr ⟨rfl, gone_proc _ _⟩))))

/-- The lock after the process is over. -/
def World.freed (w : World) (p : Nat) : Option Nat := if w.lock = some p then none else w.lock

/-- A process that ends. -/
theorem go_ends (w : World) (p : Nat) (x : Proc) (ok : Bool) (v : Nat) (hx : w.proc p = some x) (hx' : (w.go p x ok v).proc p = none) :
    (w.go p x ok v).log = .over p :: w.log ∧ (w.go p x ok v).lock = w.freed p ∧
      (∀ q, (w.go p x ok v).proc q = if q = p then none else w.proc q) ∧
      (x.pc.late = true → (w.go p x ok v).md = w.md ∧ (w.go p x ok v).nvmFile = w.nvmFile ∧ (w.go p x ok v).dev = w.dev ∧
        (w.go p x ok v).navy = w.navy ∧ ∀ n, n ∈ x.att → (w.go p x ok v).segs n = w.segs n) := by
  have hpt : ∀ (w0 : World) y, (w0.put p y).proc p ≠ none := fun w0 y h => by rw [put_proc] at h; cases h
  have hmk : ∀ (w0 : World) y n u c, (w0.make p y n u c).proc p ≠ none := fun w0 y n u c => hpt _ _
  have hr : (w.resetNvm p x v).proc p ≠ none := by
    unfold World.resetNvm
    dsimp only
    split
    · exact hmk _ _ _ _ _
    · exact hpt _ _
  revert hx'
  unfold World.go World.initNvm
  cases hpc : x.pc
  case sdClean =>
    intro _
    refine ⟨rfl, rfl, fun _ => rfl, fun _ => ⟨rfl, rfl, rfl, rfl, ?_⟩⟩
    intro n hn
    simp [World.gone, World.setProc, World.removeAll, hn]
  all_goals
    dsimp only
    (repeat' split) <;> first
      | exact fun h => absurd h hr
      | exact fun h => absurd h (hpt _ _)
      | exact fun h => absurd h (hmk _ _ _ _ _)
      | exact fun _ => ⟨rfl, rfl, fun _ => rfl, nofun⟩
      | (intro h; rw [hx] at h; cases h)

/-- The lock is held by a process that runs. -/
theorem go_lockI {w : World} {p : Nat} {x : Proc} {ok : Bool} {v : Nat} (h : ∀ q, w.lock = some q → w.proc q ≠ none)
    (q : Nat) (hq : (w.go p x ok v).lock = some q) : (w.go p x ok v).proc q ≠ none := by
  have hg : ∀ w0 : World, (∀ q, w0.lock = some q → w0.proc q ≠ none) → ∀ q, (w0.gone p).lock = some q → (w0.gone p).proc q ≠ none := by
    intro w0 h0 q hq
    simp only [World.gone] at hq
    split at hq
    · cases hq
    · rename_i hn
      rw [gone_other w0 p q (fun e => hn (by rw [← e]; exact hq))]
      exact h0 q hq
  have hpt : ∀ (w0 : World) y q, (w0.lock = some q → q = p ∨ w.proc q ≠ none) → w0.proc = w.proc → (w0.put p y).lock = some q → (w0.put p y).proc q ≠ none := by
    intro w0 y q h0 he hq
    simp only [World.put, World.setProc] at hq ⊢
    split
    · simp
    · rename_i hne
      rw [he]
      rcases h0 hq with h1 | h1
      · exact absurd h1 hne
      · exact h1
  have hr : ∀ q, (w.resetNvm p x v).lock = some q → (w.resetNvm p x v).proc q ≠ none := by
    intro q hq
    unfold World.resetNvm at hq ⊢
    dsimp only at hq ⊢
    split at hq
    · rename_i hc; rw [if_pos hc]; exact hpt _ _ q (fun a => .inr (h q a)) rfl hq
    · rename_i hc; rw [if_neg hc]; exact hpt _ _ q (fun a => .inr (h q a)) rfl hq
  revert hq
  unfold World.go World.initNvm
  repeat' split
  all_goals first
    | exact hr q
    | exact fun hq => hg _ h q hq
    | exact fun hq => h q hq
    | exact fun hq => hpt _ _ q (fun a => .inr (h q a)) rfl hq
    | exact fun hq => hpt _ _ q (fun a => .inl (Option.some.inj a).symm) rfl hq
    | exact fun hq => hpt _ _ q (fun a => by cases a) rfl hq

/-- What holds of serial histories, with what is left by processes that are over. -/
structure LInv (w : World) : Prop where
  s : SInv w
  lp : ∀ p x, w.proc p = some x → LP w x
  hp : ∀ p x, w.proc p = some x → HP w p x
  lock : ∀ q, w.lock = some q → w.proc q ≠ none
  startLt : ∀ p c, .start p c ∈ w.log → p < w.next
  attLt : ∀ p s f, .attached p s f ∈ w.log → p < w.next
  cfg : ∀ p x, w.proc p = some x → .start p x.cfg ∈ w.log ∧ ∀ c, .start p c ∈ w.log → c = x.cfg
  att : ∀ p x s f, w.proc p = some x → .attached p s f ∈ w.log → x.cfg.attach = true
  ended : ∀ p p' s l, w.log = .over p :: .clean p' s :: l → p' = p ∧ (∀ q, w.proc q = none) ∧
    ∃ c, .start p c ∈ l ∧ (∀ c', .start p c' ∈ l → c' = c) ∧ Left w c s l

theorem LInv.none_of {w : World} (h : LInv w) {p : Nat} {x : Proc} (hx : w.proc p = some x) (q : Nat) (hq : q ≠ p) : w.proc q = none := by
  cases hy : w.proc q with
  | none => rfl
  | some y => exact absurd (h.s.one q p (by simp [hy]) (by simp [hx])) hq

/-- The process is over after a step in which segments that it did not attach may be removed. -/
theorem LInv.gone {w w' : World} (h : LInv w) (hs : SInv w') {p : Nat} {x : Proc} (hx : w.proc p = some x)
    (hl : w'.log = .over p :: w.log) (hn : w'.next = w.next) (hlk : w'.lock = w.freed p)
    (hp : ∀ q, w'.proc q = if q = p then none else w.proc q)
    (hse : x.pc.late = true → w'.md = w.md ∧ w'.nvmFile = w.nvmFile ∧ w'.dev = w.dev ∧ w'.navy = w.navy ∧ ∀ n, n ∈ x.att → w'.segs n = w.segs n) : LInv w' := by
  have hno : ∀ q, w'.proc q = none := by
    intro q
    rw [hp]
    split
    · rfl
    · rename_i hq; exact h.none_of hx q hq
  refine ⟨hs, ?_, ?_, ?_, ?_, ?_, ?_, ?_, ?_⟩
  · intro q y hy; rw [hno] at hy; cases hy
  · intro q y hy; rw [hno] at hy; cases hy
  · intro q hq
    rw [hlk] at hq
    unfold World.freed at hq
    split at hq
    · cases hq
    · rename_i hne
      have := h.lock q hq
      exact absurd (h.none_of hx q (fun e => hne (by rw [← e]; exact hq))) this
  · intro q c hq; rw [hl] at hq; rw [hn]; exact h.startLt q c (by simpa using hq)
  · intro q s f hq; rw [hl] at hq; rw [hn]; exact h.attLt q s f (by simpa using hq)
  · intro q y hy; rw [hno] at hy; cases hy
  · intro q y _ _ hy; rw [hno] at hy; cases hy
  · intro q q' s l hll
    rw [hl] at hll
    obtain ⟨h1, h2⟩ := List.cons.inj hll
    cases h1
    cases hlate : x.pc.late
    · exact absurd h2 ((h.hp p x hx).head hlate q' s l)
    · obtain ⟨e, ⟨ns, m1, m2, m3, m4, m5, m6, m7, m8, m9, m10⟩, a1, a2⟩ := (h.hp p x hx).late hlate q' s l h2
      obtain ⟨k1, k2, k3, k4, k5⟩ := hse hlate
      obtain ⟨c1, c2⟩ := h.cfg p x hx
      rw [h2] at c1 c2
      refine ⟨e, hno, x.cfg, by simpa using c1, fun c' hc' => c2 c' (List.mem_cons_of_mem _ hc'), ns, by rw [k1]; exact m1, m2, m3, m4, m5, ?_, ?_, ?_, ?_, ?_⟩
      · rw [k5 _ (a1 _ (by simp))]; exact m6
      · rw [k5 _ (a1 _ (by simp))]; exact m7
      · rw [k5 _ (a1 _ (by simp))]; exact m8
      · rw [k5 _ (a1 _ (by simp))]; exact m9
      · intro r d i l' hl'
        obtain ⟨n1, n2, n3, n4, n5⟩ := m10 r d i l' hl'
        refine ⟨by rw [k2]; exact n1, by rw [k3]; exact n2, by rw [k4]; exact n3, n4, ?_⟩
        intro hid
        rw [k5 _ (a2 r d i l' hl' hid)]
        exact n5 hid

/-- A step of a process that goes on. -/
theorem LInv.goes {w w' : World} (h : LInv w) (hs : SInv w') {p : Nat} {x x' : Proc} (hx : w.proc p = some x) (hx' : w'.proc p = some x')
    (ho : ∀ q, q ≠ p → w'.proc q = w.proc q) (hn : w'.next = w.next) (hlk : ∀ q, w'.lock = some q → w'.proc q ≠ none)
    (hc : x'.cfg = x.cfg) (hlp : LP w' x') (hhp : HP w' p x')
    (hl : ∃ es, w'.log = es ++ w.log ∧ (∀ q c, Ev.start q c ∉ es) ∧ (∀ q, Ev.over q ∉ es) ∧ (∀ q s f, Ev.attached q s f ∈ es → q = p ∧ x.cfg.attach = true)) : LInv w' := by
  obtain ⟨es, hl, he1, he3, he2⟩ := hl
  have hst : ∀ q c, Ev.start q c ∈ w'.log ↔ Ev.start q c ∈ w.log := by
    intro q c; rw [hl]; simp [he1]
  have hone : ∀ q y, w'.proc q = some y → q = p ∧ y = x' := by
    intro q y hy
    have hq : q = p := Classical.byContradiction fun hq => by rw [ho q hq, h.none_of hx q hq] at hy; cases hy
    subst hq
    rw [hx'] at hy; cases hy; exact ⟨rfl, rfl⟩
  have hatt : ∀ q s f, Ev.attached q s f ∈ w'.log → (q = p ∧ x.cfg.attach = true) ∨ Ev.attached q s f ∈ w.log := by
    intro q s f hq; rw [hl] at hq
    rcases List.mem_append.1 hq with h' | h'
    · exact .inl (he2 _ _ _ h')
    · exact .inr h'
  refine ⟨hs, ?_, ?_, hlk, ?_, ?_, ?_, ?_, ?_⟩
  · intro q y hy; obtain ⟨rfl, rfl⟩ := hone q y hy; exact hlp
  · intro q y hy; obtain ⟨rfl, rfl⟩ := hone q y hy; exact hhp
  · intro q c hq; rw [hn]; exact h.startLt q c ((hst q c).1 hq)
  · intro q s f hq; rw [hn]
    rcases hatt q s f hq with h' | h'
    · rw [h'.1]; exact h.s.lt p (by simp [hx])
    · exact h.attLt q s f h'
  · intro q y hy
    obtain ⟨rfl, rfl⟩ := hone q y hy
    obtain ⟨c1, c2⟩ := h.cfg q x hx
    exact ⟨(hst _ _).2 (hc ▸ c1), fun c hcc => by rw [hc]; exact c2 c ((hst _ _).1 hcc)⟩
  · intro q y s f hy hq
    obtain ⟨rfl, rfl⟩ := hone q y hy
    rw [hc]
    rcases hatt q s f hq with h' | h'
    · exact h'.2
    · exact h.att q x s f hx h'
  · intro q q' s l hll
    cases es with
    | nil =>
      have hll' : w.log = .over q :: .clean q' s :: l := by rw [← hll, hl]; rfl
      obtain ⟨-, h2, -⟩ := h.ended q q' s l hll'
      rw [h2 p] at hx; cases hx
    | cons e es =>
      exfalso
      rw [hl] at hll
      obtain ⟨h1, h2⟩ := List.cons.inj hll
      subst h1
      exact he3 q (by simp)

theorem plain_ok {es : List Ev} (h : ∀ e ∈ es, e.plain = true) : (∀ q c, Ev.start q c ∉ es) ∧ (∀ q, Ev.over q ∉ es) ∧
    (∀ q s f, Ev.attached q s f ∉ es) :=
  ⟨fun _ _ hm => (nomatch h _ hm), fun _ hm => (nomatch h _ hm), fun _ _ _ hm => (nomatch h _ hm)⟩

theorem LInv.go {w : World} (h : LInv w) {p : Nat} {x : Proc} {ok : Bool} {v : Nat} (hx : w.proc p = some x) (hs : SInv (w.go p x ok v)) :
    LInv (w.go p x ok v) := by
  have hlog := go_log w p x ok v
  cases hx' : (w.go p x ok v).proc p with
  | some x' =>
    refine h.goes hs hx hx' (fun q hq => go_other _ _ _ _ _ _ hq) (go_next _ _ _ _ _) (go_lockI h.lock) (go_cfg hx hx')
      (lp_go (h.lp p x hx) (h.s.proc p x hx) hx hx') (hp_go (h.hp p x hx) (h.lp p x hx) (h.s.proc p x hx) hx hx') ?_
    rcases hlog with ⟨es, h1, h2⟩ | ⟨h1, u, -, h2⟩ | ⟨-, -, d, i, -, ⟨-, h2⟩ | ⟨j, u, -, -, h2⟩⟩ | ⟨d, i, h2⟩ | ⟨s, h2⟩ | ⟨-, h2⟩
    · obtain ⟨a, b, c⟩ := plain_ok h2
      exact ⟨es, h1, a, b, fun q s f hm => absurd hm (c q s f)⟩
    · refine ⟨[_], h2, by simp, by simp, ?_⟩
      intro q s f hm
      simp at hm
      exact ⟨hm.1, (h.lp p x hx).attCfg (by rw [h1]; rfl)⟩
    · exact ⟨[_], h2, by simp, by simp, by simp⟩
    · exact ⟨[_], h2, by simp, by simp, by simp⟩
    · exact ⟨[_], h2, by simp, by simp, by simp⟩
    · exact ⟨[_], h2, by simp, by simp, by simp⟩
    · rw [h2] at hx'; cases hx'
  | none =>
    rcases go_ends w p x ok v hx hx' with ⟨h1, h2, h3, h4⟩
    exact h.gone hs hx h1 (go_next _ _ _ _ _) h2 h3 h4

/-- A step that only adds an event that is neither a start, an end nor an attach, and leaves the process. -/
theorem LInv.same {w w' : World} (h : LInv w) (hs : SInv w') (hp : w'.proc = w.proc) (hn : w'.next = w.next) (hlk : w'.lock = w.lock)
    (hlp : ∀ p x, w.proc p = some x → LP w' x) {e : Ev} (hl : w'.log = e :: w.log) (he : e.plain = true) : LInv w' := by
  have hst : ∀ q c, Ev.start q c ∈ w'.log ↔ Ev.start q c ∈ w.log := by
    intro q c; rw [hl]; cases e <;> simp [Ev.plain] at he ⊢
  have hat : ∀ q s f, Ev.attached q s f ∈ w'.log ↔ Ev.attached q s f ∈ w.log := by
    intro q s f; rw [hl]; cases e <;> simp [Ev.plain] at he ⊢
  refine ⟨hs, by rw [hp]; exact hlp, ?_, by rw [hlk, hp]; exact h.lock, ?_, ?_, ?_, ?_, ?_⟩
  · intro p x _
    exact HP.fresh hl (by intro _ _ e'; rw [e'] at he; cases he) (by intro _ _ _ e'; rw [e'] at he; cases he)
  · intro q c hq; rw [hn]; exact h.startLt q c ((hst q c).1 hq)
  · intro q s f hq; rw [hn]; exact h.attLt q s f ((hat q s f).1 hq)
  · intro q x hx; rw [hp] at hx
    exact ⟨(hst _ _).2 (h.cfg q x hx).1, fun c hc => (h.cfg q x hx).2 c ((hst _ _).1 hc)⟩
  · intro q x s f hx hq; rw [hp] at hx; exact h.att q x s f hx ((hat _ _ _).1 hq)
  · intro q q' s l hll
    rw [hl] at hll
    rw [(List.cons.inj hll).1] at he; cases he

theorem LP.segs {w w' : World} {x : Proc} (h : LP w x) (hn : ∀ n, n ≠ .info → (∃ v, w.segs n = some (.data v)) → ∃ v, w'.segs n = some (.data v))
    (hf : x.pc = .sdMeta ∨ x.pc = .sdMeta2 → w'.segs = w.segs) : LP w' x := by
  have hh : ∀ n, n ≠ .info → Held w x n → Held w' x n := fun n hni hd => ⟨hd.1, hd.2.1, hn n hni hd.2.2⟩
  refine ⟨fun a => hh _ (by decide) (h.cache a), fun a => hh _ (by decide) (h.ht a), fun a => hh _ (by decide) (h.cht a),
    fun a b c => hh _ (by decide) (h.idx a b c), h.info, ?_, h.ready, h.attCfg⟩
  intro a
  have := h.filled a
  simp only [World.val, hf a] at this ⊢
  exact this

theorem LInv.exec {w w' : World} (h : LInv w) (a : Act) (hst : ∀ c, a = .start c → ∀ q, w.proc q = none) (he : w.exec a = some w') :
    LInv w' := by
  have hs := h.s.exec a hst he
  cases a with
  | start c =>
    have hno := hst c rfl
    simp only [World.exec, Option.some.injEq] at he
    have hx : w'.proc w.next = some { cfg := c } := by rw [← he]; exact put_proc _ _ _
    have hl : w'.log = .start w.next c :: w.log := by rw [← he]; rfl
    have hn : w'.next = w.next + 1 := by rw [← he]; rfl
    have ho : ∀ q y, w'.proc q = some y → q = w.next ∧ y = { cfg := c } := by
      intro q y hq
      have hq' := hq
      rw [← he] at hq
      simp only [World.say, World.put, World.setProc] at hq
      split at hq
      · rename_i e; cases hq; exact ⟨e, rfl⟩
      · rw [hno q] at hq; cases hq
    refine ⟨hs, ?_, ?_, ?_, ?_, ?_, ?_, ?_, ?_⟩
    · intro q y hy; obtain ⟨rfl, rfl⟩ := ho q y hy
      constructor <;> simp [PC.hasCache, PC.hasHt, PC.all, PC.hasIdx, PC.attaching]
    · intro q y hy; exact HP.fresh hl nofun nofun
    · intro q hq
      have : w.lock = some q := by rw [← he] at hq; exact hq
      exact absurd (hno q) (h.lock q this)
    · intro q c' hq
      rw [hl] at hq; rw [hn]
      rcases List.mem_cons.1 hq with e | e
      · cases e; exact Nat.lt_succ_self _
      · exact Nat.lt_succ_of_lt (h.startLt q c' e)
    · intro q s f hq
      rw [hl] at hq; rw [hn]
      exact Nat.lt_succ_of_lt (h.attLt q s f (by simpa using hq))
    · intro q y hy
      obtain ⟨rfl, rfl⟩ := ho q y hy
      rw [hl]
      refine ⟨by simp, ?_⟩
      intro c' hc'
      rcases List.mem_cons.1 hc' with e | e
      · cases e; rfl
      · exact absurd (h.startLt _ _ e) (Nat.lt_irrefl _)
    · intro q y s f hy hq
      obtain ⟨rfl, rfl⟩ := ho q y hy
      rw [hl] at hq
      exact absurd (h.attLt _ s f (by simpa using hq)) (Nat.lt_irrefl _)
    · intro q q' s l hll
      rw [hl] at hll; cases (List.cons.inj hll).1
  | go p ok v =>
    simp only [World.exec] at he
    cases hx : w.proc p with
    | none => simp [hx] at he
    | some x =>
      simp only [hx, Option.some.injEq] at he
      subst he
      exact h.go hx hs
  | crash p =>
    simp only [World.exec] at he
    cases hx : w.proc p with
    | none => simp [hx] at he
    | some x =>
      simp only [hx, Option.some.injEq] at he
      subst he
      exact h.gone hs hx rfl rfl rfl (fun _ => rfl) (fun _ => ⟨rfl, rfl, rfl, rfl, fun _ _ => rfl⟩)
  | fail p =>
    simp only [World.exec] at he
    cases hx : w.proc p with
    | none => simp [hx] at he
    | some x =>
      simp only [hx] at he
      have h1 : x.pc.late = false → some (w.refused p x) = some w' → LInv w' := by
        intro hl he; cases he
        exact h.gone hs hx rfl rfl rfl (fun _ => rfl) (fun a => by rw [hl] at a; cases a)
      have h2 : x.pc.late = false → some (w.unwind p x) = some w' → LInv w' := by
        intro hl he; cases he
        exact h.gone hs hx rfl rfl rfl (fun _ => rfl) (fun a => by rw [hl] at a; cases a)
      cases hpc : x.pc <;> simp only [hpc] at he <;>
        first | exact h1 (by rw [hpc]; rfl) he | exact h2 (by rw [hpc]; rfl) he | cases he
  | touch p n v =>
    simp only [World.exec] at he
    cases hx : w.proc p with
    | none => simp [hx] at he
    | some x =>
      simp only [hx] at he
      split at he
      · rename_i hc
        cases he
        refine h.same hs rfl rfl rfl ?_ rfl rfl
        intro q y hy
        have hq : q = p := Classical.byContradiction fun hq => by rw [h.none_of hx q hq] at hy; cases hy
        subst hq; rw [hx] at hy; cases hy
        refine (h.lp q x hx).segs ?_ ?_
        · intro m _ hm
          show ∃ u, (if m = n then some (.data v) else w.segs m) = some (.data u)
          split
          · exact ⟨_, rfl⟩
          · exact hm
        · intro hp; exfalso; have hu := hc.1; rcases hp with hp | hp <;> simp [hp, PC.usesRam] at hu
      · cases he
  | touchNvm p v i =>
    simp only [World.exec] at he
    cases hx : w.proc p with
    | none => simp [hx] at he
    | some x =>
      simp only [hx] at he
      split at he
      · rename_i hc
        cases he
        refine h.same hs rfl rfl rfl ?_ rfl rfl
        intro q y hy
        have hq : q = p := Classical.byContradiction fun hq => by rw [h.none_of hx q hq] at hy; cases hy
        subst hq; rw [hx] at hy; cases hy
        refine (h.lp q x hx).segs ?_ ?_
        · intro m _ hm
          show ∃ u, (if m = .idx then (if x.cfg.idx then some (.data i) else w.segs .idx) else w.segs m) = some (.data u)
          split
          · rename_i e; subst e
            split
            · exact ⟨_, rfl⟩
            · exact hm
          · exact hm
        · intro hp; exfalso; have hu := hc.1; rcases hp with hp | hp <;> simp [hp, PC.usesNvm] at hu
      · cases he
  | setDrop => cases he; exact h.same hs rfl rfl rfl (fun p x hx => (h.lp p x hx).segs (fun _ _ => id) (fun _ => rfl)) rfl rfl
  | setIce => cases he; exact h.same hs rfl rfl rfl (fun p x hx => (h.lp p x hx).segs (fun _ _ => id) (fun _ => rfl)) rfl rfl
  | delMeta => cases he; exact h.same hs rfl rfl rfl (fun p x hx => (h.lp p x hx).segs (fun _ _ => id) (fun _ => rfl)) rfl rfl
  | reboot k1 k2 =>
    simp only [World.exec, Option.some.injEq] at he
    have hp : ∀ q, w'.proc q = none := by intro q; rw [← he]; rfl
    have hl : w'.log = .env :: w.log := by rw [← he]; rfl
    have hn : w'.next = w.next := by rw [← he]; rfl
    refine ⟨hs, ?_, ?_, ?_, ?_, ?_, ?_, ?_, ?_⟩
    · intro q y hy; rw [hp] at hy; cases hy
    · intro q y hy; rw [hp] at hy; cases hy
    · intro q hq; rw [← he] at hq; cases hq
    · intro q c hq; rw [hl] at hq; rw [hn]; exact h.startLt q c (by simpa using hq)
    · intro q s f hq; rw [hl] at hq; rw [hn]; exact h.attLt q s f (by simpa using hq)
    · intro q y hy; rw [hp] at hy; cases hy
    · intro q y s f hy; rw [hp] at hy; cases hy
    · intro q q' s l hll; rw [hl] at hll; cases (List.cons.inj hll).1

theorem serial_linv {w : World} (h : Serial w) : LInv w := by
  induction h with
  | init =>
    refine ⟨serial_inv .init, ?_, ?_, ?_, ?_, ?_, ?_, ?_, ?_⟩ <;> simp
  | step a _ h1 h2 ih => exact ih.exec a h1 h2

end Verif.WarmRestart
