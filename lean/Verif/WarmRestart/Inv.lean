/-
What holds of every serial history of the warm restart model.
-/
import Verif.WarmRestart.Model

namespace Verif.WarmRestart

/-- The last clean shutdown, if no segment of the RAM cache was written since. -/
def lastRam : List Ev → Option (Nat × Nat × Nat × Nat)
  | [] => none
  | .wrote _ .cache _ :: _ => none
  | .wrote _ .ht _ :: _ => none
  | .wrote _ .cht _ :: _ => none
  | .clean p s :: _ => some (p, s)
  | _ :: l => lastRam l

/-- The last time that the NVM cache was marked safe, if it was not written since. -/
def lastNvm : List Ev → Option (Nat × Nat × Option Nat)
  | [] => none
  | .wroteNvm _ _ :: _ => none
  | .wrote _ .idx _ :: _ => none
  | .nvmSafe p d i :: _ => some (p, d, i)
  | _ :: l => lastNvm l

structure Saved (w : World) (q : Nat) (s : Nat × Nat × Nat) : Prop where
  ram : lastRam w.log = some (q, s)
  info : w.segs .info = none ∨ w.segs .info = some (.info s.1 s.2.1 s.2.2)
  cache : w.segs .cache = none ∨ w.segs .cache = some (.data s.1)
  ht : w.segs .ht = none ∨ w.segs .ht = some (.data s.2.1)
  cht : w.segs .cht = none ∨ w.segs .cht = some (.data s.2.2)

structure NSaved (w : World) (q d : Nat) (i : Option Nat) : Prop where
  nvm : lastNvm w.log = some (q, d, i)
  dev : w.dev = d
  navy : w.navy = some (d, i)
  idx : ∀ j, i = some j → w.segs .idx = none ∨ w.segs .idx = some (.data j)

/-- The NVM cache is as `q` left it. -/
def RecBy (w : World) (q : Nat) : Prop := ∃ d i, NSaved w q d i
/-- If the NVM cache is marked safe, it is as `q` left it. -/
def SafeBy (w : World) (q : Nat) : Prop := ∀ f, w.nvmFile = .safe f → RecBy w q
/-- The RAM cache is as some process left it, who left the NVM cache too. -/
def Kept (w : World) : Prop := ∃ q s, Saved w q s ∧ SafeBy w q
def Closed (w : World) : Prop := ∀ b l, w.md ≠ .names b l
def Unsafe (w : World) : Prop := ∀ f, w.nvmFile ≠ .safe f

/-- Global part. -/
structure Glob (w : World) : Prop where
  typ : ∀ n, n ≠ .info → w.segs n = none ∨ ∃ v, w.segs n = some (.data v)
  md : Closed w ∨ Kept w
  nvm : Unsafe w ∨ ∃ q, RecBy w q

def PC.named : PC → Bool | .lock | .trunc | .attInfo => true | _ => false
def PC.att : PC → Bool | .attCache | .attHt | .attCht => true | _ => false
def PC.early : PC → Bool | .read | .lock | .trunc => true | _ => false
def PC.late : PC → Bool | .sdUnlock | .sdClean => true | _ => false
def PC.cold : PC → Bool | .nvmRead | .nvmTrunc | .nvmInit => true | _ => false
def PC.opened : PC → Bool
  | .nvmInit | .nvmClear | .workers | .rmInfo | .run | .sdNvm | .sdMark | .sdMark2 => true
  | _ => false
def PC.closing : PC → Bool | .sdInfo | .sdFill | .sdMeta | .sdMeta2 | .half => true | _ => false

/-- Part about the process. -/
structure PInv (w : World) (p : Nat) (x : Proc) : Prop where
  named : x.pc.named = true → .info ∈ x.names → Kept w
  att : x.pc.att = true → (∃ q, Saved w q x.snap ∧ SafeBy w q) ∧
    (x.pc = .attHt → x.seen.1 = x.snap.1) ∧ (x.pc = .attCht → x.seen.1 = x.snap.1 ∧ x.seen.2.1 = x.snap.2.1)
  cold : x.pc.cold = true → x.cfg.attach = true → ∃ q s, lastRam w.log = some (q, s) ∧ SafeBy w q ∧
    ((x.pc = .nvmTrunc ∨ x.pc = .nvmInit) → x.fresh = false → RecBy w q)
  fresh : (x.pc = .nvmTrunc ∨ x.pc = .nvmInit) → x.fresh = false → ∃ q, RecBy w q
  opened : x.pc.opened = true → Unsafe w
  closed : x.pc.early = false → x.pc.late = false → Closed w
  closing : x.pc.closing = true → SafeBy w p
  mark : (x.pc = .sdMark ∨ x.pc = .sdMark2) →
    w.navy = some (w.dev, if x.cfg.idx then some (w.val .idx) else none)
  filled : (x.pc = .sdMeta ∨ x.pc = .sdMeta2) →
    w.segs .info = none ∨ w.segs .info = some (.info (w.val .cache) (w.val .ht) (w.val .cht))
  nvm : x.pc = .nvmInit ∨ x.pc = .sdNvm ∨ x.pc = .sdMark ∨ x.pc = .sdMark2 → x.cfg.nvm = true
  anew : x.pc = .mkCache ∨ x.pc = .mkHt ∨ x.pc = .mkCht → x.cfg.attach = false

theorem go_other (w : World) (p : Nat) (x : Proc) (ok : Bool) (v : Nat) (q : Nat) (h : q ≠ p) :
    (w.go p x ok v).proc q = w.proc q := by
  unfold World.go
  split <;> (repeat' split) <;> simp [World.put, World.setProc, World.refused, World.gone, World.unwind, World.removeAll, World.make,
    World.say, World.setSeg, h, World.initNvm, World.resetNvm] <;> (repeat' split) <;> simp [h]

theorem saved_mono {w w' : World} {q s} (h : Saved w q s) (hl : lastRam w'.log = lastRam w.log)
    (hs : ∀ n, n ≠ .idx → w'.segs n = none ∨ w'.segs n = w.segs n) : Saved w' q s := by
  obtain ⟨h1, h2, h3, h4, h5⟩ := h
  have a := hs .info (by decide); have b := hs .cache (by decide); have c := hs .ht (by decide); have d := hs .cht (by decide)
  exact ⟨by rw [hl]; exact h1, by grind, by grind, by grind, by grind⟩

theorem nsaved_mono {w w' : World} {q d i} (h : NSaved w q d i) (hl : lastNvm w'.log = lastNvm w.log)
    (hd : w'.dev = w.dev) (hn : w'.navy = w.navy)
    (hs : w'.segs .idx = none ∨ w'.segs .idx = w.segs .idx) : NSaved w' q d i := by
  obtain ⟨h1, h2, h3, h4⟩ := h
  exact ⟨by rw [hl]; exact h1, by rw [hd]; exact h2, by rw [hn]; exact h3, by grind⟩

def Keep (w : World) (p : Nat) (w' : World) : Prop := Glob w' ∧ ∀ x', w'.proc p = some x' → PInv w' p x'

/-- Steps that write nothing but files. -/
structure Quiet (w w' : World) : Prop where
  ram : lastRam w'.log = lastRam w.log
  nvm : lastNvm w'.log = lastNvm w.log
  dev : w'.dev = w.dev
  navy : w'.navy = w.navy
  segs : ∀ n, w'.segs n = none ∨ w'.segs n = w.segs n

theorem Quiet.saved {w w' : World} (h : Quiet w w') {q s} (hs : Saved w q s) : Saved w' q s := saved_mono hs h.ram (fun n _ => h.segs n)
theorem Quiet.nsaved {w w' : World} (h : Quiet w w') {q d i} (hs : NSaved w q d i) : NSaved w' q d i :=
  nsaved_mono hs h.nvm h.dev h.navy (h.segs _)

theorem Quiet.recBy {w w' : World} (h : Quiet w w') {q} (hs : RecBy w q) : RecBy w' q :=
  hs.imp fun _ hd => hd.imp fun _ hi => h.nsaved hi

/-- A file is left or is no longer valid. -/
structure Files (w w' : World) : Prop where
  md : w'.md = w.md ∨ Closed w'
  nvm : w'.nvmFile = w.nvmFile ∨ Unsafe w'

theorem Quiet.safeBy {w w' : World} (h : Quiet w w') (k : Files w w') {q} (hs : SafeBy w q) : SafeBy w' q := by
  intro f hf
  rcases k.nvm with e | e
  · exact h.recBy (hs f (e ▸ hf))
  · exact absurd hf (e f)

theorem Quiet.kept {w w' : World} (h : Quiet w w') (k : Files w w') (hs : Kept w) : Kept w' := by
  obtain ⟨q, s, h1, h2⟩ := hs
  exact ⟨q, s, h.saved h1, h.safeBy k h2⟩

theorem Quiet.glob {w w' : World} (h : Quiet w w') (k : Files w w') (g : Glob w) : Glob w' := by
  refine ⟨?_, ?_, ?_⟩
  · intro n hn
    have := g.typ n hn; have := h.segs n
    grind
  · rcases k.md with e | e
    · rcases g.md with hm | hm
      · left; intro b l hb; rw [e] at hb; exact hm b l hb
      · exact .inr (h.kept k hm)
    · exact .inl e
  · rcases k.nvm with e | e
    · rcases g.nvm with hm | ⟨q, hm⟩
      · left; intro f hf; rw [e] at hf; exact hm f hf
      · exact .inr ⟨q, h.recBy hm⟩
    · exact .inl e

theorem Glob.safe {w : World} (g : Glob w) {f} (h : w.nvmFile = .safe f) : ∃ q, RecBy w q := by
  rcases g.nvm with h' | h'
  · exact absurd h (h' f)
  · exact h'

theorem closed_of {w w' : World} (h : Closed w) (e : w'.md = w.md) : Closed w' := by
  intro b l hb; rw [e] at hb; exact h b l hb

theorem unsafe_of {w w' : World} (h : Unsafe w) (e : w'.nvmFile = w.nvmFile) : Unsafe w' := by
  intro b hb; rw [e] at hb; exact h b hb

theorem afterRemove_cfg (x : Proc) (w : World) (n : Name) : (x.afterRemove w n).cfg = x.cfg := by
  unfold Proc.afterRemove; split <;> rfl

theorem afterCreate_cfg (x : Proc) (w : World) (n : Name) : (x.afterCreate w n).cfg = x.cfg := afterRemove_cfg x w n

theorem gone_proc (w : World) (p : Nat) : (w.gone p).proc p = none := by simp [World.gone, World.setProc]

theorem keep_gone {w w' : World} {p : Nat} (g : Glob w') (h : w'.proc p = none) : Keep w p w' :=
  ⟨g, fun x' hx => by rw [h] at hx; cases hx⟩

theorem keep_refused {w : World} {p : Nat} {x : Proc} (g : Glob w) (m : Meta) (hm : m = w.md ∨ ∀ b l, m ≠ .names b l) :
    Keep w p (({ w with md := m } : World).refused p x) := by
  refine keep_gone (Quiet.glob (w := w) ⟨?_, ?_, rfl, rfl, fun n => .inr rfl⟩ ⟨hm, .inl rfl⟩ g) (gone_proc _ _) <;>
    simp [World.refused, World.gone, World.setProc, lastRam, lastNvm]

theorem keep_unwind {w : World} {p : Nat} {x : Proc} (g : Glob w) : Keep w p (w.unwind p x) := by
  refine keep_gone (Quiet.glob (w := w) ⟨?_, ?_, rfl, rfl, fun n => ?_⟩ ⟨.inl rfl, .inl rfl⟩ g) (gone_proc _ _) <;>
    simp [World.unwind, World.removeAll, World.gone, World.setProc, lastRam, lastNvm]
  by_cases h : n ∈ x.names <;> simp [h]

theorem keep_put {w w' : World} {p : Nat} {x' : Proc} (q : Quiet w w') (k : Files w w') (g : Glob w)
    (h3 : w'.proc p = some x') (h4 : PInv w' p x') : Keep w p w' :=
  ⟨q.glob k g, fun y hy => by rw [h3] at hy; cases hy; exact h4⟩

theorem put_proc (w : World) (p : Nat) (x : Proc) : (w.put p x).proc p = some x := by simp [World.put, World.setProc]

theorem quiet_same {w w' : World} (h1 : w'.log = w.log) (h2 : w'.dev = w.dev) (h3 : w'.navy = w.navy) (h4 : w'.segs = w.segs) :
    Quiet w w' := ⟨by rw [h1], by rw [h1], h2, h3, fun n => .inr (by rw [h4])⟩

macro "phases" : tactic => `(tactic|
  (constructor <;> simp [-Prod.exists, -exists_and_right, -exists_and_left, PC.named, PC.att, PC.cold, PC.opened, PC.early, PC.late, PC.closing] <;> try done))

section
variable {w : World} {p : Nat} {x : Proc} {ok : Bool} {v : Nat} (g : Glob w) (hp : PInv w p x)
include g hp

theorem go_read (hpc : x.pc = .read) : Keep w p (w.go p x ok v) := by
  unfold World.go
  simp only [hpc]
  cases hm : w.md with
  | absent =>
    dsimp only
    split
    · refine keep_put (quiet_same rfl rfl rfl rfl) ⟨.inr nofun, .inl rfl⟩ g (put_proc _ _ _) ?_
      cases hc : x.cfg.attach <;> phases <;> first | exact hc | nofun
    · exact keep_refused g _ (.inr nofun)
  | empty =>
    refine keep_put (quiet_same rfl rfl rfl rfl) ⟨.inl rfl, .inl rfl⟩ g (put_proc _ _ _) ?_
    phases
  | torn =>
    dsimp only
    split
    · refine keep_put (quiet_same rfl rfl rfl rfl) ⟨.inl rfl, .inl rfl⟩ g (put_proc _ _ _) ?_
      phases
    · exact keep_refused g w.md (.inl rfl)
  | names b l =>
    dsimp only
    split
    · refine keep_put (quiet_same rfl rfl rfl rfl) ⟨.inl rfl, .inl rfl⟩ g (put_proc _ _ _) ?_
      phases
    split
    · exact keep_refused g w.md (.inl rfl)
    · have q : Quiet w (w.put p { x with names := l, pc := .lock }) := quiet_same rfl rfl rfl rfl
      refine keep_put q ⟨.inl rfl, .inl rfl⟩ g (put_proc _ _ _) ?_
      have hh : Kept _ := (q.glob ⟨.inl rfl, .inl rfl⟩ g).md.resolve_left (fun h => h b l hm)
      phases
      exact fun _ => hh

theorem go_lock (hpc : x.pc = .lock) : Keep w p (w.go p x ok v) := by
  unfold World.go
  simp only [hpc]
  split
  · have q : Quiet w (({ w with lock := some p } : World).put p { x with pc := .trunc }) := quiet_same rfl rfl rfl rfl
    have k : Files w (({ w with lock := some p } : World).put p { x with pc := .trunc }) := ⟨.inl rfl, .inl rfl⟩
    refine keep_put q k g (put_proc _ _ _) ?_
    have h1 := hp.named (by rw [hpc]; rfl)
    phases
    exact fun hi => q.kept k (h1 hi)
  · exact keep_refused g w.md (.inl rfl)

theorem go_trunc (hpc : x.pc = .trunc) : Keep w p (w.go p x ok v) := by
  unfold World.go
  simp only [hpc]
  have h1 := hp.named (by rw [hpc]; rfl)
  generalize hz : ({ w with md := .empty, drop := if x.dropping then false else w.drop } : World).put p
      { x with pc := if x.cfg.attach then .attInfo else .mkCache } = z
  have q : Quiet w z := by subst hz; exact quiet_same rfl rfl rfl rfl
  have hcl : Closed z := by subst hz; nofun
  have k : Files w z := by subst hz; exact ⟨.inr nofun, .inl rfl⟩
  refine keep_put q k g (by rw [← hz]; exact put_proc _ _ _) ?_
  cases hc : x.cfg.attach <;> phases
  · exact hcl
  · exact hc
  · exact fun hi => q.kept k (h1 hi)
  · exact hcl

theorem go_attInfo (hpc : x.pc = .attInfo) : Keep w p (w.go p x ok v) := by
  unfold World.go
  simp only [hpc]
  split
  · rename_i hn
    split
    · rename_i c h t hi
      obtain ⟨q', s, hs, hf⟩ := hp.named (by rw [hpc]; rfl) hn.1
      generalize hz : w.put p { x with snap := (c, h, t), att := .info :: x.att, pc := .attCache } = z
      have q : Quiet w z := by subst hz; exact quiet_same rfl rfl rfl rfl
      have k : Files w z := by subst hz; exact ⟨.inl rfl, .inl rfl⟩
      refine keep_put q k g (by rw [← hz]; exact put_proc _ _ _) ?_
      have hcl : Closed z := closed_of (hp.closed (by rw [hpc]; rfl) (by rw [hpc]; rfl)) (by rw [← hz]; rfl)
      have he : s = (c, h, t) := by
        have := hs.info; rw [hi] at this; simp at this
        obtain ⟨s1, s2, s3⟩ := s; simp at this ⊢; grind
      subst he
      phases
      · exact ⟨_, q.saved hs, q.safeBy k hf⟩
      · exact hcl
    · exact keep_unwind g
  · exact keep_unwind g

omit g hp in
theorem canAttach_some {n : Name} {u : Nat} (h : w.canAttach x n = some u) : n ∈ x.names ∧ w.segs n = some (.data u) := by
  unfold World.canAttach at h
  split at h
  · split at h
    · rename_i h0 _ _ h'; cases h; exact ⟨h0, h'⟩
    · cases h
  · cases h

theorem go_attCache (hpc : x.pc = .attCache) : Keep w p (w.go p x ok v) := by
  unfold World.go
  simp only [hpc]
  cases hc : w.canAttach x .cache with
  | none => cases ok <;> exact keep_unwind g
  | some u =>
    cases ok
    · exact keep_unwind g
    dsimp only
    generalize hz : w.put p { x with seen := (u, 0, 0), att := .cache :: x.att, pc := .attHt } = z
    have q : Quiet w z := by subst hz; exact quiet_same rfl rfl rfl rfl
    have k : Files w z := by subst hz; exact ⟨.inl rfl, .inl rfl⟩
    refine keep_put q k g (by rw [← hz]; exact put_proc _ _ _) ?_
    have hcl : Closed z := closed_of (hp.closed (by rw [hpc]; rfl) (by rw [hpc]; rfl)) (by rw [← hz]; rfl)
    obtain ⟨⟨q', hs, hf⟩, -⟩ := hp.att (by rw [hpc]; rfl)
    have he := hs.cache; rw [(canAttach_some hc).2] at he; simp at he
    phases
    · exact ⟨⟨_, q.saved hs, q.safeBy k hf⟩, he⟩
    · exact hcl

theorem go_attHt (hpc : x.pc = .attHt) : Keep w p (w.go p x ok v) := by
  unfold World.go
  simp only [hpc]
  cases hc : w.canAttach x .ht with
  | none => cases ok <;> exact keep_unwind g
  | some u =>
    cases ok
    · exact keep_unwind g
    dsimp only
    generalize hz : w.put p { x with seen := (x.seen.1, u, 0), att := .ht :: x.att, pc := .attCht } = z
    have q : Quiet w z := by subst hz; exact quiet_same rfl rfl rfl rfl
    have k : Files w z := by subst hz; exact ⟨.inl rfl, .inl rfl⟩
    refine keep_put q k g (by rw [← hz]; exact put_proc _ _ _) ?_
    have hcl : Closed z := closed_of (hp.closed (by rw [hpc]; rfl) (by rw [hpc]; rfl)) (by rw [← hz]; rfl)
    obtain ⟨⟨q', hs, hf⟩, h1, -⟩ := hp.att (by rw [hpc]; rfl)
    have he := hs.ht; rw [(canAttach_some hc).2] at he; simp at he
    phases
    · exact ⟨⟨_, q.saved hs, q.safeBy k hf⟩, h1 hpc, he⟩
    · exact hcl

theorem go_attCht (hpc : x.pc = .attCht) : Keep w p (w.go p x ok v) := by
  unfold World.go
  simp only [hpc]
  cases hc : w.canAttach x .cht with
  | none => cases ok <;> exact keep_unwind g
  | some u =>
    cases ok
    · exact keep_unwind g
    dsimp only
    generalize hz : (w.put p { x with seen := (x.seen.1, x.seen.2.1, u), att := .cht :: x.att, pc := .nvmRead }).say
        (.attached p x.snap (x.seen.1, x.seen.2.1, u)) = z
    have q : Quiet w z := by subst hz; exact ⟨rfl, rfl, rfl, rfl, fun n => .inr rfl⟩
    have k : Files w z := by subst hz; exact ⟨.inl rfl, .inl rfl⟩
    refine keep_put q k g (by rw [← hz]; exact put_proc _ _ _) ?_
    have hcl : Closed z := closed_of (hp.closed (by rw [hpc]; rfl) (by rw [hpc]; rfl)) (by rw [← hz]; rfl)
    obtain ⟨⟨q', hs, hf⟩, -⟩ := hp.att (by rw [hpc]; rfl)
    phases
    · intro _
      exact ⟨_, _, (q.saved hs).ram, q.safeBy k hf⟩
    · exact hcl

omit hp in
/-- Writing a data segment of the RAM cache while there is no metadata. -/
theorem keep_wroteRam {w' : World} {n : Name} {u : Nat} (hn : n ≠ .info ∧ n ≠ .idx)
    (hcl : Closed w) (h1 : w'.md = w.md) (h2 : w'.nvmFile = w.nvmFile) (h3 : w'.dev = w.dev) (h4 : w'.navy = w.navy)
    (h5 : w'.segs = fun m => if m = n then some (.data u) else w.segs m) (h6 : w'.log = .wrote p n u :: w.log) :
    Glob w' ∧ ∀ q, SafeBy w q → SafeBy w' q := by
  have hns : ∀ q, RecBy w q → RecBy w' q := fun q ⟨d, i, h⟩ => by
    refine ⟨d, i, nsaved_mono h ?_ h3 h4 (.inr ?_)⟩
    · rw [h6]; cases n <;> simp [lastNvm] at hn ⊢
    · rw [h5]; simp [Ne.symm hn.2]
  refine ⟨⟨?_, .inl (closed_of hcl h1), ?_⟩, fun q h f hf => hns q (h f (h2 ▸ hf))⟩
  · intro m hm
    rw [h5]
    by_cases h : m = n
    · simp [h]
    · simpa [h] using g.typ m hm
  · rcases g.nvm with h | ⟨q, h⟩
    · exact .inl (unsafe_of h h2)
    · exact .inr ⟨q, hns _ h⟩

theorem go_mkCache (hpc : x.pc = .mkCache) : Keep w p (w.go p x ok v) := by
  unfold World.go
  simp only [hpc]
  have hcl := hp.closed (by rw [hpc]; rfl) (by rw [hpc]; rfl)
  have hw := keep_wroteRam (w' := w.make p x .cache v .mkHt) (p := p) (n := .cache) (u := v) g (by decide) hcl rfl rfl rfl rfl rfl rfl
  refine ⟨hw.1, ?_⟩
  intro x' hx'
  simp [World.make, World.say, World.put, World.setProc] at hx'
  subst hx'
  phases
  · exact hcl
  · rw [afterCreate_cfg]; exact hp.anew (by simp [hpc])

theorem go_mkHt (hpc : x.pc = .mkHt) : Keep w p (w.go p x ok v) := by
  unfold World.go
  simp only [hpc]
  have hcl := hp.closed (by rw [hpc]; rfl) (by rw [hpc]; rfl)
  have hw := keep_wroteRam (w' := w.make p x .ht v .mkCht) (p := p) (n := .ht) (u := v) g (by decide) hcl rfl rfl rfl rfl rfl rfl
  refine ⟨hw.1, ?_⟩
  intro x' hx'
  simp [World.make, World.say, World.put, World.setProc] at hx'
  subst hx'
  phases
  · exact hcl
  · rw [afterCreate_cfg]; exact hp.anew (by simp [hpc])

theorem go_mkCht (hpc : x.pc = .mkCht) : Keep w p (w.go p x ok v) := by
  unfold World.go
  simp only [hpc]
  have hcl := hp.closed (by rw [hpc]; rfl) (by rw [hpc]; rfl)
  have hw := keep_wroteRam (w' := w.make p x .cht v .nvmRead) (p := p) (n := .cht) (u := v) g (by decide) hcl rfl rfl rfl rfl rfl rfl
  refine ⟨hw.1, ?_⟩
  intro x' hx'
  simp [World.make, World.say, World.put, World.setProc] at hx'
  subst hx'
  have hm := hp.anew (by simp [hpc])
  phases
  · intro ha; simp [Proc.afterCreate, Proc.afterRemove] at ha; split at ha <;> simp_all
  · exact hcl

theorem go_nvmRead (hpc : x.pc = .nvmRead) : Keep w p (w.go p x ok v) := by
  unfold World.go
  simp only [hpc]
  generalize hz : w.put p { x with fresh := w.ice || decide (w.nvmFile ≠ .safe x.cfg.fmt), pc := .nvmTrunc } = z
  have q : Quiet w z := by subst hz; exact quiet_same rfl rfl rfl rfl
  have k : Files w z := by subst hz; exact ⟨.inl rfl, .inl rfl⟩
  have hnv : z.nvmFile = w.nvmFile := by rw [← hz]; rfl
  refine keep_put q k g (by rw [← hz]; exact put_proc _ _ _) ?_
  have hcl : Closed z := closed_of (hp.closed (by rw [hpc]; rfl) (by rw [hpc]; rfl)) (by rw [← hz]; rfl)
  phases
  · intro ha
    obtain ⟨q', s, h1, h2, -⟩ := hp.cold (by rw [hpc]; rfl) ha
    exact ⟨q', s, by rw [q.ram]; exact h1, q.safeBy k h2, fun _ h => q.safeBy k h2 _ (hnv.trans h)⟩
  · intro _ h
    obtain ⟨q', h'⟩ := g.safe h
    exact ⟨q', q.recBy h'⟩
  · exact hcl

theorem go_nvmTrunc (hpc : x.pc = .nvmTrunc) : Keep w p (w.go p x ok v) := by
  unfold World.go
  simp only [hpc]
  generalize hz : ({ w with nvmFile := .empty } : World).put p { x with pc := if x.cfg.nvm then .nvmInit else .workers } = z
  have q : Quiet w z := by subst hz; exact quiet_same rfl rfl rfl rfl
  have hu : Unsafe z := by subst hz; nofun
  have k : Files w z := by subst hz; exact ⟨.inl rfl, .inr nofun⟩
  refine keep_put q k g (by rw [← hz]; exact put_proc _ _ _) ?_
  have hcl : Closed z := closed_of (hp.closed (by rw [hpc]; rfl) (by rw [hpc]; rfl)) (by rw [← hz]; rfl)
  cases hn : x.cfg.nvm <;> phases
  · exact hu
  · exact hcl
  · intro ha
    obtain ⟨q', s, h1, h2, h3⟩ := hp.cold (by rw [hpc]; rfl) ha
    exact ⟨q', s, by rw [q.ram]; exact h1, q.safeBy k h2, fun h => q.recBy (h3 (.inl hpc) h)⟩
  · intro h
    obtain ⟨q', h'⟩ := hp.fresh (.inl hpc) h
    exact ⟨q', q.recBy h'⟩
  · exact hu
  · exact hcl
  · exact hn

/-- The process writes to the NVM cache, while it is not marked safe and there is no metadata. -/
theorem keep_wroteNvm {w' : World} {pc : PC} (hpc : pc = .nvmClear) {x' : Proc} (hx : x'.pc = pc) (hcl : Closed w) (hu : Unsafe w)
    (h1 : w'.md = w.md) (h2 : w'.nvmFile = w.nvmFile) (h3 : w'.segs = w.segs ∨ ∃ u, w'.segs = fun m => if m = .idx then some (.data u) else w.segs m)
    (h4 : w'.proc p = some x') : Keep w p w' := by
  subst hpc
  refine ⟨⟨?_, .inl (closed_of hcl h1), .inl (unsafe_of hu h2)⟩, ?_⟩
  · intro m hm
    rcases h3 with h3 | ⟨u, h3⟩
    · rw [h3]; exact g.typ m hm
    · rw [h3]
      by_cases h : m = .idx
      · simp [h]
      · simpa [h] using g.typ m hm
  · intro y hy
    rw [h4] at hy; cases hy
    have := closed_of hcl h1
    have := unsafe_of hu h2
    constructor <;> simp [hx, PC.named, PC.att, PC.cold, PC.opened, PC.early, PC.late, PC.closing] <;> assumption

theorem keep_resetNvm (hpc : x.pc = .nvmInit) : Keep w p (w.resetNvm p x v) := by
  have hcl := hp.closed (by rw [hpc]; rfl) (by rw [hpc]; rfl)
  have hu := hp.opened (by rw [hpc]; rfl)
  unfold World.resetNvm
  dsimp only
  split
  · exact keep_wroteNvm g hp (x' := _) rfl rfl hcl hu rfl rfl (.inr ⟨v, rfl⟩) (put_proc _ _ _)
  · exact keep_wroteNvm g hp (x' := _) rfl rfl hcl hu rfl rfl (.inl rfl) (put_proc _ _ _)

theorem go_nvmInit (hpc : x.pc = .nvmInit) : Keep w p (w.go p x ok v) := by
  have hcl := hp.closed (by rw [hpc]; rfl) (by rw [hpc]; rfl)
  have hu := hp.opened (by rw [hpc]; rfl)
  unfold World.go
  simp only [hpc]
  unfold World.initNvm
  split
  · exact keep_resetNvm g hp hpc
  cases w.navy with
  | none => exact keep_wroteNvm g hp (x' := _) rfl rfl hcl hu rfl rfl (.inl rfl) (put_proc _ _ _)
  | some di =>
    obtain ⟨d, i⟩ := di
    dsimp only
    split
    · exact keep_resetNvm g hp hpc
    split
    · cases i with
      | none => exact keep_resetNvm g hp hpc
      | some j =>
        cases w.canAttach x .idx with
        | none => exact keep_resetNvm g hp hpc
        | some u => exact keep_wroteNvm g hp (x' := _) rfl rfl hcl hu rfl rfl (.inl rfl) (put_proc _ _ _)
    · cases i with
      | none => exact keep_wroteNvm g hp (x' := _) rfl rfl hcl hu rfl rfl (.inl rfl) (put_proc _ _ _)
      | some j => exact keep_resetNvm g hp hpc

theorem go_nvmClear (hpc : x.pc = .nvmClear) : Keep w p (w.go p x ok v) := by
  unfold World.go
  simp only [hpc]
  generalize hz : ({ w with ice := false, nvmFile := .empty } : World).put p { x with pc := .workers } = z
  have hu : Unsafe z := by subst hz; nofun
  refine keep_put (w' := z) (by subst hz; exact quiet_same rfl rfl rfl rfl) (by subst hz; exact ⟨.inl rfl, .inr nofun⟩) g (by rw [← hz]; exact put_proc _ _ _) ?_
  have hcl : Closed z := closed_of (hp.closed (by rw [hpc]; rfl) (by rw [hpc]; rfl)) (by rw [← hz]; rfl)
  phases <;> assumption

theorem go_workers (hpc : x.pc = .workers) : Keep w p (w.go p x ok v) := by
  unfold World.go
  simp only [hpc]
  generalize hz : w.put p { x with pc := .rmInfo } = z
  have hu : Unsafe z := unsafe_of (hp.opened (by rw [hpc]; rfl)) (by rw [← hz]; rfl)
  refine keep_put (w' := z) (by subst hz; exact quiet_same rfl rfl rfl rfl) (by subst hz; exact ⟨.inl rfl, .inl rfl⟩) g (by rw [← hz]; exact put_proc _ _ _) ?_
  have hcl : Closed z := closed_of (hp.closed (by rw [hpc]; rfl) (by rw [hpc]; rfl)) (by rw [← hz]; rfl)
  phases <;> assumption

theorem go_rmInfo (hpc : x.pc = .rmInfo) : Keep w p (w.go p x ok v) := by
  unfold World.go
  simp only [hpc]
  generalize hz : (w.setSeg .info none).put p { x.afterRemove w .info with pc := .run } = z
  have hu : Unsafe z := unsafe_of (hp.opened (by rw [hpc]; rfl)) (by rw [← hz]; rfl)
  have q : Quiet w z := by
    subst hz
    refine ⟨rfl, rfl, rfl, rfl, fun n => ?_⟩
    by_cases h : n = .info <;> simp [World.put, World.setProc, World.setSeg, h]
  refine keep_put (w' := z) q (by subst hz; exact ⟨.inl rfl, .inl rfl⟩) g (by rw [← hz]; exact put_proc _ _ _) ?_
  have hcl : Closed z := closed_of (hp.closed (by rw [hpc]; rfl) (by rw [hpc]; rfl)) (by rw [← hz]; rfl)
  phases <;> assumption

theorem go_run (hpc : x.pc = .run) : Keep w p (w.go p x ok v) := by
  unfold World.go
  simp only [hpc]
  generalize hz : w.put p { x with pc := if x.cfg.nvm then .sdNvm else .sdInfo } = z
  have hu : Unsafe z := unsafe_of (hp.opened (by rw [hpc]; rfl)) (by rw [← hz]; rfl)
  refine keep_put (w' := z) (by subst hz; exact quiet_same rfl rfl rfl rfl) (by subst hz; exact ⟨.inl rfl, .inl rfl⟩) g (by rw [← hz]; exact put_proc _ _ _) ?_
  have hcl : Closed z := closed_of (hp.closed (by rw [hpc]; rfl) (by rw [hpc]; rfl)) (by rw [← hz]; rfl)
  cases hn : x.cfg.nvm <;> phases <;> first | assumption | exact fun f hf => absurd hf (hu f)

theorem go_sdNvm (hpc : x.pc = .sdNvm) : Keep w p (w.go p x ok v) := by
  unfold World.go
  simp only [hpc]
  have hn := hp.nvm (by simp [hpc])
  split
  · generalize hz : ({ w with navy := some (w.dev, if x.cfg.idx then some (w.val .idx) else none) } : World).put p { x with pc := .sdMark } = z
    have hu : Unsafe z := unsafe_of (hp.opened (by rw [hpc]; rfl)) (by rw [← hz]; rfl)
    have hcl : Closed z := closed_of (hp.closed (by rw [hpc]; rfl) (by rw [hpc]; rfl)) (by rw [← hz]; rfl)
    refine ⟨⟨by subst hz; exact g.typ, .inl hcl, .inl hu⟩, ?_⟩
    intro y hy
    rw [← hz, put_proc] at hy; cases hy
    phases
    · exact hu
    · exact hcl
    · subst hz; rfl
    · exact hn
  · generalize hz : ({ w with navy := none } : World).put p { x with pc := .sdInfo } = z
    have hu : Unsafe z := unsafe_of (hp.opened (by rw [hpc]; rfl)) (by rw [← hz]; rfl)
    have hcl : Closed z := closed_of (hp.closed (by rw [hpc]; rfl) (by rw [hpc]; rfl)) (by rw [← hz]; rfl)
    refine ⟨⟨by subst hz; exact g.typ, .inl hcl, .inl hu⟩, ?_⟩
    intro y hy
    rw [← hz, put_proc] at hy; cases hy
    phases
    · exact hcl
    · exact fun f hf => absurd hf (hu f)

theorem go_sdMark (hpc : x.pc = .sdMark) : Keep w p (w.go p x ok v) := by
  unfold World.go
  simp only [hpc]
  have hn := hp.nvm (by simp [hpc])
  have hm := hp.mark (by simp [hpc])
  generalize hz : ({ w with nvmFile := .torn } : World).put p { x with pc := .sdMark2 } = z
  have hu : Unsafe z := by subst hz; nofun
  have hcl : Closed z := closed_of (hp.closed (by rw [hpc]; rfl) (by rw [hpc]; rfl)) (by rw [← hz]; rfl)
  refine keep_put (w' := z) (by subst hz; exact quiet_same rfl rfl rfl rfl) (by subst hz; exact ⟨.inl rfl, .inr nofun⟩) g (by rw [← hz]; exact put_proc _ _ _) ?_
  phases
  · exact hu
  · exact hcl
  · subst hz; exact hm
  · exact hn

theorem go_sdMark2 (hpc : x.pc = .sdMark2) : Keep w p (w.go p x ok v) := by
  unfold World.go
  simp only [hpc]
  have hm := hp.mark (by simp [hpc])
  generalize hz : (({ w with nvmFile := .safe x.cfg.fmt } : World).put p { x with pc := .sdInfo }).say
      (.nvmSafe p w.dev (if x.cfg.idx then some (w.val .idx) else none)) = z
  have hcl : Closed z := closed_of (hp.closed (by rw [hpc]; rfl) (by rw [hpc]; rfl)) (by rw [← hz]; rfl)
  have hr : RecBy z p := by
    subst hz
    refine ⟨w.dev, if x.cfg.idx then some (w.val .idx) else none, rfl, rfl, hm, ?_⟩
    intro j hj
    split at hj
    · cases hj
      rcases g.typ .idx (by decide) with h | ⟨u, h⟩
      · exact .inl h
      · right; show w.segs .idx = _; rw [h]; simp [World.val, h]
    · cases hj
  refine ⟨⟨by subst hz; exact g.typ, .inl hcl, .inr ⟨p, hr⟩⟩, ?_⟩
  intro y hy
  rw [← hz] at hy; simp only [World.say] at hy; rw [put_proc] at hy; cases hy
  phases
  · exact hcl
  · exact fun _ _ => hr

theorem go_sdInfo (hpc : x.pc = .sdInfo) : Keep w p (w.go p x ok v) := by
  unfold World.go
  simp only [hpc]
  have hs := hp.closing (by rw [hpc]; rfl)
  split
  · generalize hz : (w.setSeg .info (some .torn)).put p { x.afterCreate w .info with pc := .sdFill } = z
    have hcl : Closed z := closed_of (hp.closed (by rw [hpc]; rfl) (by rw [hpc]; rfl)) (by rw [← hz]; rfl)
    have hr : ∀ q, RecBy w q → RecBy z q := fun q ⟨d, i, h⟩ => ⟨d, i, by subst hz; exact nsaved_mono h rfl rfl rfl (.inr rfl)⟩
    refine ⟨⟨?_, .inl hcl, ?_⟩, ?_⟩
    · intro n hn; subst hz; simpa [World.put, World.setProc, World.setSeg, hn] using g.typ n hn
    · rcases g.nvm with h | ⟨q, h⟩
      · left; exact unsafe_of h (by rw [← hz]; rfl)
      · exact .inr ⟨q, hr q h⟩
    intro y hy
    rw [← hz, put_proc] at hy; cases hy
    phases
    · exact hcl
    · intro f hf; exact hr _ (hs f (by rw [← hz] at hf; exact hf))
  · generalize hz : w.put p { x with pc := .half } = z
    have hcl : Closed z := closed_of (hp.closed (by rw [hpc]; rfl) (by rw [hpc]; rfl)) (by rw [← hz]; rfl)
    have q : Quiet w z := by subst hz; exact quiet_same rfl rfl rfl rfl
    have k : Files w z := by subst hz; exact ⟨.inl rfl, .inl rfl⟩
    refine keep_put (w' := z) q k g (by rw [← hz]; exact put_proc _ _ _) ?_
    phases
    · exact hcl
    · exact q.safeBy k hs

theorem go_sdFill (hpc : x.pc = .sdFill) : Keep w p (w.go p x ok v) := by
  unfold World.go
  simp only [hpc]
  have hs := hp.closing (by rw [hpc]; rfl)
  generalize hz : (w.setSeg .info (some (.info (w.val .cache) (w.val .ht) (w.val .cht)))).put p { x with pc := .sdMeta } = z
  have hcl : Closed z := closed_of (hp.closed (by rw [hpc]; rfl) (by rw [hpc]; rfl)) (by rw [← hz]; rfl)
  have hr : ∀ q, RecBy w q → RecBy z q := fun q ⟨d, i, h⟩ => ⟨d, i, by subst hz; exact nsaved_mono h rfl rfl rfl (.inr rfl)⟩
  refine ⟨⟨?_, .inl hcl, ?_⟩, ?_⟩
  · intro n hn; subst hz; simpa [World.put, World.setProc, World.setSeg, hn] using g.typ n hn
  · rcases g.nvm with h | ⟨q, h⟩
    · left; exact unsafe_of h (by rw [← hz]; rfl)
    · exact .inr ⟨q, hr q h⟩
  intro y hy
  rw [← hz, put_proc] at hy; cases hy
  phases
  · exact hcl
  · intro f hf; exact hr _ (hs f (by rw [← hz] at hf; exact hf))
  · right; subst hz; rfl

theorem go_sdMeta (hpc : x.pc = .sdMeta) : Keep w p (w.go p x ok v) := by
  unfold World.go
  simp only [hpc]
  have hs := hp.closing (by rw [hpc]; rfl)
  have hfi := hp.filled (by simp [hpc])
  split
  · refine keep_put (w := w) ⟨rfl, rfl, rfl, rfl, fun n => ?_⟩ ⟨.inl rfl, .inl rfl⟩ g (put_proc _ _ _) ?_
    · by_cases h : n ∈ x.names <;> simp [World.put, World.setProc, World.removeAll, h]
    · phases
  · generalize hz : ({ w with md := .torn } : World).put p { x with pc := .sdMeta2 } = z
    have hcl : Closed z := by subst hz; nofun
    have q : Quiet w z := by subst hz; exact quiet_same rfl rfl rfl rfl
    have k : Files w z := by subst hz; exact ⟨.inr nofun, .inl rfl⟩
    refine keep_put (w' := z) q k g (by rw [← hz]; exact put_proc _ _ _) ?_
    phases
    · exact hcl
    · exact q.safeBy k hs
    · subst hz; exact hfi

theorem go_sdMeta2 (hpc : x.pc = .sdMeta2) : Keep w p (w.go p x ok v) := by
  unfold World.go
  simp only [hpc]
  have hs := hp.closing (by rw [hpc]; rfl)
  have hfi := hp.filled (by simp [hpc])
  split
  · refine keep_put (w := w) (quiet_same rfl rfl rfl rfl) ⟨.inl rfl, .inl rfl⟩ g (put_proc _ _ _) ?_
    phases
  split
  · generalize hz : (({ w with md := .names x.cfg.posix (x.names.filter (· ∈ x.att)) } : World).put p { x with pc := .sdUnlock }).say
        (.clean p (w.val .cache, w.val .ht, w.val .cht)) = z
    have hr : ∀ q, RecBy w q → RecBy z q := fun q ⟨d, i, h⟩ => ⟨d, i, by subst hz; exact nsaved_mono h rfl rfl rfl (.inr rfl)⟩
    have hse : z.segs = w.segs := by subst hz; rfl
    have hd : ∀ n, n ≠ .info → w.segs n = none ∨ w.segs n = some (.data (w.val n)) := by
      intro n hn
      rcases g.typ n hn with h | ⟨u, h⟩
      · exact .inl h
      · right; simp [World.val, h]
    have hk : Kept z := by
      refine ⟨p, (w.val .cache, w.val .ht, w.val .cht), ⟨by subst hz; rfl, ?_, ?_, ?_, ?_⟩, ?_⟩
      · rw [hse]; exact hfi
      · rw [hse]; exact hd _ (by decide)
      · rw [hse]; exact hd _ (by decide)
      · rw [hse]; exact hd _ (by decide)
      · intro f hf; exact hr _ (hs f (by rw [← hz] at hf; exact hf))
    refine ⟨⟨by rw [hse]; exact g.typ, .inr hk, ?_⟩, ?_⟩
    · rcases g.nvm with h | ⟨q, h⟩
      · left; exact unsafe_of h (by rw [← hz]; rfl)
      · exact .inr ⟨q, hr q h⟩
    intro y hy
    rw [← hz] at hy; simp only [World.say] at hy; rw [put_proc] at hy; cases hy
    phases
  · refine keep_put (w := w) (quiet_same rfl rfl rfl rfl) ⟨.inl rfl, .inl rfl⟩ g (put_proc _ _ _) ?_
    phases

theorem go_sdUnlock (hpc : x.pc = .sdUnlock) : Keep w p (w.go p x ok v) := by
  unfold World.go
  simp only [hpc]
  refine keep_put (w := w) (quiet_same rfl rfl rfl rfl) ⟨.inl rfl, .inl rfl⟩ g (put_proc _ _ _) ?_
  phases

theorem go_sdClean (hpc : x.pc = .sdClean) : Keep w p (w.go p x ok v) := by
  unfold World.go
  simp only [hpc]
  refine keep_gone (Quiet.glob (w := w) ⟨rfl, rfl, rfl, rfl, fun n => ?_⟩ ⟨.inl rfl, .inl rfl⟩ g) (gone_proc _ _)
  simp only [World.gone, World.setProc, World.removeAll]
  split <;> simp

theorem go_keep (hpr : w.proc p = some x) : Keep w p (w.go p x ok v) := by
  cases hpc : x.pc with
  | half =>
    unfold World.go
    simp only [hpc]
    exact ⟨g, fun y hy => by rw [hpr] at hy; cases hy; exact hp⟩
  | read => exact go_read g hp hpc
  | lock => exact go_lock g hp hpc
  | trunc => exact go_trunc g hp hpc
  | attInfo => exact go_attInfo g hp hpc
  | attCache => exact go_attCache g hp hpc
  | attHt => exact go_attHt g hp hpc
  | attCht => exact go_attCht g hp hpc
  | mkCache => exact go_mkCache g hp hpc
  | mkHt => exact go_mkHt g hp hpc
  | mkCht => exact go_mkCht g hp hpc
  | nvmRead => exact go_nvmRead g hp hpc
  | nvmTrunc => exact go_nvmTrunc g hp hpc
  | nvmInit => exact go_nvmInit g hp hpc
  | nvmClear => exact go_nvmClear g hp hpc
  | workers => exact go_workers g hp hpc
  | rmInfo => exact go_rmInfo g hp hpc
  | run => exact go_run g hp hpc
  | sdNvm => exact go_sdNvm g hp hpc
  | sdMark => exact go_sdMark g hp hpc
  | sdMark2 => exact go_sdMark2 g hp hpc
  | sdInfo => exact go_sdInfo g hp hpc
  | sdFill => exact go_sdFill g hp hpc
  | sdMeta => exact go_sdMeta g hp hpc
  | sdMeta2 => exact go_sdMeta2 g hp hpc
  | sdUnlock => exact go_sdUnlock g hp hpc
  | sdClean => exact go_sdClean g hp hpc

omit g hp in
/-- The environment does something to files. -/
theorem PInv.files {w' : World} (h : PInv w p x) (q : Quiet w w') (k : Files w w') (hs : w'.segs = w.segs) : PInv w' p x := by
  refine ⟨?_, ?_, ?_, ?_, ?_, ?_, ?_, ?_, ?_, h.nvm, h.anew⟩
  · exact fun a b => q.kept k (h.named a b)
  · intro a
    obtain ⟨⟨q', h1, h2⟩, h3⟩ := h.att a
    exact ⟨⟨q', q.saved h1, q.safeBy k h2⟩, h3⟩
  · intro a b
    obtain ⟨q', s, h1, h2, h3⟩ := h.cold a b
    exact ⟨q', s, by rw [q.ram]; exact h1, q.safeBy k h2, fun c d => q.recBy (h3 c d)⟩
  · intro a b
    obtain ⟨q', h'⟩ := h.fresh a b
    exact ⟨q', q.recBy h'⟩
  · intro a
    rcases k.nvm with e | e
    · exact unsafe_of (h.opened a) e
    · exact e
  · intro a b
    rcases k.md with e | e
    · exact closed_of (h.closed a b) e
    · exact e
  · exact fun a => q.safeBy k (h.closing a)
  · intro a
    have := h.mark a
    simp only [World.val, hs, q.navy, q.dev] at this ⊢
    exact this
  · intro a
    have := h.filled a
    simp only [World.val, hs] at this ⊢
    exact this

theorem touch_keep (hpr : w.proc p = some x) {n : Name} (hu : x.pc.usesRam = true) (hn : n = .cache ∨ n = .ht ∨ n = .cht) :
    Keep w p ((w.setSeg n (some (.data v))).say (.wrote p n v)) := by
  have hcl := hp.closed (by revert hu; cases x.pc <;> simp [PC.usesRam, PC.early]) (by revert hu; cases x.pc <;> simp [PC.usesRam, PC.late])
  have hw := keep_wroteRam (w' := (w.setSeg n (some (.data v))).say (.wrote p n v)) (p := p) (n := n) (u := v) g
    (by rcases hn with h | h | h <;> subst h <;> decide) hcl rfl rfl rfl rfl rfl rfl
  refine ⟨hw.1, ?_⟩
  intro y hy
  have hy' : w.proc p = some y := hy
  rw [hpr] at hy'; cases hy'
  have hcl' := closed_of (w' := (w.setSeg n (some (.data v))).say (.wrote p n v)) hcl rfl
  have ho := hp.opened
  have hc := hp.closing
  have hnv := hp.nvm
  cases hpc : x.pc <;> simp [hpc, PC.usesRam] at hu <;>
    constructor <;> simp [hpc, PC.named, PC.att, PC.cold, PC.opened, PC.early, PC.late, PC.closing] <;>
    first
    | exact hcl'
    | exact unsafe_of (ho (by simp [hpc, PC.opened])) rfl
    | exact hw.2 _ (hc (by simp [hpc, PC.closing]))
    | exact hnv (by simp [hpc])

theorem touchNvm_keep (hpr : w.proc p = some x) {n : Name} {i : Nat} (hu : x.pc.usesNvm = true) :
    Keep w p ((({ w with dev := v } : World).setSeg .idx (if x.cfg.idx then some (.data i) else w.segs .idx)).say (.wroteNvm p v)) := by
  generalize hz : ((({ w with dev := v } : World).setSeg .idx (if x.cfg.idx then some (.data i) else w.segs .idx)).say (.wroteNvm p v)) = z
  have hcl : Closed z := closed_of (hp.closed (by revert hu; cases x.pc <;> simp [PC.usesNvm, PC.early]) (by revert hu; cases x.pc <;> simp [PC.usesNvm, PC.late])) (by rw [← hz]; rfl)
  have hun : Unsafe z := unsafe_of (hp.opened (by revert hu; cases x.pc <;> simp [PC.usesNvm, PC.opened])) (by rw [← hz]; rfl)
  refine ⟨⟨?_, .inl hcl, .inl hun⟩, ?_⟩
  · intro m hm
    subst hz
    have h1 := g.typ m hm
    by_cases h : m = .idx
    · subst h
      simp only [World.say, World.setSeg, if_true]
      split
      · exact .inr ⟨_, rfl⟩
      · exact h1
    · simpa [World.say, World.setSeg, h] using h1
  · intro y hy
    have hy' : w.proc p = some y := by rw [← hz] at hy; exact hy
    rw [hpr] at hy'; cases hy'
    have hnv := hp.nvm
    cases hpc : x.pc <;> simp [hpc, PC.usesNvm] at hu <;>
      constructor <;> simp [hpc, PC.named, PC.att, PC.cold, PC.opened, PC.early, PC.late, PC.closing] <;>
      first
      | exact hcl
      | exact hun
      | exact hnv (by simp [hpc])

end

/-- What holds of serial histories. -/
structure SInv (w : World) : Prop where
  one : ∀ p q, w.proc p ≠ none → w.proc q ≠ none → p = q
  lt : ∀ p, w.proc p ≠ none → p < w.next
  glob : Glob w
  proc : ∀ p x, w.proc p = some x → PInv w p x

theorem SInv.of_keep {w w' : World} {p : Nat} (h : SInv w) (k : Keep w p w') (hp : w.proc p ≠ none)
    (ho : ∀ q, q ≠ p → w'.proc q = w.proc q) (hn : w'.next = w.next) : SInv w' := by
  have hq : ∀ q, q ≠ p → w'.proc q = none := by
    intro q hqp
    rw [ho q hqp]
    cases hx : w.proc q with
    | none => rfl
    | some x => exact absurd (h.one q p (by simp [hx]) hp) hqp
  have hall : ∀ q, w'.proc q ≠ none → q = p := fun q h' => Classical.byContradiction fun hne => h' (hq q hne)
  refine ⟨fun a b ha hb => (hall a ha).trans (hall b hb).symm, ?_, k.1, ?_⟩
  · intro q hq'; rw [hall q hq', hn]; exact h.lt p hp
  · intro q x hx
    have := hall q (by simp [hx]); subst this
    exact k.2 x hx

theorem go_next (w : World) (p : Nat) (x : Proc) (ok : Bool) (v : Nat) : (w.go p x ok v).next = w.next := by
  unfold World.go
  split <;> (repeat' split) <;> simp [World.put, World.setProc, World.refused, World.gone, World.unwind, World.removeAll, World.make,
    World.say, World.setSeg, World.initNvm, World.resetNvm] <;> (repeat' split) <;> simp

theorem SInv.env {w w' : World} (h : SInv w) (q : Quiet w w') (k : Files w w') (hs : w'.segs = w.segs) (hp : w'.proc = w.proc)
    (hn : w'.next = w.next) : SInv w' :=
  ⟨by rw [hp]; exact h.one, by rw [hp, hn]; exact h.lt, q.glob k h.glob, fun p x hx => (h.proc p x (hp ▸ hx)).files q k hs⟩

theorem gone_other (w : World) (p q : Nat) (h : q ≠ p) : (w.gone p).proc q = w.proc q := by simp [World.gone, World.setProc, h]

theorem SInv.exec {w w' : World} (h : SInv w) (a : Act) (hst : ∀ c, a = .start c → ∀ q, w.proc q = none) (he : w.exec a = some w') :
    SInv w' := by
  cases a with
  | start c =>
    have hno := hst c rfl
    simp only [World.exec, Option.some.injEq] at he
    have hx : w'.proc w.next = some { cfg := c } := by rw [← he]; exact put_proc _ _ _
    have ho : ∀ q, w'.proc q ≠ none → q = w.next := by
      intro q hq
      rw [← he] at hq
      simp only [World.say, World.put, World.setProc] at hq
      split at hq
      · assumption
      · exact absurd (hno q) hq
    have q : Quiet w w' := by subst he; exact ⟨rfl, rfl, rfl, rfl, fun n => .inr rfl⟩
    have k : Files w w' := by subst he; exact ⟨.inl rfl, .inl rfl⟩
    refine ⟨fun a b ha hb => (ho a ha).trans (ho b hb).symm, ?_, q.glob k h.glob, ?_⟩
    · intro q hq; rw [ho q hq, ← he]; exact Nat.lt_succ_self _
    · intro q x hqx
      have := ho q (by simp [hqx]); subst this
      rw [hx] at hqx; cases hqx
      phases
  | go p ok v =>
    simp only [World.exec] at he
    cases hx : w.proc p with
    | none => simp [hx] at he
    | some x =>
      simp only [hx, Option.some.injEq] at he
      subst he
      exact h.of_keep (go_keep h.glob (h.proc p x hx) hx) (by simp [hx]) (fun q hq => go_other _ _ _ _ _ _ hq) (go_next _ _ _ _ _)
  | crash p =>
    simp only [World.exec] at he
    cases hx : w.proc p with
    | none => simp [hx] at he
    | some x =>
      simp only [hx, Option.some.injEq] at he
      subst he
      exact h.of_keep (keep_gone (Quiet.glob (w := w) ⟨rfl, rfl, rfl, rfl, fun n => .inr rfl⟩ ⟨.inl rfl, .inl rfl⟩ h.glob) (gone_proc _ _))
        (by simp [hx]) (fun q hq => gone_other _ _ _ hq) rfl
  | fail p =>
    simp only [World.exec] at he
    cases hx : w.proc p with
    | none => simp [hx] at he
    | some x =>
      simp only [hx] at he
      have h1 : some (w.refused p x) = some w' → SInv w' := by
        intro he; cases he
        exact h.of_keep (keep_refused h.glob w.md (.inl rfl)) (by simp [hx]) (fun q hq => gone_other _ _ _ hq) rfl
      have h2 : some (w.unwind p x) = some w' → SInv w' := by
        intro he; cases he
        exact h.of_keep (keep_unwind h.glob) (by simp [hx]) (fun q hq => gone_other _ _ _ hq) rfl
      cases hpc : x.pc <;> simp only [hpc] at he <;> first | exact h1 he | exact h2 he | cases he
  | touch p n v =>
    simp only [World.exec] at he
    cases hx : w.proc p with
    | none => simp [hx] at he
    | some x =>
      simp only [hx] at he
      split at he
      · rename_i hc
        cases he
        exact h.of_keep (touch_keep h.glob (h.proc p x hx) hx hc.1 hc.2) (by simp [hx]) (fun q hq => rfl) rfl
      · cases he
  | touchNvm p v i =>
    simp only [World.exec] at he
    cases hx : w.proc p with
    | none => simp [hx] at he
    | some x =>
      simp only [hx] at he
      split at he
      · rename_i hc
        cases he
        exact h.of_keep (touchNvm_keep (n := .idx) h.glob (h.proc p x hx) hx hc.1) (by simp [hx]) (fun q hq => rfl) rfl
      · cases he
  | setDrop => cases he; exact h.env ⟨rfl, rfl, rfl, rfl, fun n => .inr rfl⟩ ⟨.inl rfl, .inl rfl⟩ rfl rfl rfl
  | setIce => cases he; exact h.env ⟨rfl, rfl, rfl, rfl, fun n => .inr rfl⟩ ⟨.inl rfl, .inl rfl⟩ rfl rfl rfl
  | delMeta => cases he; exact h.env ⟨rfl, rfl, rfl, rfl, fun n => .inr rfl⟩ ⟨.inr nofun, .inl rfl⟩ rfl rfl rfl
  | reboot k1 k2 =>
    simp only [World.exec, Option.some.injEq] at he
    subst he
    refine ⟨fun p q hp => absurd rfl hp, fun p hp => absurd rfl hp, ?_, (by intro p x hx; cases hx)⟩
    refine Quiet.glob (w := w) ⟨rfl, rfl, rfl, rfl, fun n => .inl rfl⟩ ⟨?_, ?_⟩ h.glob
    · simp only [World.say]
      by_cases hk : k1 = true ∨ w.md = .absent
      · left; simp [hk]
      · right; intro b l; simp [hk]
    · simp only [World.say]
      by_cases hk : k2 = true ∨ w.nvmFile = .absent
      · left; simp [hk]
      · right; intro b; simp [hk]

theorem serial_inv {w : World} (h : Serial w) : SInv w := by
  induction h with
  | init => exact ⟨fun _ _ h => absurd rfl h, fun _ h => absurd rfl h, ⟨fun _ _ => .inl rfl, .inl (by intro b l h; cases h), .inl (by intro f h; cases h)⟩,
    by intro p x h; cases h⟩
  | step a _ h1 h2 ih => exact ih.exec a h1 h2

end Verif.WarmRestart
