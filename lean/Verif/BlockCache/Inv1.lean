import Verif.BlockCache.Model
/-
Invariants of the engine, part 1: slots, counters, flags and buffers.
-/
set_option linter.unusedSectionVars false
set_option linter.unusedSimpArgs false
namespace Verif.BlockCache
open Verif

section
variable {K V H : Type} [DecidableEq K] [DecidableEq V] [DecidableEq H]

/-- Slots, newest first, that fill [0, n) without gaps; each has the size of its entry. -/
def Contig (sz : K → V → Nat) : List (Alloc K V) → Nat → Prop
  | [], n => n = 0
  | a :: l, n => a.stop = n ∧ a.start < a.stop ∧ a.stop = a.start + sz a.slot.key a.slot.val ∧ Contig sz l a.start

/-- `x` holds region `r` open for reading, from the device iff `phys`. -/
def openOn (r : Nat) (phys : Bool) (x : Rd K V) : Bool :=
  match x.pc with
  | .opened _ r' _ p _ => r' == r && p == phys
  | .valid r' _ p _ => r' == r && p == phys
  | .failed r' p => r' == r && p == phys
  | .read r' _ p _ _ => r' == r && p == phys
  | .close r' p _ _ => r' == r && p == phys
  | _ => false

def Place.hasBuf : Place → Bool
  | .ra | .flWait | .flWrite | .flMark | .flDetach => true
  | _ => false

def Place.wr : Place → Bool
  | .ra | .flWait => true
  | _ => false

def Place.preFlush : Place → Bool
  | .clean | .ra | .flWait | .flWrite | .flMark => true
  | _ => false

def Place.cu : Place → Bool
  | .cuWait | .cuWalk _ | .cuMark | .cuDetach | .cuSeq | .cuReset => true
  | _ => false

/-- Invariants that hold whatever happens. -/
structure Inv0 (c : Cfg K V H) (s : St K V H) : Prop where
  contig : ∀ r, Contig c.sz (s.reg r).alloc (s.reg r).last
  bound : ∀ r, (s.reg r).last ≤ c.RS
  num : ∀ r, (s.reg r).num = (s.reg r).alloc.length

/-- Counters, flags, buffers, as long as no fault occurred. -/
structure Inv1 (s : St K V H) : Prop where
  nf : ∀ r, (s.place r).cu = false
  cW : ∀ r, (s.reg r).writers = s.ws.countP (fun w => w.rid == r)
  cP : ∀ r, (s.reg r).phys = s.rds.countP (openOn r true)
  cM : ∀ r, (s.reg r).inmem = s.rds.countP (openOn r false)
  wPl : ∀ w ∈ s.ws, (s.place w.rid).wr = true
  mPl : ∀ x ∈ s.rds, ∀ r, openOn r false x = true → (s.place r).hasBuf = true
  bufP : ∀ r, (s.reg r).buf.isSome = (s.place r).hasBuf
  flg : ∀ r, (s.place r).preFlush = true → (s.reg r).flushed = false
  flg2 : ∀ r, s.place r = .ra ∨ s.place r = .clean → (s.reg r).block = false ∧ (s.reg r).being = false ∧ (s.reg r).pend = false
  blk : ∀ r, (s.reg r).block = true ↔ s.place r = .rcDrain ∨ s.place r = .rcFree
  free : ∀ r, s.place r = .rcFree → ∀ x ∈ s.rds, ∀ p, openOn r p x = false
  oldP : ∀ w ∈ s.ws, ∀ a, w.old = some a → s.place a.1 = .rcBusy a.2
  oldU : s.ws.Pairwise (fun w w' => w.old = none ∨ w'.old = none ∨ w.old ≠ w'.old)

/-- Case analysis of a step. -/
macro "exec_cases" a:ident he:ident : tactic => `(tactic|
  (cases $a:ident <;> simp only [exec] at $he:ident <;> (repeat' split at $he:ident) <;>
    simp only [Option.some.injEq, reduceCtorEq] at $he:ident <;> subst $he:ident))

/-- Case analysis of a step, after `cases` on the action. -/
macro "exec_simp0" he:ident : tactic => `(tactic|
  (simp only [exec] at $he:ident <;> (repeat' split at $he:ident) <;>
    simp only [Option.some.injEq, reduceCtorEq] at $he:ident <;> subst $he:ident))

theorem allocate_spec {c : Cfg K V H} {g g' : Reg K V} {k : K} {v : V} {st : Nat} (h : allocate c g k v = some (g', st)) :
    0 < c.sz k v ∧ c.sz k v ≤ c.RS ∧ (g.last + c.sz k v) % 2 ^ 32 ≤ c.RS ∧ st = g.last ∧
    g' = { g with writers := g.writers + 1, last := (g.last + c.sz k v) % 2 ^ 32, num := g.num + 1,
                   alloc := ⟨g.last, (g.last + c.sz k v) % 2 ^ 32, ⟨k, v⟩⟩ :: g.alloc } := by
  unfold allocate Reg.openAndAllocate at h
  split at h
  · simp at h
  · split at h
    · simp only [Option.some.injEq, Prod.mk.injEq] at h
      obtain ⟨rfl, rfl⟩ := h
      exact ⟨by omega, by omega, by assumption, rfl, rfl⟩
    · simp at h

theorem openForRead_spec {g g' : Reg K V} {p : Bool} (h : g.openForRead = some (g', p)) :
    g.block = false ∧ (p = true → (g.flushed = true ∨ g.buf = none) ∧ g' = { g with phys := g.phys + 1 }) ∧
    (p = false → g.flushed = false ∧ g.buf ≠ none ∧ g' = { g with inmem := g.inmem + 1 }) := by
  unfold Reg.openForRead at h
  split at h
  · simp at h
  · split at h <;> simp only [Option.some.injEq, Prod.mk.injEq] at h <;> obtain ⟨rfl, rfl⟩ := h <;> simp_all

theorem inv0_init (c : Cfg K V H) (dev : Nat → Content K V) : Inv0 c (init dev : St K V H) := by
  constructor <;> intro r <;> simp [init, Contig]

theorem inv0_step {c : Cfg K V H} (hRS : c.RS ≤ 2 ^ 30) {s s' : St K V H} {a : Act K V} (h : Inv0 c s)
    (he : exec c s a = some s') : Inv0 c s' := by
  obtain ⟨h1, h2, h3⟩ := h
  have hA : ∀ {r k v g st}, allocate c (s.reg r) k v = some (g, st) →
      Contig c.sz g.alloc g.last ∧ g.last ≤ c.RS ∧ g.num = g.alloc.length := by
    intro r k v g st h
    obtain ⟨a1, a2, a3, rfl, rfl⟩ := allocate_spec h
    have := h2 r
    refine ⟨⟨rfl, ?_, ?_, h1 r⟩, a3, by simp [h3 r]⟩ <;> simp only <;> rw [Nat.mod_eq_of_lt (by omega)] <;> omega
  have hO : ∀ {r g p}, (s.reg r).openForRead = some (g, p) →
      Contig c.sz g.alloc g.last ∧ g.last ≤ c.RS ∧ g.num = g.alloc.length := by
    intro r g p h
    obtain ⟨_, hp, hm⟩ := openForRead_spec h
    cases p
    · rw [(hm rfl).2.2]; exact ⟨h1 r, h2 r, h3 r⟩
    · rw [(hp rfl).2]; exact ⟨h1 r, h2 r, h3 r⟩
  exec_cases a he <;> constructor <;> intro r <;>
    (try simp only [setPlace, setReg, setW, setRd, writeW, afterClose, startW, Reg.closeWrite, Reg.closeRead]) <;>
    first
    | exact h1 r
    | exact h2 r
    | exact h3 r
    | grind [upd, Contig, Reg.reset]

theorem inv0_restart {c : Cfg K V H} {s s' : St K V H} (h : Inv0 c s) (hr : Restart s s') : Inv0 c s' := by
  constructor <;> intro r <;> rw [hr.reg r]
  · exact h.contig r
  · exact h.bound r
  · exact h.num r

theorem inv0_wipe {c : Cfg K V H} {s s' : St K V H} (_h : Inv0 c s) (hr : Wipe s s') : Inv0 c s' := by
  constructor <;> intro r <;> rw [hr.reg r] <;> simp [Reg.reset, Contig]

theorem inv0_reach {c : Cfg K V H} (hRS : c.RS ≤ 2 ^ 30) {s : St K V H} (h : Reach c s) : Inv0 c s := by
  induction h with
  | init dev => exact inv0_init c dev
  | step a _ he ih => exact inv0_step hRS ih he
  | restart _ _ hr ih => exact inv0_restart ih hr
  | wipe _ _ hr ih => exact inv0_wipe ih hr

theorem countP_upd {α : Type} [DecidableEq α] {l : List α} {x : α} (x' : α) (h : x ∈ l) (p : α → Bool) :
    (x' :: l.erase x).countP p + (p x).toNat = l.countP p + (p x').toNat := by
  have := (List.perm_cons_erase h).countP_eq p
  simp only [List.countP_cons] at this ⊢
  cases h1 : p x <;> cases h2 : p x' <;> simp [h1] at this ⊢ <;> omega

theorem countP_erase' {α : Type} [DecidableEq α] {l : List α} {x : α} (h : x ∈ l) (p : α → Bool) :
    (l.erase x).countP p + (p x).toNat = l.countP p := by
  have := (List.perm_cons_erase h).countP_eq p
  simp only [List.countP_cons] at this ⊢
  cases h1 : p x <;> simp [h1] at this ⊢ <;> omega

theorem count_goal {α : Type} [DecidableEq α] {l : List α} {x x' : α} {n : Nat} {p : α → Bool} (h : x ∈ l)
    (hn : n + (p x).toNat = l.countP p + (p x').toNat) : n = (x' :: l.erase x).countP p := by
  have := countP_upd x' h p
  omega

theorem mem_upd {α : Type} [DecidableEq α] {l : List α} {x x' : α} {P : α → Prop} (hx' : P x') (h : ∀ y ∈ l, P y) :
    ∀ y ∈ x' :: l.erase x, P y := by
  intro y hy
  rcases List.mem_cons.1 hy with rfl | hy
  · exact hx'
  · exact h y (List.mem_of_mem_erase hy)

theorem oldU_upd {l : List (W K V)} {x x' : W K V} (hx : x ∈ l) (ho : x'.old = x.old)
    (h : l.Pairwise (fun w w' => w.old = none ∨ w'.old = none ∨ w.old ≠ w'.old)) :
    (x' :: l.erase x).Pairwise (fun w w' => w.old = none ∨ w'.old = none ∨ w.old ≠ w'.old) := by
  have := (List.perm_cons_erase hx).pairwise_iff (R := fun w w' : W K V => w.old = none ∨ w'.old = none ∨ w.old ≠ w'.old)
    (by grind)
  have h2 := this.1 h
  rw [List.pairwise_cons] at h2 ⊢
  refine ⟨?_, h2.2⟩
  intro y hy
  rw [ho]; exact h2.1 y hy

theorem oldU_other {l : List (W K V)} {x y : W K V} {a : Addr} (hx : x ∈ l) (hy : y ∈ l.erase x) (ho : x.old = some a)
    (h : l.Pairwise (fun w w' => w.old = none ∨ w'.old = none ∨ w.old ≠ w'.old)) : y.old ≠ some a := by
  have := (List.perm_cons_erase hx).pairwise_iff (R := fun w w' : W K V => w.old = none ∨ w'.old = none ∨ w.old ≠ w'.old)
    (by grind)
  have h2 := this.1 h
  rw [List.pairwise_cons] at h2
  have := h2.1 y hy
  grind

theorem inv1_init (dev : Nat → Content K V) : Inv1 (init dev : St K V H) := by
  constructor <;> simp [init, Place.cu, Place.hasBuf, Place.preFlush]

theorem alloc_frame {c : Cfg K V H} {s : St K V H} {r k v g st} (h : allocate c (s.reg r) k v = some (g, st)) :
    ∃ (l m : Nat) (al : List (Alloc K V)),
      g = { s.reg r with writers := (s.reg r).writers + 1, last := l, num := m, alloc := al } := by
  obtain ⟨a1, a2, a3, rfl, rfl⟩ := allocate_spec h
  exact ⟨_, _, _, rfl⟩

theorem open_frame {s : St K V H} {r g p} (h : (s.reg r).openForRead = some (g, p)) :
    g = { s.reg r with phys := (s.reg r).phys + p.toNat, inmem := (s.reg r).inmem + (!p).toNat } := by
  obtain ⟨hb, hp, hm⟩ := openForRead_spec h
  cases p
  · rw [(hm rfl).2.2]; simp
  · rw [(hp rfl).2]; simp

theorem open_place {s : St K V H} {r g p} (h : (s.reg r).openForRead = some (g, p))
    (bufP : ∀ r, (s.reg r).buf.isSome = (s.place r).hasBuf) (hp : p = false) : (s.place r).hasBuf = true := by
  obtain ⟨_, h1, _⟩ := (openForRead_spec h).2.2 hp
  rw [← bufP r]
  cases hbf : (s.reg r).buf <;> simp_all

macro "st_simp" : tactic => `(tactic|
  (try simp only [setPlace, setReg, setW, setRd, writeW, startW, Reg.closeWrite, Reg.reset, Reg.closeRead]))

section
variable {c : Cfg K V H} {s s' : St K V H} {a : Act K V}

theorem step_nf (he : exec c s a = some s') (hf : s'.fault = false) (nf : ∀ r, (s.place r).cu = false) :
    ∀ r, (s'.place r).cu = false := by
  exec_cases a he <;> (try simp only [reduceCtorEq] at hf) <;> intro r <;> st_simp <;> first | exact nf r | skip
  case closeW.isTrue w hw => cases ha : w.old <;> simp only [afterClose, ha] <;> grind [upd, Place.cu]
  all_goals grind [upd, Place.cu]

theorem step_cW (he : exec c s a = some s') (hf : s'.fault = false)
    (cW : ∀ r, (s.reg r).writers = s.ws.countP (fun w => w.rid == r))
    (wPl : ∀ w ∈ s.ws, (s.place w.rid).wr = true) (nf : ∀ r, (s.place r).cu = false) :
    ∀ r, (s'.reg r).writers = s'.ws.countP (fun w => w.rid == r) := by
  have hz : ∀ r, (s.place r).wr = false → (s.reg r).writers = 0 := by
    intro r h; rw [cW r, List.countP_eq_zero]; intro w hw; have := wPl w hw; grind
  have hA := @alloc_frame K V H _ _ _ c s
  have hO := @open_frame K V H _ _ _ s
  exec_cases a he <;> (try simp only [reduceCtorEq] at hf) <;> intro r <;> st_simp <;> first | exact cW r | skip
  case closeW.isTrue w hw =>
    have := countP_erase' hw.1 (fun w => w.rid == r)
    have := cW r
    grind [upd, dec32]
  all_goals first
    | (apply count_goal (by grind); grind [upd])
    | (have := cW r; simp only [List.countP_cons]; grind [upd, Place.wr, Place.cu])
    | grind [upd, Place.wr, Place.cu]

theorem step_cP (he : exec c s a = some s') (hf : s'.fault = false)
    (cP : ∀ r, (s.reg r).phys = s.rds.countP (openOn r true)) (nf : ∀ r, (s.place r).cu = false)
    (free : ∀ r, s.place r = .rcFree → ∀ x ∈ s.rds, ∀ p, openOn r p x = false) :
    ∀ r, (s'.reg r).phys = s'.rds.countP (openOn r true) := by
  have hA := @alloc_frame K V H _ _ _ c s
  have hO := @open_frame K V H _ _ _ s
  have hF : ∀ r, s.place r = .rcFree → s.rds.countP (openOn r true) = 0 := by
    intro r hr
    rw [List.countP_eq_zero]
    intro x hx
    simp [free r hr x hx]
  clear free
  exec_cases a he <;> (try simp only [reduceCtorEq] at hf) <;> intro r <;> st_simp <;> first | exact cP r | skip
  all_goals first
    | (apply count_goal (by grind); have := cP r; simp only [Bool.toNat]; grind [openOn, upd, dec32, List.countP_pos_iff])
    | grind [upd, openOn, Place.cu]

theorem step_cM (he : exec c s a = some s') (hf : s'.fault = false)
    (cM : ∀ r, (s.reg r).inmem = s.rds.countP (openOn r false)) (nf : ∀ r, (s.place r).cu = false)
    (free : ∀ r, s.place r = .rcFree → ∀ x ∈ s.rds, ∀ p, openOn r p x = false) :
    ∀ r, (s'.reg r).inmem = s'.rds.countP (openOn r false) := by
  have hA := @alloc_frame K V H _ _ _ c s
  have hO := @open_frame K V H _ _ _ s
  have hF : ∀ r, s.place r = .rcFree → s.rds.countP (openOn r false) = 0 := by
    intro r hr
    rw [List.countP_eq_zero]
    intro x hx
    simp [free r hr x hx]
  clear free
  exec_cases a he <;> (try simp only [reduceCtorEq] at hf) <;> intro r <;> st_simp <;> first | exact cM r | skip
  all_goals first
    | (apply count_goal (by grind); have := cM r; simp only [Bool.toNat]; grind [openOn, upd, dec32, List.countP_pos_iff])
    | grind [upd, openOn, Place.cu]

theorem step_wPl (he : exec c s a = some s') (hf : s'.fault = false)
    (cW : ∀ r, (s.reg r).writers = s.ws.countP (fun w => w.rid == r))
    (oldP : ∀ w ∈ s.ws, ∀ a, w.old = some a → s.place a.1 = .rcBusy a.2)
    (wPl : ∀ w ∈ s.ws, (s.place w.rid).wr = true) :
    ∀ w ∈ s'.ws, (s'.place w.rid).wr = true := by
  have hz : ∀ w ∈ s.ws, (s.reg w.rid).writers ≠ 0 := by
    intro w hw h; rw [cW, List.countP_eq_zero] at h; have := h w hw; simp at this
  exec_cases a he <;> (try simp only [reduceCtorEq] at hf) <;> st_simp <;> first | exact wPl | skip
  case closeW.isTrue w hw => cases ha : w.old <;> simp only [afterClose, ha] <;> grind [upd, Place.wr, List.mem_of_mem_erase]
  all_goals first
    | (refine mem_upd ?_ ‹_›; grind)
    | grind [upd, Place.wr]

theorem step_mPl (he : exec c s a = some s') (hf : s'.fault = false)
    (cM : ∀ r, (s.reg r).inmem = s.rds.countP (openOn r false))
    (oldP : ∀ w ∈ s.ws, ∀ a, w.old = some a → s.place a.1 = .rcBusy a.2)
    (bufP : ∀ r, (s.reg r).buf.isSome = (s.place r).hasBuf) (nf : ∀ r, (s.place r).cu = false)
    (mPl : ∀ x ∈ s.rds, ∀ r, openOn r false x = true → (s.place r).hasBuf = true) :
    ∀ x ∈ s'.rds, ∀ r, openOn r false x = true → (s'.place r).hasBuf = true := by
  have hz : ∀ x ∈ s.rds, ∀ r, openOn r false x = true → (s.reg r).inmem ≠ 0 := by
    intro w hw r h1 h; rw [cM, List.countP_eq_zero] at h; have := h w hw; simp_all
  have hO : ∀ {r g p}, (s.reg r).openForRead = some (g, p) → p = false → (s.place r).hasBuf = true := by
    intro r g p h hp; exact open_place h bufP hp
  exec_cases a he <;> (try simp only [reduceCtorEq] at hf) <;> st_simp <;> first | exact mPl | skip
  case closeW.isTrue w hw => cases ha : w.old <;> simp only [afterClose, ha] <;> grind [upd, Place.hasBuf]
  all_goals first
    | (refine mem_upd ?_ ‹_›; grind [openOn])
    | (refine mem_upd ?_ ‹_›; intro r'; have hx := mPl _ ‹_ ∈ s.rds› r'; simp only [openOn, *] at hx ⊢; grind)
    | grind [upd, Place.hasBuf, openOn, Place.cu]

theorem step_bufP (he : exec c s a = some s') (hf : s'.fault = false)
    (oldP : ∀ w ∈ s.ws, ∀ a, w.old = some a → s.place a.1 = .rcBusy a.2)
    (flg : ∀ r, (s.place r).preFlush = true → (s.reg r).flushed = false)
    (bufP : ∀ r, (s.reg r).buf.isSome = (s.place r).hasBuf) (nf : ∀ r, (s.place r).cu = false) :
    ∀ r, (s'.reg r).buf.isSome = (s'.place r).hasBuf := by
  have hA := @alloc_frame K V H _ _ _ c s
  have hO := @open_frame K V H _ _ _ s
  exec_cases a he <;> (try simp only [reduceCtorEq] at hf) <;> intro r <;> st_simp <;> first | exact bufP r | skip
  case closeW.isTrue w hw => cases ha : w.old <;> simp only [afterClose, ha] <;> grind [upd, Place.hasBuf]
  all_goals grind [upd, Place.hasBuf, Place.cu, Place.preFlush]

theorem step_flg (he : exec c s a = some s') (hf : s'.fault = false)
    (oldP : ∀ w ∈ s.ws, ∀ a, w.old = some a → s.place a.1 = .rcBusy a.2)
    (flg : ∀ r, (s.place r).preFlush = true → (s.reg r).flushed = false) (nf : ∀ r, (s.place r).cu = false) :
    ∀ r, (s'.place r).preFlush = true → (s'.reg r).flushed = false := by
  have hA := @alloc_frame K V H _ _ _ c s
  have hO := @open_frame K V H _ _ _ s
  exec_cases a he <;> (try simp only [reduceCtorEq] at hf) <;> intro r <;> st_simp <;> first | exact flg r | skip
  case closeW.isTrue w hw => cases ha : w.old <;> simp only [afterClose, ha] <;> grind [upd, Place.preFlush]
  all_goals grind [upd, Place.preFlush, Place.cu]

theorem step_flg2 (he : exec c s a = some s') (hf : s'.fault = false)
    (flg2 : ∀ r, s.place r = .ra ∨ s.place r = .clean →
      (s.reg r).block = false ∧ (s.reg r).being = false ∧ (s.reg r).pend = false) :
    ∀ r, s'.place r = .ra ∨ s'.place r = .clean →
      (s'.reg r).block = false ∧ (s'.reg r).being = false ∧ (s'.reg r).pend = false := by
  have hA := @alloc_frame K V H _ _ _ c s
  have hO := @open_frame K V H _ _ _ s
  exec_cases a he <;> (try simp only [reduceCtorEq] at hf) <;> intro r <;> st_simp <;> first | exact flg2 r | skip
  case closeW.isTrue w hw => cases ha : w.old <;> simp only [afterClose, ha] <;> grind [upd]
  all_goals grind [upd]

theorem step_blk (he : exec c s a = some s') (hf : s'.fault = false)
    (oldP : ∀ w ∈ s.ws, ∀ a, w.old = some a → s.place a.1 = .rcBusy a.2)
    (flg2 : ∀ r, s.place r = .ra ∨ s.place r = .clean →
      (s.reg r).block = false ∧ (s.reg r).being = false ∧ (s.reg r).pend = false) (nf : ∀ r, (s.place r).cu = false)
    (blk : ∀ r, (s.reg r).block = true ↔ s.place r = .rcDrain ∨ s.place r = .rcFree) :
    ∀ r, (s'.reg r).block = true ↔ s'.place r = .rcDrain ∨ s'.place r = .rcFree := by
  have hA := @alloc_frame K V H _ _ _ c s
  have hO := @open_frame K V H _ _ _ s
  exec_cases a he <;> (try simp only [reduceCtorEq] at hf) <;> intro r <;> st_simp <;> first | exact blk r | skip
  case closeW.isTrue w hw => cases ha : w.old <;> simp only [afterClose, ha] <;> grind [upd]
  all_goals grind [upd, Place.cu, Reg.reset]

set_option maxHeartbeats 2000000 in
theorem step_free (he : exec c s a = some s')
    (cP : ∀ r, (s.reg r).phys = s.rds.countP (openOn r true)) (cM : ∀ r, (s.reg r).inmem = s.rds.countP (openOn r false))
    (blk : ∀ r, (s.reg r).block = true ↔ s.place r = .rcDrain ∨ s.place r = .rcFree)
    (free : ∀ r, s.place r = .rcFree → ∀ x ∈ s.rds, ∀ p, openOn r p x = false) :
    ∀ r, s'.place r = .rcFree → ∀ x ∈ s'.rds, ∀ p, openOn r p x = false := by
  have hB : ∀ {r g p}, (s.reg r).openForRead = some (g, p) → s.place r ≠ .rcFree := by
    intro r g p h hr
    have := (openForRead_spec h).1
    rw [(blk r).2 (.inr hr)] at this
    simp at this
  cases a
  case rcDrained r0 =>
    exec_simp0 he
    rename_i h0
    intro r; st_simp; intro hr x hx p
    by_cases e : r = r0
    · subst e
      have h1 := h0.2.1; have h2 := h0.2.2
      rw [cM, List.countP_eq_zero] at h1
      rw [cP, List.countP_eq_zero] at h2
      cases p <;> simp_all
    · rw [upd_ne _ _ e] at hr; exact free r hr x hx p
  case closeW w =>
    exec_simp0 he
    intro r; st_simp
    cases ha : w.old <;> simp only [afterClose, ha] <;> grind [upd]
  all_goals
    exec_simp0 he <;> intro r <;> st_simp <;> first
      | exact free r
      | (intro hr x hx p
         rcases List.mem_cons.1 hx with rfl | hx
         · clear blk cP cM
           have key : s.place r = .rcFree → ∀ y, y ∈ s.rds → openOn r p y = false := fun hr y hy => free r hr y hy p
           unfold openOn at key
           clear free
           grind [upd, openOn]
         · exact free r hr x (List.mem_of_mem_erase hx) p)
      | (clear blk cP cM; grind [upd, openOn])

theorem step_oldP (he : exec c s a = some s') (hf : s'.fault = false)
    (oldU : s.ws.Pairwise (fun w w' => w.old = none ∨ w'.old = none ∨ w.old ≠ w'.old))
    (oldP : ∀ w ∈ s.ws, ∀ a, w.old = some a → s.place a.1 = .rcBusy a.2) :
    ∀ w ∈ s'.ws, ∀ a, w.old = some a → s'.place a.1 = .rcBusy a.2 := by
  exec_cases a he <;> (try simp only [reduceCtorEq] at hf) <;> st_simp <;> first | exact oldP | skip
  case closeW.isTrue w hw =>
    intro y hy b hb
    cases ha : w.old with
    | none => simp only [afterClose, ha]; exact oldP y (List.mem_of_mem_erase hy) b hb
    | some a =>
      have h1 := oldP w hw.1 a ha
      have h2 := oldP y (List.mem_of_mem_erase hy) b hb
      have h3 := oldU_other hw.1 hy ha oldU
      rw [hb] at h3
      simp only [afterClose, ha]
      rw [upd_ne _ _ (by rintro h; rw [h] at h2; rw [h1] at h2; apply h3; cases a; cases b; simp_all)]
      exact h2
  all_goals first
    | (refine mem_upd ?_ ‹_›; grind)
    | grind [upd]

theorem step_oldU (he : exec c s a = some s')
    (oldP : ∀ w ∈ s.ws, ∀ a, w.old = some a → s.place a.1 = .rcBusy a.2)
    (oldU : s.ws.Pairwise (fun w w' => w.old = none ∨ w'.old = none ∨ w.old ≠ w'.old)) :
    s'.ws.Pairwise (fun w w' => w.old = none ∨ w'.old = none ∨ w.old ≠ w'.old) := by
  exec_cases a he <;> st_simp <;> first | exact oldU | skip
  case closeW.isTrue => exact oldU.sublist List.erase_sublist
  all_goals first
    | (refine oldU_upd (by grind) ?_ ‹_›; grind)
    | (rw [List.pairwise_cons]; refine ⟨?_, ‹_›⟩; intro y hy; have := oldP y hy; grind)

theorem inv1_step (h : Inv1 s) (he : exec c s a = some s') (hf : s'.fault = false) : Inv1 s' := by
  obtain ⟨nf, cW, cP, cM, wPl, mPl, bufP, flg, flg2, blk, free, oldP, oldU⟩ := h
  exact ⟨step_nf he hf nf, step_cW he hf cW wPl nf, step_cP he hf cP nf free, step_cM he hf cM nf free, step_wPl he hf cW oldP wPl,
    step_mPl he hf cM oldP bufP nf mPl, step_bufP he hf oldP flg bufP nf, step_flg he hf oldP flg nf, step_flg2 he hf flg2,
    step_blk he hf oldP flg2 nf blk, step_free he cP cM blk free, step_oldP he hf oldU oldP, step_oldU he oldP oldU⟩

end

end
end Verif.BlockCache
