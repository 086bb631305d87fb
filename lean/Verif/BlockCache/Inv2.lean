import Verif.BlockCache.Inv1
/-
Invariants of the engine, part 2: what the slots hold, what the index points to, what readers see.
-/
set_option linter.unusedSectionVars false
set_option linter.unusedSimpArgs false
namespace Verif.BlockCache
open Verif

section
variable {K V H : Type} [DecidableEq K] [DecidableEq V] [DecidableEq H]

/-! ### Slots -/

theorem contig_stop_le {sz : K → V → Nat} {l : List (Alloc K V)} {n : Nat} (h : Contig sz l n) {a} (ha : a ∈ l) :
    a.start < a.stop ∧ a.stop ≤ n ∧ a.stop = a.start + sz a.slot.key a.slot.val := by
  induction l generalizing n with
  | nil => simp at ha
  | cons x l ih =>
    obtain ⟨h1, h2, h3, h4⟩ := h
    rcases List.mem_cons.1 ha with rfl | ha
    · exact ⟨h2, by omega, h3⟩
    · have := ih h4 ha
      exact ⟨this.1, by omega, this.2.2⟩

theorem contig_disj {sz : K → V → Nat} {l : List (Alloc K V)} {n : Nat} (h : Contig sz l n) {a b} (ha : a ∈ l) (hb : b ∈ l) :
    a = b ∨ a.stop ≤ b.start ∨ b.stop ≤ a.start := by
  induction l generalizing n with
  | nil => simp at ha
  | cons x l ih =>
    obtain ⟨h1, h2, h3, h4⟩ := h
    rcases List.mem_cons.1 ha with rfl | ha <;> rcases List.mem_cons.1 hb with rfl | hb
    · simp
    · have := (contig_stop_le h4 hb).2.1; right; right; omega
    · have := (contig_stop_le h4 ‹a ∈ l›).2.1; right; left; omega
    · exact ih h4 ha hb

theorem contig_eq {sz : K → V → Nat} {l : List (Alloc K V)} {n : Nat} (h : Contig sz l n) {a b} (ha : a ∈ l) (hb : b ∈ l)
    (he : a.stop = b.stop) : a = b := by
  have := contig_disj h ha hb
  have := contig_stop_le h ha
  have := contig_stop_le h hb
  rcases contig_disj h ha hb with h | h | h
  · exact h
  · omega
  · omega

theorem contig_last {sz : K → V → Nat} {l : List (Alloc K V)} {n : Nat} (h : Contig sz l n) : n = 0 ∨ ∃ a ∈ l, a.stop = n := by
  cases l with
  | nil => exact .inl h
  | cons x l => exact .inr ⟨x, by simp, h.1⟩

theorem contig_prev {sz : K → V → Nat} {l : List (Alloc K V)} {n : Nat} (h : Contig sz l n) {a} (ha : a ∈ l) :
    a.start = 0 ∨ ∃ b ∈ l, b.stop = a.start := by
  induction l generalizing n with
  | nil => simp at ha
  | cons x l ih =>
    obtain ⟨h1, h2, h3, h4⟩ := h
    rcases List.mem_cons.1 ha with rfl | ha
    · rcases contig_last h4 with h | ⟨b, hb, h⟩
      · exact .inl h
      · exact .inr ⟨b, by simp [hb], h⟩
    · rcases ih h4 ha with h | ⟨b, hb, h⟩
      · exact .inl h
      · exact .inr ⟨b, by simp [hb], h⟩

/-! ### The log -/

/-- The value of `k` after the first `n` updates of the log. -/
def valAt (log : List (K × Option V)) (n : Nat) (k : K) : Option V :=
  ((log.take n).reverse.find? (fun u => u.1 = k)).bind (fun u => u.2)

theorem valAt_append {log : List (K × Option V)} {n : Nat} (h : n ≤ log.length) (l : List (K × Option V)) (k : K) :
    valAt (log ++ l) n k = valAt log n k := by
  unfold valAt
  rw [List.take_append_of_le_length h]

theorem valAt_snoc (log : List (K × Option V)) (u : K × Option V) (k : K) :
    valAt (log ++ [u]) (log ++ [u]).length k = if u.1 = k then u.2 else valAt log log.length k := by
  unfold valAt
  rw [List.take_length, List.take_length]
  simp only [List.reverse_append, List.reverse_cons, List.reverse_nil, List.nil_append, List.cons_append, List.find?_cons]
  by_cases h : u.1 = k <;> simp [h]

/-! ### Places -/

/-- The device holds the whole region. -/
def Place.onDev : Place → Bool
  | .flMark | .flDetach | .flTrack | .tracked | .rcMark | .rcWait | .rcRead | .rcEvict _ | .rcBusy _ | .rcSeq | .rcBlock | .rcDrain | .rcFree =>
    true
  | _ => false

/-- The region was not recycled under the current sequence number. -/
def Place.pre : Place → Bool
  | .clean | .rcBlock | .rcDrain | .rcFree => false
  | p => !p.cu

/-- The index may point to the slot that ends at `e`. -/
def Place.live (e : Nat) : Place → Bool
  | .ra | .flWait | .flWrite | .flMark | .flDetach | .flTrack | .tracked | .rcMark | .rcWait | .rcRead => true
  | .rcEvict o | .rcBusy o => decide (e ≤ o)
  | _ => false

/-- The slot holds its entry. -/
def Has (g : Reg K V) (p : Place) (a : Alloc K V) : Prop :=
  (∀ b, g.buf = some b → b a.stop = some a.slot) ∧ (p.onDev = true → g.dev a.stop = some a.slot)

/-- At time `t` the index could point to `(r, e)` for the hash `h`; the slot still holds the entry. -/
def Good (c : Cfg K V H) (s : St K V H) (r e t : Nat) (h : H) : Prop :=
  ∃ a ∈ (s.reg r).alloc, a.stop = e ∧ c.hash a.slot.key = h ∧ Has (s.reg r) (s.place r) a ∧
    valAt s.log t a.slot.key = some a.slot.val

def ResOk (s : St K V H) (k : K) (t1 : Nat) (res : Res V) : Prop := ∀ v, res = .ok v → valAt s.log t1 k = some v

/-- What a lookup may rely on. -/
def RdOk (c : Cfg K V H) (s : St K V H) (x : Rd K V) : Prop :=
  match x.pc with
  | .begin => x.t0 ≤ s.log.length
  | .seq q => x.t0 ≤ s.log.length ∧ q ≤ s.seq
  | .found q r e t1 => x.t0 ≤ t1 ∧ t1 ≤ s.log.length ∧ q ≤ s.seq ∧
      (s.seq = q → (s.place r).pre = true ∧ Good c s r e t1 (c.hash x.key))
  | .opened q r e phys t1 => x.t0 ≤ t1 ∧ t1 ≤ s.log.length ∧ q ≤ s.seq ∧
      (s.seq = q → (s.place r).pre = true ∧ Good c s r e t1 (c.hash x.key) ∧ (phys = true → (s.place r).onDev = true))
  | .valid r e phys t1 => x.t0 ≤ t1 ∧ t1 ≤ s.log.length ∧ s.place r ≠ .clean ∧ Good c s r e t1 (c.hash x.key) ∧
      (phys = true → (s.place r).onDev = true)
  | .failed _ _ => x.t0 ≤ s.log.length
  | .read r e phys t1 res => x.t0 ≤ t1 ∧ t1 ≤ s.log.length ∧ s.place r ≠ .clean ∧ Good c s r e t1 (c.hash x.key) ∧
      (phys = true → (s.place r).onDev = true) ∧ ResOk s x.key t1 res
  | .close _ _ t1 res => x.t0 ≤ t1 ∧ t1 ≤ s.log.length ∧ ResOk s x.key t1 res
  | .done t1 t2 res => x.t0 ≤ t1 ∧ t1 ≤ t2 ∧ t2 ≤ s.log.length ∧ ResOk s x.key t1 res

/-- The slot of a writer. -/
def W.al (w : W K V) : Alloc K V := ⟨w.start, w.stop, ⟨w.key, w.val⟩⟩

structure Inv2 (c : Cfg K V H) (s : St K V H) : Prop where
  wIn : ∀ w ∈ s.ws, w.al ∈ (s.reg w.rid).alloc
  wHas : ∀ w ∈ s.ws, w.pc ≠ .alloc → Has (s.reg w.rid) (s.place w.rid) w.al
  pen : ∀ r, ∀ a ∈ (s.reg r).alloc, Has (s.reg r) (s.place r) a ∨ ∃ w ∈ s.ws, w.rid = r ∧ w.stop = a.stop ∧ w.pc = .alloc
  cln : ∀ r, s.place r = .clean → (s.reg r).alloc = []
  ix : ∀ h r e, s.index h = some (r, e) → (s.place r).live e = true ∧ Good c s r e s.log.length h
  old : ∀ w ∈ s.ws, ∀ a, w.old = some a → (s.reg a.1).dev a.2 = some ⟨w.key, w.val⟩ ∧
    (w.pc = .indexed → ∀ h, s.index h ≠ some a)
  walk : ∀ r o, s.place r = .rcEvict o ∨ s.place r = .rcBusy o → o = 0 ∨ ∃ a ∈ (s.reg r).alloc, a.stop = o
  rd : ∀ x ∈ s.rds, RdOk c s x

/-- What every step keeps. -/
structure Fr (s s' : St K V H) : Prop where
  seq : s.seq ≤ s'.seq
  log : ∃ u, s'.log = s.log ++ u
  pre : ∀ r, (s.place r).pre = true → s'.seq = s.seq → (s'.place r).pre = true
  dev : ∀ r, (s.place r).onDev = true → s'.place r ≠ .clean → (s'.place r).onDev = true
  cln : ∀ r, s.place r ≠ .clean → s'.place r = .clean → s.place r = .rcFree ∧ (s.reg r).phys = 0 ∧ (s.reg r).inmem = 0
  keep : ∀ r, s.place r ≠ .clean → s'.place r ≠ .clean → ∀ a ∈ (s.reg r).alloc, Has (s.reg r) (s.place r) a →
    a ∈ (s'.reg r).alloc ∧ Has (s'.reg r) (s'.place r) a

/-- Case analysis of a step, after `cases` on the action. -/
macro "exec_simp" he:ident : tactic => `(tactic|
  (simp only [exec] at $he:ident <;> (repeat' split at $he:ident) <;>
    simp only [Option.some.injEq, reduceCtorEq] at $he:ident <;> subst $he:ident))

theorem alloc_frame2 {c : Cfg K V H} {s : St K V H} {r k v g st} (h : allocate c (s.reg r) k v = some (g, st)) :
    ∃ n : Nat, g = { (s.reg r) with
      writers := (s.reg r).writers + 1
      last := g.last
      num := n
      alloc := ⟨st, g.last, ⟨k, v⟩⟩ :: (s.reg r).alloc } := by
  obtain ⟨a1, a2, a3, rfl, rfl⟩ := allocate_spec h
  exact ⟨_, rfl⟩

section
variable {c : Cfg K V H} {s s' : St K V H} {a : Act K V}

theorem fr_seq (he : exec c s a = some s') : s.seq ≤ s'.seq := by
  exec_cases a he <;> st_simp <;> simp

theorem fr_log (he : exec c s a = some s') : ∃ l, s'.log = s.log ++ l := by
  exec_cases a he <;> st_simp <;> first | exact ⟨_, rfl⟩ | exact ⟨[], by simp⟩

theorem fr_pre (he : exec c s a = some s') (hf : s'.fault = false) (h1 : Inv1 s) :
    ∀ r, (s.place r).pre = true → s'.seq = s.seq → (s'.place r).pre = true := by
  have nf := h1.nf; have oldP := h1.oldP
  exec_cases a he <;> (try simp only [reduceCtorEq] at hf) <;> intro r <;> st_simp <;> first | exact fun h _ => h | skip
  case closeW.isTrue w hw => cases ha : w.old <;> simp only [afterClose, ha] <;> grind [upd, Place.pre, Place.cu]
  all_goals grind [upd, Place.pre, Place.cu]

theorem fr_dev (he : exec c s a = some s') (hf : s'.fault = false) (h1 : Inv1 s) :
    ∀ r, (s.place r).onDev = true → s'.place r ≠ .clean → (s'.place r).onDev = true := by
  have nf := h1.nf; have oldP := h1.oldP
  exec_cases a he <;> (try simp only [reduceCtorEq] at hf) <;> intro r <;> st_simp <;> first | exact fun h _ => h | skip
  case closeW.isTrue w hw => cases ha : w.old <;> simp only [afterClose, ha] <;> grind [upd, Place.onDev]
  all_goals grind [upd, Place.onDev]

theorem fr_cln (he : exec c s a = some s') (h1 : Inv1 s) :
    ∀ r, s.place r ≠ .clean → s'.place r = .clean → s.place r = .rcFree ∧ (s.reg r).phys = 0 ∧ (s.reg r).inmem = 0 := by
  have nf := h1.nf; have oldP := h1.oldP
  have fr : ∀ r, s.place r = .rcFree → (s.reg r).phys = 0 ∧ (s.reg r).inmem = 0 := by
    intro r hr
    rw [h1.cP, h1.cM, List.countP_eq_zero, List.countP_eq_zero]
    constructor <;> intro x hx <;> simp [h1.free r hr x hx]
  clear h1
  exec_cases a he <;> intro r <;> st_simp <;> first | exact fun h h' => absurd h' h | skip
  case closeW.isTrue w hw => cases ha : w.old <;> simp only [afterClose, ha] <;> grind [upd]
  all_goals grind [upd, Place.cu]

theorem has_put {g : Reg K V} {p : Place} {x y : Alloc K V} {b : Content K V} (h0 : Contig c.sz g.alloc g.last) (hb : g.buf = some b)
    (hx : x ∈ g.alloc) (hy : y ∈ g.alloc) (h : Has g p x ∨ x = y) (hp : p.onDev = false) :
    Has { g with buf := some (putSlot c.sz b y.start y.stop y.slot) } p x := by
  refine ⟨?_, by simp [hp]⟩
  intro b' hb'
  simp only [Option.some.injEq] at hb'
  subst hb'
  unfold putSlot
  rcases contig_disj h0 hx hy with rfl | hd | hd
  · simp
  all_goals
    have e1 := contig_stop_le h0 hx
    have e2 := contig_stop_le h0 hy
    have hne : x.stop ≠ y.stop := by omega
    rw [if_neg hne]
    rcases h with h | h
    · rw [h.1 b hb]
      simp only
      rw [if_neg (by omega)]
    · subst h; omega

theorem fr_keep (he : exec c s a = some s') (hf : s'.fault = false) (h0 : Inv0 c s) (h1 : Inv1 s)
    (wIn : ∀ w ∈ s.ws, w.al ∈ (s.reg w.rid).alloc) :
    ∀ r, s.place r ≠ .clean → s'.place r ≠ .clean → ∀ a ∈ (s.reg r).alloc, Has (s.reg r) (s.place r) a →
      a ∈ (s'.reg r).alloc ∧ Has (s'.reg r) (s'.place r) a := by
  have nf := h1.nf; have oldP := h1.oldP; have flg := h1.flg; have bufP := h1.bufP; have wPl := h1.wPl; have ct := h0.contig
  clear h0 h1
  have hA := @alloc_frame2 K V H _ _ _ c s
  have hO := @open_frame K V H _ _ _ s
  cases a
  case closeW w =>
    exec_simp he
    rename_i hw
    intro r; st_simp
    cases ha : w.old <;> simp only [afterClose, ha] <;> grind [upd, Has, Place.onDev]
  case write w =>
    exec_simp he
    rename_i hw _ b hb
    intro r; st_simp
    have := wIn w hw.1
    have hp := wPl w hw.1
    have hh := @has_put K V H _ _ _ c (s.reg w.rid) (s.place w.rid)
    intro h1 h2 x hx hxx
    by_cases hr : r = w.rid
    · subst hr
      simp only [upd_same]
      refine ⟨hx, ?_⟩
      exact has_put (y := w.al) (ct w.rid) hb hx this (.inl hxx) (by revert hp; cases s.place w.rid <;> simp [Place.wr, Place.onDev])
    · rw [upd_ne _ _ hr]; exact ⟨hx, hxx⟩
  all_goals
    exec_simp he <;> (try simp only [reduceCtorEq] at hf) <;> intro r <;> st_simp <;>
      first
      | exact fun _ _ _ h h' => ⟨h, h'⟩
      | grind [upd, Has, Place.onDev, Place.preFlush, Place.hasBuf]

theorem fr_step (he : exec c s a = some s') (hf : s'.fault = false) (h0 : Inv0 c s) (h1 : Inv1 s)
    (wIn : ∀ w ∈ s.ws, w.al ∈ (s.reg w.rid).alloc) : Fr s s' :=
  ⟨fr_seq he, fr_log he, fr_pre he hf h1, fr_dev he hf h1, fr_cln he h1, fr_keep he hf h0 h1 wIn⟩

end
end
end Verif.BlockCache
