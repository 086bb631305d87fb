/-
C50: what a start finds is what a clean shutdown left.

The claims are about the events of a history, newest first: `clean p s`, process p's shutDown succeeded when its RAM cache was s;
`nvmSafe`, it had marked its NVM cache; `attached p saved found`, a start attached to a RAM cache that is `found`, by metadata that
describe `saved`; `nvmRecovered`, the same of the NVM cache; `wrote`, `wroteNvm`, a change of them.
-/
import Verif.WarmRestart.Ended

namespace Verif.WarmRestart

/-- A change of the RAM cache. -/
def Ev.IsRamWrite (e : Ev) : Prop := ∃ p v, e = .wrote p .cache v ∨ e = .wrote p .ht v ∨ e = .wrote p .cht v

/-- A change of the NVM cache. -/
def Ev.IsNvmWrite (e : Ev) : Prop := ∃ p v, e = .wroteNvm p v ∨ e = .wrote p .idx v

/-- The last clean shutdown was that of q, its RAM cache was s, and it has not been changed since. -/
def UntouchedSinceClean (l : List Ev) (q : Nat) (s : Nat × Nat × Nat) : Prop :=
  ∃ l2 l1, l = l2 ++ .clean q s :: l1 ∧ ∀ e ∈ l2, ¬ e.IsRamWrite ∧ ∀ q' s', e ≠ .clean q' s'

/-- The same of the NVM cache. -/
def UntouchedSinceSafe (l : List Ev) (q : Nat) (f : Nat × Option Nat) : Prop :=
  ∃ l2 l1, l = l2 ++ .nvmSafe q f.1 f.2 :: l1 ∧ ∀ e ∈ l2, ¬ e.IsNvmWrite ∧ ∀ q' d i, e ≠ .nvmSafe q' d i

theorem lastRam_spec {l : List Ev} {q s} (h : lastRam l = some (q, s)) : UntouchedSinceClean l q s := by
  fun_induction lastRam l with
  | case1 => cases h
  | case2 => cases h
  | case3 => cases h
  | case4 => cases h
  | case5 p s' l => cases h; exact ⟨[], l, rfl, by simp⟩
  | case6 e l h1 h2 h3 h4 ih =>
    obtain ⟨l2, l1, rfl, hh⟩ := ih h
    refine ⟨e :: l2, l1, rfl, ?_⟩
    intro e' he'
    rcases List.mem_cons.1 he' with rfl | he'
    · refine ⟨?_, fun q' s' => h4 q' s'⟩
      rintro ⟨p, v, h | h | h⟩
      · exact h1 _ _ h
      · exact h2 _ _ h
      · exact h3 _ _ h
    · exact hh e' he'

theorem lastNvm_spec {l : List Ev} {q d i} (h : lastNvm l = some (q, d, i)) : UntouchedSinceSafe l q (d, i) := by
  fun_induction lastNvm l with
  | case1 => cases h
  | case2 => cases h
  | case3 => cases h
  | case4 p s' i' l => cases h; exact ⟨[], l, rfl, by simp⟩
  | case5 e l h1 h2 h3 ih =>
    obtain ⟨l2, l1, rfl, hh⟩ := ih h
    refine ⟨e :: l2, l1, rfl, ?_⟩
    intro e' he'
    rcases List.mem_cons.1 he' with rfl | he'
    · refine ⟨?_, fun q' d' i' => h3 q' d' i'⟩
      rintro ⟨p, v, h | h⟩
      · exact h1 _ _ h
      · exact h2 _ _ h
    · exact hh e' he'

/-- The content that the segment was last given. -/
def lastWrite (n : Name) (l : List Ev) : Option Nat := l.findSome? fun | .wrote _ m v => if m = n then some v else none | _ => none

/-- A segment of the RAM cache holds what it was last given. -/
def Faithful (w : World) : Prop := ∀ n v, n ≠ .idx → w.segs n = some (.data v) → lastWrite n w.log = some v

theorem Faithful.more {w w' : World} (h : Faithful w) (hs : ∀ n v, n ≠ .idx → w'.segs n = some (.data v) → w.segs n = some (.data v))
    {es : List Ev} (hl : w'.log = es ++ w.log) (he : ∀ p n v, n ≠ .idx → Ev.wrote p n v ∉ es) : Faithful w' := by
  intro n v hn hv
  have := h n v hn (hs n v hn hv)
  unfold lastWrite at this ⊢
  rw [hl, List.findSome?_append]
  have : es.findSome? (fun | .wrote _ m v => if m = n then some v else none | _ => none) = none := by
    rw [List.findSome?_eq_none_iff]
    intro e hee
    cases e <;> try rfl
    rename_i p m u
    by_cases hm : m = n
    · subst hm; exact absurd hee (he p m u hn)
    · simp [hm]
  rw [this]; simpa

theorem Faithful.wrote {w w' : World} (h : Faithful w) {p : Nat} {n : Name} {v : Nat}
    (hs : w'.segs = fun m => if m = n then some (.data v) else w.segs m) (hl : w'.log = .wrote p n v :: w.log) : Faithful w' := by
  intro m u hm hu
  rw [hs] at hu
  unfold lastWrite
  rw [hl, List.findSome?_cons]
  by_cases e : n = m
  · subst e; simp at hu; simp [hu]
  · have e' : ¬ m = n := fun h => e h.symm
    simp [e'] at hu
    simp [e]
    exact h m u hm hu

theorem Faithful.go {w : World} (h : Faithful w) (p : Nat) (x : Proc) (ok : Bool) (v : Nat) : Faithful (w.go p x ok v) := by
  have q0 : ∀ w' : World, w'.log = w.log → (∀ n v, n ≠ .idx → w'.segs n = some (.data v) → w.segs n = some (.data v)) → Faithful w' :=
    fun w' hl hs => h.more hs (es := []) hl (by simp)
  have q1 : ∀ (w' : World) e, w'.log = e :: w.log → (∀ p n v, e ≠ .wrote p n v) → (∀ n v, n ≠ .idx → w'.segs n = some (.data v) → w.segs n = some (.data v)) → Faithful w' :=
    fun w' e hl he hs => h.more hs (es := [e]) hl (by intro p n v _ hm; simp at hm; exact he p n v hm.symm)
  have hg : ∀ w' : World, w'.log = w.log → (∀ n v, n ≠ .idx → w'.segs n = some (.data v) → w.segs n = some (.data v)) → Faithful (w'.gone p) :=
    fun w' hl hs => q1 _ (.over p) (by simp [World.gone, World.setProc, hl]) (by simp) hs
  have hrm : ∀ (l : List Name) n v, (w.removeAll l).segs n = some (.data v) → w.segs n = some (.data v) := by
    intro l n v hh
    simp only [World.removeAll] at hh
    split at hh
    · cases hh
    · exact hh
  have hu : Faithful (w.unwind p x) := hg _ rfl (fun n v _ => hrm _ n v)
  have hr : ∀ y, Faithful (w.refused p y) := fun y => hg _ rfl (fun _ _ _ => id)
  have hmk : ∀ n c, Faithful (w.make p x n v c) := fun n c => h.wrote rfl rfl
  have reset : Faithful (w.resetNvm p x v) := by
    unfold World.resetNvm
    dsimp only
    split
    · refine h.more ?_ (es := [.wrote p .idx v, .wroteNvm p v]) rfl (by simp; grind)
      intro n u hn hv
      simpa [World.make, World.say, World.put, World.setProc, World.setSeg, hn] using hv
    · exact q1 _ _ rfl (by simp) (fun _ _ _ => id)
  have hset : ∀ (w' : World) sg, (∀ u, sg ≠ some (.data u)) → w'.log = w.log → (w'.segs = fun m => if m = .info then sg else w.segs m) → Faithful w' := by
    intro w' sg hsg hl hs
    refine q0 _ hl ?_
    intro n u _ hv
    rw [hs] at hv
    dsimp only at hv
    split at hv
    · exact absurd hv (hsg u)
    · exact hv
  unfold World.go
  cases hpc : x.pc <;> dsimp only
  case rmInfo => exact hset _ none (by simp) rfl rfl
  case sdInfo =>
    split
    · exact hset _ (some .torn) (by simp) rfl rfl
    · exact q0 _ rfl (fun _ _ _ => id)
  case sdFill => exact hset _ (some (.info ..)) (by simp) rfl rfl
  case mkCache => exact hmk _ _
  case mkHt => exact hmk _ _
  case mkCht => exact hmk _ _
  case sdClean => exact hg _ rfl (fun n v _ => hrm _ n v)
  case half => exact h
  case sdMeta =>
    split
    · exact q0 _ rfl (fun n v _ => hrm _ n v)
    · exact q0 _ rfl (fun _ _ _ => id)
  case nvmInit =>
    unfold World.initNvm
    (repeat' split) <;> first | exact reset | exact q1 _ _ rfl (by simp) (fun _ _ _ => id)
  all_goals
    (repeat' split) <;> first
      | exact hu
      | exact hr _
      | exact hg _ rfl (fun _ _ _ => id)
      | exact q0 _ rfl (fun _ _ _ => id)
      | exact q1 _ _ rfl (by simp) (fun _ _ _ => id)

theorem Faithful.exec {w w' : World} (h : Faithful w) (a : Act) (he : w.exec a = some w') : Faithful w' := by
  have q1 : ∀ (w' : World) e, w'.log = e :: w.log → (∀ p n v, e ≠ .wrote p n v) → (∀ n v, n ≠ .idx → w'.segs n = some (.data v) → w.segs n = some (.data v)) → Faithful w' :=
    fun w' e hl he hs => h.more hs (es := [e]) hl (by intro p n v _ hm; simp at hm; exact he p n v hm.symm)
  cases a with
  | go p ok v =>
    simp only [World.exec] at he
    split at he
    · cases he; exact h.go _ _ _ _
    · cases he
  | touch p n v =>
    simp only [World.exec] at he
    (repeat' split at he) <;> cases he
    exact h.wrote rfl rfl
  | touchNvm p v i =>
    simp only [World.exec] at he
    (repeat' split at he) <;> cases he
    all_goals refine q1 _ _ rfl (by simp) ?_
    all_goals
      intro n u hn hv
      simpa [World.say, World.setSeg, hn] using hv
  | fail p =>
    simp only [World.exec] at he
    (repeat' split at he) <;> cases he
    all_goals refine q1 _ _ rfl (by simp) ?_
    all_goals
      intro n u _ hv
      first
      | exact hv
      | (simp only [World.unwind, World.gone, World.setProc, World.removeAll] at hv
         split at hv
         · cases hv
         · exact hv)
  | crash p =>
    simp only [World.exec] at he
    split at he
    · cases he; exact q1 _ _ rfl (by simp) (fun _ _ _ => id)
    · cases he
  | start c => cases he; exact q1 _ _ rfl (by simp) (fun _ _ _ => id)
  | setDrop => cases he; exact q1 _ _ rfl (by simp) (fun _ _ _ => id)
  | setIce => cases he; exact q1 _ _ rfl (by simp) (fun _ _ _ => id)
  | delMeta => cases he; exact q1 _ _ rfl (by simp) (fun _ _ _ => id)
  | reboot _ _ => cases he; exact q1 _ _ rfl (by simp) (fun _ _ _ h => by cases h)

theorem serial_faithful {w : World} (h : Serial w) : Faithful w := by
  induction h with
  | init => intro n v _ hv; cases hv
  | step a _ _ h2 ih => exact ih.exec a h2

/-- What a step adds to the log. -/
theorem exec_log {w w' : World} (h : LInv w) (a : Act) (he : w.exec a = some w') :
    (∃ es, w'.log = es ++ w.log ∧ ∀ p s f, Ev.attached p s f ∉ es ∧ ∀ s f, Ev.nvmRecovered p s f ∉ es) ∨
    (∃ p s q, w'.log = .attached p s s :: w.log ∧ lastRam w.log = some (q, s) ∧
      w.segs .cache = some (.data s.1) ∧ w.segs .ht = some (.data s.2.1) ∧ w.segs .cht = some (.data s.2.2)) ∨
    (∃ p s q, w'.log = .nvmRecovered p s s :: w.log ∧ lastNvm w.log = some (q, s) ∧
      ∀ sv fd, Ev.attached p sv fd ∈ w.log → ∃ s', lastRam w.log = some (q, s')) := by
  cases a with
  | go p ok v =>
    simp only [World.exec] at he
    cases hx : w.proc p with
    | none => simp [hx] at he
    | some x =>
      simp only [hx, Option.some.injEq] at he
      subst he
      have hi := h.s.proc p x hx
      rcases go_log w p x ok v with ⟨es, h1, h2⟩ | ⟨h1, u, hc, h2⟩ | ⟨h0, hf, d, i, hn, hcs⟩ | ⟨d, i, h2⟩ | ⟨s, h2⟩ | ⟨h2, -⟩
      · left
        exact ⟨es, h1, fun p s f => ⟨fun hm => (nomatch h2 _ hm), fun s f hm => (nomatch h2 _ hm)⟩⟩
      · obtain ⟨⟨q, hs, -⟩, -, h3⟩ := hi.att (by rw [h1]; rfl)
        obtain ⟨e1, e2⟩ := h3 h1
        have e3 := hs.cht
        rw [(canAttach_some hc).2] at e3; simp at e3
        obtain ⟨-, -, c, hc1⟩ := (h.lp p x hx).cache (by rw [h1]; rfl)
        obtain ⟨-, -, t, ht1⟩ := (h.lp p x hx).ht (by rw [h1]; rfl)
        refine .inr (.inl ⟨p, x.snap, q, ?_, hs.ram, ?_, ?_, ?_⟩)
        · rw [h2, e1, e2, e3]
        · exact hs.cache.resolve_left (by simp [hc1])
        · exact hs.ht.resolve_left (by simp [ht1])
        · exact hs.cht.resolve_left (by simp [(canAttach_some hc).2])
      · obtain ⟨q, d', i', hns⟩ := hi.fresh (.inr h0) hf
        rw [hns.navy] at hn; cases hn
        have hsame : ∀ sv fd, Ev.attached p sv fd ∈ w.log → ∃ s', lastRam w.log = some (q, s') := by
          intro sv fd ha
          obtain ⟨q', s', hr, -, hrec⟩ := hi.cold (by rw [h0]; rfl) (h.att p x sv fd hx ha)
          obtain ⟨d2, i2, hns2⟩ := hrec (.inr h0) hf
          have := hns.nvm.symm.trans hns2.nvm
          cases this
          exact ⟨s', hr⟩
        rcases hcs with ⟨rfl, h2⟩ | ⟨j, u, rfl, hc, h2⟩
        · refine .inr (.inr ⟨p, (d, none), q, ?_, hns.nvm, hsame⟩)
          rw [h2, hns.dev]
        · refine .inr (.inr ⟨p, (d, some j), q, ?_, hns.nvm, hsame⟩)
          have e3 := hns.idx j rfl
          rw [(canAttach_some hc).2] at e3; simp at e3
          rw [h2, hns.dev, e3]
      · exact .inl ⟨[_], h2, by simp⟩
      · exact .inl ⟨[_], h2, by simp⟩
      · exact .inl ⟨[_], h2, by simp⟩
  | start c => cases he; exact .inl ⟨[_], rfl, by simp⟩
  | crash p =>
    simp only [World.exec] at he
    split at he
    · cases he; exact .inl ⟨[_], rfl, by simp⟩
    · cases he
  | fail p =>
    simp only [World.exec] at he
    (repeat' split at he) <;> cases he <;> exact .inl ⟨[_], rfl, by simp⟩
  | touch p n v =>
    simp only [World.exec] at he
    (repeat' split at he) <;> cases he <;> exact .inl ⟨[_], rfl, by simp⟩
  | touchNvm p v i =>
    simp only [World.exec] at he
    (repeat' split at he) <;> cases he <;> exact .inl ⟨[_], rfl, by simp⟩
  | setDrop => cases he; exact .inl ⟨[_], rfl, by simp⟩
  | setIce => cases he; exact .inl ⟨[_], rfl, by simp⟩
  | delMeta => cases he; exact .inl ⟨[_], rfl, by simp⟩
  | reboot _ _ => cases he; exact .inl ⟨[_], rfl, by simp⟩

/-- A property of an event and what was before it, for all events of a log. -/
def Everywhere (Q : Ev → List Ev → Prop) (log : List Ev) : Prop := ∀ l0 e l, log = l0 ++ e :: l → Q e l

theorem Everywhere.append {Q : Ev → List Ev → Prop} {log es : List Ev} (h : Everywhere Q log)
    (hes : ∀ l0 e l, es = l0 ++ e :: l → Q e (l ++ log)) : Everywhere Q (es ++ log) := by
  intro l0 e l hl
  rcases List.append_eq_append_iff.1 hl with ⟨a, rfl, h2⟩ | ⟨a, h1, h2⟩
  · exact h a e l h2
  · cases a with
    | nil => simp at h2; exact h [] e l h2.symm
    | cons b a =>
      simp at h2
      obtain ⟨rfl, rfl⟩ := h2
      exact hes l0 e a h1

/-- What is claimed of starts. -/
def StartOk (e : Ev) (l : List Ev) : Prop :=
  (∀ p sv fd, e = .attached p sv fd → sv = fd ∧ (∃ q, lastRam l = some (q, fd)) ∧
    lastWrite .cache l = some fd.1 ∧ lastWrite .ht l = some fd.2.1 ∧ lastWrite .cht l = some fd.2.2) ∧
  (∀ p sv fd, e = .nvmRecovered p sv fd → sv = fd ∧ ∃ q, lastNvm l = some (q, fd) ∧
    ∀ sv fd, Ev.attached p sv fd ∈ l → ∃ s', lastRam l = some (q, s'))

theorem serial_startOk {w : World} (h : Serial w) : Everywhere StartOk w.log := by
  induction h with
  | init => intro l0 e l h; simp at h
  | @step w w' a h1 h2 h3 ih =>
    rcases exec_log (serial_linv h1) a h3 with ⟨es, he, hn⟩ | ⟨p, s, q, he, hr, k1, k2, k3⟩ | ⟨p, s, q, he, hr, hsm⟩
    · rw [he]
      refine ih.append ?_
      intro l0 e l hes
      refine ⟨?_, ?_⟩
      · rintro p sv fd rfl; exact absurd (by rw [hes]; simp) (hn p sv fd).1
      · rintro p sv fd rfl; exact absurd (by rw [hes]; simp) ((hn p (0, 0, 0) (0, 0, 0)).2 sv fd)
    · rw [he]
      refine Everywhere.append (es := [_]) ih ?_
      intro l0 e l hes
      cases l0 with
      | nil =>
        simp at hes
        obtain ⟨rfl, rfl⟩ := hes
        refine ⟨?_, nofun⟩
        intro p' sv fd h; cases h
        have hf := serial_faithful h1
        exact ⟨rfl, ⟨q, hr⟩, hf _ _ (by decide) k1, hf _ _ (by decide) k2, hf _ _ (by decide) k3⟩
      | cons b l0 => simp at hes
    · rw [he]
      refine Everywhere.append (es := [_]) ih ?_
      intro l0 e l hes
      cases l0 with
      | nil =>
        simp at hes
        obtain ⟨rfl, rfl⟩ := hes
        refine ⟨nofun, ?_⟩
        intro p' sv fd h; cases h; exact ⟨rfl, q, hr, hsm⟩
      | cons b l0 => simp at hes

/-- **C50.** When a process attaches to the RAM cache, what it finds is what its metadata describe, is what the last clean
shutdown left, and is what was last written, whatever crashes, exceptions, reboots and other starts there were: the RAM cache was not
changed since. -/
theorem attach_exact {w : World} (h : Serial w) {later earlier : List Ev} {p : Nat} {saved found : Nat × Nat × Nat}
    (hl : w.log = later ++ .attached p saved found :: earlier) :
    saved = found ∧ (∃ q, UntouchedSinceClean earlier q found) ∧
    lastWrite .cache earlier = some found.1 ∧ lastWrite .ht earlier = some found.2.1 ∧ lastWrite .cht earlier = some found.2.2 := by
  obtain ⟨h1, ⟨q, h2⟩, h3⟩ := (serial_startOk h later _ earlier hl).1 p saved found rfl
  exact ⟨h1, ⟨q, lastRam_spec h2⟩, h3⟩

/-- **C50.** When a process recovers the NVM cache, what it finds is what was persisted, and is what the last process that marked
the NVM cache as safe left; and if the process attached to the RAM cache, that was left by the same process. -/
theorem nvm_exact {w : World} (h : Serial w) {later earlier : List Ev} {p : Nat} {saved found : Nat × Option Nat}
    (hl : w.log = later ++ .nvmRecovered p saved found :: earlier) :
    saved = found ∧ ∃ q, UntouchedSinceSafe earlier q found ∧
      ∀ sv fd, .attached p sv fd ∈ earlier → ∃ s, UntouchedSinceClean earlier q s := by
  obtain ⟨h1, q, h2, h3⟩ := (serial_startOk h later _ earlier hl).2 p saved found rfl
  refine ⟨h1, q, lastNvm_spec h2, ?_⟩
  intro sv fd ha
  obtain ⟨s, hs⟩ := h3 sv fd ha
  exact ⟨s, lastRam_spec hs⟩

/-- The steps of a start until the RAM cache is attached. -/
def attachRun (n : Nat) (c : Cfg) : List Act := .start c :: List.replicate 7 (.go n true 0)

theorem put_put {w : World} {p : Nat} {x y : Proc} : ((w.put p x).put p y) = w.put p y := by
  simp only [World.put, World.setProc]
  congr 1; funext q; split <;> simp_all

/-- **C50.** After a clean shutdown, a start that attaches succeeds, with the same kind of shared memory and unless the ColdRoll
file is there, and finds the RAM cache as it was. -/
theorem clean_then_attach {w : World} (h : Serial w) {p : Nat} {s : Nat × Nat × Nat} {l : List Ev}
    (hl : w.log = .over p :: .clean p s :: l) (c0 c : Cfg) (hc0 : .start p c0 ∈ l) (ha : c.attach = true) (hp : c.posix = c0.posix)
    (hd : w.drop = false) : ∃ w', w.runs (attachRun w.next c) = some w' ∧ w'.log = .attached w.next s s :: .start w.next c :: w.log := by
  obtain ⟨-, hno, c1, hc1, hu, ns, m1, m2, m3, m4, m5, m6, m7, m8, m9, -⟩ := (serial_linv h).ended p p s l hl
  have := hu c0 hc0; subst this
  have hlk : w.lock = none := by
    cases hk : w.lock with
    | none => rfl
    | some q => exact absurd (hno q) ((serial_linv h).lock q hk)
  simp only [attachRun, List.replicate, World.runs, World.exec]
  simp [World.say, World.go, World.put, World.setProc, m1, hd, hp, hlk, ha, m2, m3, m4, m5, m6, m7, m8, m9, World.canAttach]

/-- … and recovers the NVM cache as it was, if it had been marked as safe, with the same format and kind of index, and unless the
IceRoll file is there. -/
theorem clean_then_recover {w : World} (h : Serial w) {p d : Nat} {i : Option Nat} {s : Nat × Nat × Nat} {l : List Ev}
    (hl : w.log = .over p :: .clean p s :: .nvmSafe p d i :: l) (c0 c : Cfg) (hc0 : .start p c0 ∈ l) (ha : c.attach = true)
    (hp : c.posix = c0.posix) (hn : c.nvm = true) (hf : c.fmt = c0.fmt) (hid : c.idx = c0.idx) (hd : w.drop = false) (hi : w.ice = false) :
    ∃ w', w.runs (attachRun w.next c ++ List.replicate 3 (.go w.next true 0)) = some w' ∧
      w'.log = .nvmRecovered w.next (d, i) (d, i) :: .attached w.next s s :: .start w.next c :: w.log := by
  obtain ⟨-, hno, c1, hc1, hu, ns, m1, m2, m3, m4, m5, m6, m7, m8, m9, m10⟩ := (serial_linv h).ended p p s _ hl
  have := hu c0 (List.mem_cons_of_mem _ hc0); subst this
  obtain ⟨n1, n2, n3, n4, n5⟩ := m10 p d i l rfl
  have hlk : w.lock = none := by
    cases hk : w.lock with
    | none => rfl
    | some q => exact absurd (hno q) ((serial_linv h).lock q hk)
  simp only [attachRun, List.replicate, World.runs, World.exec, List.cons_append, List.nil_append]
  cases hx : c0.idx
  · have := n4 hx; subst this
    simp [World.say, World.go, World.put, World.setProc, m1, hd, hp, hlk, ha, m2, m3, m4, m5, m6, m7, m8, m9, World.canAttach,
      World.initNvm, n1, n2, n3, hi, hn, hf, hid, hx]
  · obtain ⟨j, rfl, j2, j3⟩ := n5 hx
    simp [World.say, World.go, World.put, World.setProc, m1, hd, hp, hlk, ha, m2, m3, m4, m5, m6, m7, m8, m9, World.canAttach,
      World.initNvm, n1, n2, n3, hi, hn, hf, hid, hx, j2, j3]

/-- The process holds the lock of the metadata file. -/
def PC.locked : PC → Bool | .read | .lock | .sdClean => false | _ => true

theorem reach_lock {w : World} (h : Reach w) : ∀ p x, w.proc p = some x → x.pc.locked = true → w.lock = some p := by
  induction h with
  | init => intro p x h; cases h
  | @step w w' a _ hd he ih =>
    have hgo : ∀ w0 : World, w0.lock = w.lock → w0.proc = w.proc → ∀ p q y, (w0.gone p).proc q = some y → y.pc.locked = true → (w0.gone p).lock = some q := by
      intro w0 h1 h2 p q y hy hk
      by_cases hq : q = p
      · subst hq; rw [gone_proc] at hy; cases hy
      · rw [gone_other _ _ _ hq, h2] at hy
        have := ih q y hy hk
        simp only [World.gone, h1, this]
        simp [hq]
    have hput : ∀ w0 : World, w0.lock = w.lock → w0.proc = w.proc → ∀ p z, (z.pc.locked = true → w.lock = some p) →
        ∀ q y, (w0.put p z).proc q = some y → y.pc.locked = true → (w0.put p z).lock = some q := by
      intro w0 h1 h2 p z hz q y hy hk
      simp only [World.put, World.setProc, h2] at hy ⊢
      rw [h1]
      split at hy
      · rename_i e; cases hy; subst e; exact hz hk
      · exact ih q y hy hk
    cases a with
    | go p ok v =>
      simp only [World.exec] at he
      cases hx : w.proc p with
      | none => simp [hx] at he
      | some x =>
        simp only [hx, Option.some.injEq] at he
        subst he
        have hpl := ih p x hx
        have hset : ∀ w0 : World, w0.lock = some p → w0.proc = w.proc → w.lock = none → ∀ z q y, (w0.put p z).proc q = some y → y.pc.locked = true → (w0.put p z).lock = some q := by
          intro w0 h1 h2 hn z q y hy hk
          simp only [World.put, World.setProc, h2] at hy ⊢
          rw [h1]
          split at hy
          · rename_i e; rw [e]
          · have := ih q y hy hk; rw [hn] at this; cases this
        intro q y hy hk
        have hoth : q ≠ p → w.lock = some q := fun hq => ih q y (by rw [← go_other w p x ok v q hq]; exact hy) hk
        revert hy
        unfold World.go World.initNvm World.resetNvm
        cases hpc : x.pc <;> dsimp only
        case read =>
          (repeat' split) <;> intro hy <;> first
            | (refine hset _ ?_ ?_ ?_ _ q y hy hk <;> first | rfl | assumption)
            | (refine hgo _ ?_ ?_ p q y hy hk <;> rfl)
            | (refine hput _ ?_ ?_ p _ ?_ q y hy hk <;> first | rfl | (intro a; cases a; done))
        case lock =>
          split <;> intro hy
          · (refine hset _ ?_ ?_ ?_ _ q y hy hk <;> first | rfl | assumption)
          · (refine hgo _ ?_ ?_ p q y hy hk <;> rfl)
        case sdUnlock =>
          intro hy
          have hpl' := hpl (by rw [hpc]; rfl)
          simp only [World.put, World.setProc] at hy ⊢
          split at hy
          · cases hy; simp [PC.locked] at hk
          · rename_i hq
            have := ih q y hy hk
            rw [hpl'] at this; cases this; exact absurd rfl hq
        all_goals
          have hpl' := by first | exact hpl (by rw [hpc]; rfl) | exact True.intro
          (repeat' split) <;> intro hy <;> first
            | (refine hgo _ ?_ ?_ p q y hy hk <;> rfl)
            | (by_cases hq : q = p
               · rw [hq]; exact hpl'
               · exact hoth hq)
    | start c =>
      cases he
      intro q y hy hk
      simp only [World.say, World.put, World.setProc] at hy ⊢
      split at hy
      · cases hy; simp [PC.locked] at hk
      · exact ih q y hy hk
    | crash p =>
      simp only [World.exec] at he
      split at he
      · cases he; exact hgo _ rfl rfl p
      · cases he
    | fail p =>
      simp only [World.exec] at he
      (repeat' split at he) <;> cases he <;> exact hgo _ rfl rfl p
    | touch p n v =>
      simp only [World.exec] at he
      (repeat' split at he) <;> cases he <;> exact ih
    | touchNvm p v i =>
      simp only [World.exec] at he
      (repeat' split at he) <;> cases he <;> exact ih
    | setDrop => cases he; exact ih
    | setIce => cases he; exact ih
    | delMeta => exact absurd rfl hd
    | reboot _ _ => cases he; intro q y hy; cases hy

/-- **C50.** Whatever processes start at the same time, unless someone removes the metadata file: two never run on the cache at
the same time.  (Each of them is starting and has not got the lock, is at the end of its shutdown, or is the other.) -/
theorem lock_excludes {w : World} (h : Reach w) {p q : Nat} {x y : Proc} (hp : w.proc p = some x) (hq : w.proc q = some y)
    (h1 : x.pc ≠ .read ∧ x.pc ≠ .lock ∧ x.pc ≠ .sdClean) (h2 : y.pc ≠ .read ∧ y.pc ≠ .lock ∧ y.pc ≠ .sdClean) : p = q := by
  have a := reach_lock h p x hp (by revert h1; cases x.pc <;> simp [PC.locked])
  have b := reach_lock h q y hq (by revert h2; cases y.pc <;> simp [PC.locked])
  rw [a] at b; cases b; rfl

end Verif.WarmRestart
