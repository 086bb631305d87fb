import Verif.CacheProto.Step4
/-! Wait contexts, calls of the user, and the invariant of all runs. -/
namespace Verif.CacheProto
open Verif.Refcount

variable {s s' : State} {i : Nat} {p p' : PC} {a : Addr}

/-- wait contexts a thread is responsible for or waits for, with their key -/
def PC.wp : PC → Nat → Key → Bool
  | .mv7 k _ _ ws _, w, x | .me6 k _ ws, w, x => decide (w ∈ ws) && decide (k = x)
  | .ior5 k _ _ (.wait v), w, x | .ior6 k _ _ (.wait v), w, x | .iorWait k _ v, w, x => decide (v = w) && decide (k = x)
  | _, _, _ => false

/-- wait contexts the thread is going to set -/
def PC.pend : PC → List Nat
  | .mv7 _ _ _ ws _ | .me6 _ _ ws => ws
  | _ => []

/-- the key of the move an allocation is for -/
def Cont.pw (k : Key) : Cont → Key → Bool
  | .user, _ => false
  | .move _, x => decide (k = x)

/-- threads that are moving an item with key `k` and have not taken its waiters yet -/
def PC.pw : PC → Key → Bool
  | .alloc k c, x | .mem _ k c, x | .ctor _ k c, x | .ev1 _ k c, x | .ev2 _ k c, x | .ev3 _ k c, x
  | .ev4 _ k c, x | .rel1 _ (.recycle k c), x | .rel2 _ (.recycle k c), x => c.pw k x
  | .rel1 _ (.evictOld k _), x | .rel2 _ (.evictOld k _), x => decide (k = x)
  | .mv1 k _, x | .mv2 k _ _, x | .mv3 k _ _, x | .mv3b k _ _, x | .mvF k _ _, x | .mvF2 k _ _, x
  | .mv4 k _ _, x | .mv5 k _ _, x | .mv6 k _ _, x | .me1 k _, x | .me2 k _, x | .me3 k _, x | .me4 k _, x
  | .me5 k _, x => decide (k = x)
  | _, _ => false

theorem mo_pw (q : PC) (x : Addr) (h : 1 ≤ q.mo x) : ∃ k, q.kat x k = true ∧ q.pw k = true := by
  have hc : ∀ (k : Key) (c : Cont), 1 ≤ c.old x → c.kat k x k = true ∧ c.pw k k = true := by
    intro k c hh
    cases c <;> simp_all [Cont.kat, Cont.old, Cont.pw, ind]
    split at hh <;> first | assumption | omega
  cases q with
  | rel1 a rc | rel2 a rc =>
    cases rc with
    | done | freeOld => simp [PC.mo] at h
    | evictOld k o => simp [PC.mo, ind] at h; split at h <;> simp_all [PC.kat, PC.pw]
    | recycle k c => exact ⟨k, hc k c h⟩
  | alloc k c | mem a k c | ev1 v k c | ev2 v k c | ev3 v k c | ev4 v k c => exact ⟨k, hc k c h⟩
  | ctor a k c => exact ⟨k, by simp [PC.kat, (hc k c h).1], (hc k c h).2⟩
  | _ =>
    simp [PC.mo, ind] at h
    all_goals (split at h <;> simp_all [PC.kat, PC.pw])

/-- every wait context has one key and is in one place -/
structure WI (s : State) (wk : Nat → Key) : Prop where
  mctx : ∀ k, ∀ w ∈ s.mctx k, wk w = k ∧ w < s.nextW
  mail : ∀ m ∈ s.mail, wk m.w = m.k ∧ m.w < s.nextW
  thr : ∀ q ∈ s.thr, ∀ w k, q.wp w k = true → wk w = k ∧ w < s.nextW
  cnt : ∀ w, (s.mctx (wk w)).count w + tot (fun q => q.pend.count w) s.thr + s.mail.countP (fun m => m.w = w) +
    s.done.count w + s.lost.count w = ind (w < s.nextW)
  mov : ∀ k, s.mctx k ≠ [] → ∃ q ∈ s.thr, q.pw k = true

def W (s : State) : Prop := ∃ wk, WI s wk

theorem W.bad (h : W s) : W (bad s) := by
  obtain ⟨wk, h1, h2, h3, h4, h5⟩ := h; exact ⟨wk, h1, h2, h3, h4, h5⟩

theorem W.touch {t : State} (h : W s) (ht : W t) : W (touch s a t) := by
  unfold Verif.CacheProto.touch; split
  · exact ht
  · exact h.bad

/-- the fields `W` depends on -/
theorem W.congr (h : W s) (h1 : s'.thr = s.thr) (h2 : s'.mctx = s.mctx) (h3 : s'.mail = s.mail) (h4 : s'.nextW = s.nextW)
    (h5 : s'.done = s.done) (h6 : s'.lost = s.lost) : W s' := by
  obtain ⟨wk, g1, g2, g3, g4, g5⟩ := h
  exact ⟨wk, by rw [h2, h4]; exact g1, by rw [h3, h4]; exact g2, by rw [h1, h4]; exact g3,
    by rw [h1, h2, h3, h4, h5, h6]; exact g4, by rw [h1, h2]; exact g5⟩

theorem thr_all {P : PC → Prop} (hp : s.thr[i]? = some p) (h : ∀ q ∈ s.thr, P q) (h' : P p') :
    ∀ q ∈ s.thr.set i p', P q := by
  intro q hq
  obtain ⟨j, hj⟩ := mem_get hq
  rcases set_get hp hj with ⟨_, e⟩ | ⟨_, e⟩
  · subst e; exact h'
  · exact h q (List.mem_of_getElem? e)

theorem thr_ex {P : PC → Prop} (hp : s.thr[i]? = some p) (h : ∃ q ∈ s.thr, P q) (h' : P p → P p') :
    ∃ q ∈ s.thr.set i p', P q := by
  obtain ⟨q, hq, hP⟩ := h
  obtain ⟨j, hj⟩ := mem_get hq
  by_cases hji : j = i
  · subst hji; rw [hp] at hj; injection hj with hj; subst hj
    have hlt : j < s.thr.length := (List.getElem?_eq_some_iff.mp hp).1
    exact ⟨p', List.mem_of_getElem? (i := j) (by simp [hlt]), h' hP⟩
  · exact ⟨q, List.mem_of_getElem? (i := j) (by rw [List.getElem?_set_ne (by omega)]; exact hj), hP⟩

/-- only the program counter changes -/
theorem W.pc (h : W s) (hp : s.thr[i]? = some p) (ht : s'.thr = s.thr) (h2 : s'.mctx = s.mctx) (h3 : s'.mail = s.mail)
    (h4 : s'.nextW = s.nextW) (h5 : s'.done = s.done) (h6 : s'.lost = s.lost)
    (hw : ∀ w k, p'.wp w k = true → p.wp w k = true) (hpe : p'.pend = p.pend)
    (hpw : ∀ k, p.pw k = true → p'.pw k = true) : W (at_ s' i p') := by
  refine W.congr (s := { s with thr := s.thr.set i p' }) ?_ (by simp [at_, ht]) h2 h3 h4 h5 h6
  obtain ⟨wk, g1, g2, g3, g4, g5⟩ := h
  refine ⟨wk, g1, g2, thr_all hp g3 (fun w k hh => g3 p (List.mem_of_getElem? hp) w k (hw w k hh)), ?_, ?_⟩
  · intro w
    have := tot_set (fun q => q.pend.count w) hp p'
    have := g4 w
    simp only [hpe] at *; omega
  · intro k hk; exact thr_ex hp (g5 k hk) (hpw k)

/-- a new wait context -/
theorem W.add (h : W s) (hp : s.thr[i]? = some p) (kk : Key) (hpe : p'.pend = p.pend)
    (hw : ∀ w k, p'.wp w k = true → w = s.nextW ∧ k = kk) (hpw : ∀ k, p.pw k = true → p'.pw k = true)
    (hmv : ∃ q ∈ s.thr, q.pw kk = true) :
    W (at_ { s with mctx := upd s.mctx kk (s.mctx kk ++ [s.nextW]), nextW := s.nextW + 1 } i p') := by
  obtain ⟨wk, h1, h2, h3, h4, h5⟩ := h
  have hnew : ∀ k, s.nextW ∉ s.mctx k := by
    intro k hk; have := (h1 k _ hk).2; omega
  refine ⟨upd wk s.nextW kk, ?_, ?_, ?_, ?_, ?_⟩
  · intro k w hw'
    show upd wk s.nextW kk w = k ∧ w < s.nextW + 1
    rw [upd]
    have hw' : w ∈ upd s.mctx kk (s.mctx kk ++ [s.nextW]) k := hw'
    unfold upd at hw'
    split at hw'
    · rename_i e
      rcases List.mem_append.mp hw' with e' | e'
      · have := h1 _ w e'
        rw [if_neg (by omega), e]; exact ⟨this.1, by omega⟩
      · simp at e'; rw [if_pos e', e]; exact ⟨rfl, by omega⟩
    · have := h1 _ w hw'
      rw [if_neg (by omega)]; exact ⟨this.1, by omega⟩
  · intro m hm'
    have := h2 m hm'
    show upd wk s.nextW kk m.w = m.k ∧ m.w < s.nextW + 1
    rw [upd, if_neg (by omega)]; exact ⟨this.1, by omega⟩
  · refine thr_all (p' := p') hp ?_ ?_
    · intro q hq w k hqw
      have := h3 q hq w k hqw
      show upd wk s.nextW kk w = k ∧ w < s.nextW + 1
      rw [upd, if_neg (by omega)]; exact ⟨this.1, by omega⟩
    · intro w k hh
      obtain ⟨e1, e2⟩ := hw w k hh
      show upd wk s.nextW kk w = k ∧ w < s.nextW + 1
      rw [upd, if_pos e1, e2]; exact ⟨rfl, by omega⟩
  · intro w
    have t1 := tot_set (fun q => q.pend.count w) hp p'
    have t2 := h4 w
    show (upd s.mctx kk (s.mctx kk ++ [s.nextW]) (upd wk s.nextW kk w)).count w +
      tot (fun q => q.pend.count w) (s.thr.set i p') + s.mail.countP (fun m => m.w = w) +
      s.done.count w + s.lost.count w = ind (w < s.nextW + 1)
    simp only [hpe] at t1
    have e0 : ind (w < s.nextW + 1) = ind (w < s.nextW) + ind (w = s.nextW) := by
      simp only [ind]; split <;> split <;> split <;> omega
    rw [e0]
    by_cases hwn : w = s.nextW
    · subst hwn
      have e1 : upd wk s.nextW kk s.nextW = kk := by simp [upd]
      have e2 : (s.mctx (wk s.nextW)).count s.nextW = 0 := List.count_eq_zero.mpr (hnew _)
      have e3 : (s.mctx kk ++ [s.nextW]).count s.nextW = 1 := by
        rw [List.count_append, List.count_eq_zero.mpr (hnew _)]; simp
      rw [e1, show upd s.mctx kk (s.mctx kk ++ [s.nextW]) kk = s.mctx kk ++ [s.nextW] by simp [upd], e3]
      have e4 : ind (s.nextW = s.nextW) = 1 := by simp [ind]
      rw [e4]
      omega
    · have e1 : upd wk s.nextW kk w = wk w := by simp [upd, hwn]
      rw [e1]
      have e4 : ind (w = s.nextW) = 0 := by simp [ind, hwn]
      rw [e4]
      have e5 : (upd s.mctx kk (s.mctx kk ++ [s.nextW]) (wk w)).count w = (s.mctx (wk w)).count w := by
        unfold upd; split
        · rename_i e; rw [← e, List.count_append, List.count_singleton]; simp [Ne.symm hwn]
        · rfl
      omega
  · intro k hk
    refine thr_ex (p' := p') hp ?_ (hpw k)
    by_cases hkk : k = kk
    · subst hkk; exact hmv
    · apply h5
      have hk : upd s.mctx kk (s.mctx kk ++ [s.nextW]) k ≠ [] := hk
      simpa [upd, hkk] using hk

/-- the waiters of `kk` are collected -/
theorem W.collect (h : W s) (hp : s.thr[i]? = some p) (kk : Key) (hp0 : p.pend = []) (hpe : p'.pend = s.mctx kk)
    (hw : ∀ w k, p'.wp w k = true → w ∈ s.mctx kk ∧ k = kk) (hpw : ∀ k, p.pw k = true → k = kk) :
    W (at_ { s with mctx := upd s.mctx kk [] } i p') := by
  obtain ⟨wk, h1, h2, h3, h4, h5⟩ := h
  refine ⟨wk, ?_, h2, ?_, ?_, ?_⟩
  · intro k w hw'
    have hw' : w ∈ upd s.mctx kk [] k := hw'
    unfold upd at hw'
    split at hw'
    · cases hw'
    · exact h1 k w hw'
  · refine thr_all (p' := p') hp h3 ?_
    intro w k hh
    obtain ⟨e1, e2⟩ := hw w k hh
    subst e2; exact h1 k w e1
  · intro w
    have t1 := tot_set (fun q => q.pend.count w) hp p'
    have t2 := h4 w
    show (upd s.mctx kk [] (wk w)).count w + tot (fun q => q.pend.count w) (s.thr.set i p') +
      s.mail.countP (fun m => m.w = w) + s.done.count w + s.lost.count w = ind (w < s.nextW)
    simp only [hpe, hp0, List.count_nil] at t1
    have e5 : (upd s.mctx kk [] (wk w)).count w + (s.mctx kk).count w = (s.mctx (wk w)).count w := by
      unfold upd; split
      · rename_i e; rw [e]; simp
      · rename_i e
        have : (s.mctx kk).count w = 0 := by
          apply List.count_eq_zero.mpr
          intro hh; exact e (h1 kk w hh).1
        omega
    omega
  · intro k hk
    have hk : upd s.mctx kk [] k ≠ [] := hk
    unfold upd at hk
    split at hk
    · exact absurd rfl hk
    · rename_i hne
      exact thr_ex (p' := p') hp (h5 k hk) (fun hh => absurd (hpw k hh) hne)

/-- one wait context is set or dropped -/
theorem W.pop (h : W s) (hp : s.thr[i]? = some p) {w0 : Nat} {k0 : Key} (hpe : p.pend = w0 :: p'.pend)
    (hp0 : p.wp w0 k0 = true) (r : Option Addr)
    (hw : ∀ w k, p'.wp w k = true → p.wp w k = true) (hpw : ∀ k, p.pw k = true → p'.pw k = true)
    (m : Bool) {us : List Hdl} {wd : Addr → Word} :
    W (at_ { s with word := wd, usr := us, mail := if m then ⟨w0, k0, r⟩ :: s.mail else s.mail, lost := if m then s.lost else w0 :: s.lost } i p') := by
  obtain ⟨wk, h1, h2, h3, h4, h5⟩ := h
  have h30 := h3 p (List.mem_of_getElem? hp) w0 k0 hp0
  refine ⟨wk, h1, ?_, thr_all hp h3 (fun w k hh => h3 p (List.mem_of_getElem? hp) w k (hw w k hh)), ?_,
    fun k hk => thr_ex (p' := p') hp (h5 k hk) (hpw k)⟩
  · intro g hg
    have hg : g ∈ (if m then ⟨w0, k0, r⟩ :: s.mail else s.mail) := hg
    split at hg
    · rcases List.mem_cons.mp hg with e | e
      · subst e; exact h30
      · exact h2 g e
    · exact h2 g hg
  · intro w
    have t1 := tot_set (fun q => q.pend.count w) hp p'
    have t2 := h4 w
    show (s.mctx (wk w)).count w + tot (fun q => q.pend.count w) (s.thr.set i p') +
      (if m then ⟨w0, k0, r⟩ :: s.mail else s.mail).countP (fun m => m.w = w) + s.done.count w +
      (if m then s.lost else w0 :: s.lost).count w = ind (w < s.nextW)
    simp only [hpe, List.count_cons] at t1
    cases m
    · simp only [Bool.false_eq_true, if_false, List.count_cons]; omega
    · simp only [if_true, List.countP_cons, decide_eq_true_eq]
      simp only [beq_iff_eq] at t1; omega

theorem count_erase {ml : List Mail} {m : Mail} (h : m ∈ ml) (w : Nat) :
    (ml.erase m).countP (fun g => g.w = w) + ind (m.w = w) = ml.countP (fun g => g.w = w) := by
  induction ml with
  | nil => cases h
  | cons x ml ih =>
    by_cases hx : x = m
    · subst hx; simp [List.countP_cons, ind]
    · have hm : m ∈ ml := by
        rcases List.mem_cons.mp h with e | e
        · exact absurd e.symm hx
        · exact e
      have := ih hm
      rw [List.erase_cons_tail (by simpa using hx)]
      simp only [List.countP_cons] at this ⊢
      omega

theorem count_eraseIdx {ml : List Mail} {j : Nat} {m : Mail} (h : ml[j]? = some m) (w : Nat) :
    (ml.eraseIdx j).countP (fun g => g.w = w) + ind (m.w = w) = ml.countP (fun g => g.w = w) := by
  induction ml generalizing j with
  | nil => simp at h
  | cons x ml ih =>
    cases j with
    | zero => simp at h; subst h; simp [List.countP_cons, ind]
    | succ j =>
      have := ih (j := j) (by simpa using h)
      simp only [List.eraseIdx_cons_succ, List.countP_cons] at this ⊢
      omega

/-- a wait context is consumed -/
theorem W.consume (h : W s) {ml : List Mail} {w0 : Nat} (hsub : ∀ m ∈ ml, m ∈ s.mail)
    (hc : ∀ w, ml.countP (fun m => m.w = w) + ind (w0 = w) = s.mail.countP (fun m => m.w = w)) {us : List Hdl} :
    W { s with usr := us, mail := ml, done := w0 :: s.done } := by
  obtain ⟨wk, h1, h2, h3, h4, h5⟩ := h
  refine ⟨wk, h1, fun m hm => h2 m (hsub m hm), h3, ?_, h5⟩
  intro w
  have t2 := h4 w
  have t3 := hc w
  show (s.mctx (wk w)).count w + tot (fun q => q.pend.count w) s.thr +
      ml.countP (fun m => m.w = w) + (w0 :: s.done).count w + s.lost.count w = ind (w < s.nextW)
  rw [List.count_cons]
  have : (if (w0 == w) = true then 1 else 0) = ind (w0 = w) := by simp [ind]
  omega

theorem step_iorWait (h : Inv s) (hW : W s) {k : Key} {w : Nat} (hp : s.thr[i]? = some (.iorWait k a w)) :
    Inv (match s.mail.find? (fun m => m.w = w) with
    | none => s
    | some m =>
      match m.r with
      | none => at_ { s with mail := s.mail.erase m, done := m.w :: s.done } i .idle
      | some x => at_ { s with mail := s.mail.erase m, done := m.w :: s.done } i (.ior7 k a x)) := by
  obtain ⟨f1, f2, f3, f4, f5, f6, f7, f8⟩ := h.facts hp
  split
  · exact h
  · rename_i m hm
    have hmem := List.mem_of_find?_eq_some hm
    have hw : m.w = w := by simpa using List.find?_some hm
    have hml : ∀ g ∈ s.mail.erase m, ∀ x, g.r = some x → s.key x = g.k :=
      fun g hg x hx => h.mlk g (List.mem_of_mem_erase hg) x hx
    have hmk : m.k = k := by
      obtain ⟨wk, _, h2, h3, _, _⟩ := hW
      have e1 := (h2 m hmem).1
      have e2 := (h3 _ (List.mem_of_getElem? hp) w k (by simp [PC.wp])).1
      rw [← e1, hw, e2]
    split
    · rename_i hr
      refine (inv_hand (us := s.usr) (ml := s.mail.erase m) (p' := .idle) h hp ?_ (fun _ => rfl) (fun _ => rfl)
        (fun _ => rfl) (fun b => Nat.le_refl _) h.hk hml (by lks) (fun _ => rfl) (by fin) s.mctx s.nextW).ghost (m.w :: s.done) s.lost
      intro b
      have := mcl_erase hmem b
      rw [hr] at this
      rw [uc_eq, ← mc_eq]
      simp [PC.own, ind] at this ⊢; exact this
    · rename_i x hr
      have hk := h.mlk m hmem x hr
      rw [hmk] at hk
      refine (inv_hand (us := s.usr) (ml := s.mail.erase m) (p' := .ior7 k a x) h hp ?_ (fun _ => rfl) (fun _ => rfl)
        (fun _ => rfl) (fun b => Nat.le_refl _) h.hk hml (by lks) (fun _ => rfl) (by fin) s.mctx s.nextW).ghost (m.w :: s.done) s.lost
      intro b
      have := mcl_erase hmem b
      rw [hr] at this
      rw [uc_eq, ← mc_eq]
      have e : ind (some x = some b) = ind (x = b) := by simp [ind]
      rw [e] at this
      simp only [PC.own]; omega

/-- The user obligations hold. -/
def cfgOk : Cfg := ⟨true, true⟩

theorem usr_uc {j : Nat} {g : Hdl} (h : s.usr[j]? = some g) : 1 ≤ s.uc g.a := by
  have := List.mem_of_getElem? h
  exact List.countP_pos_iff.mpr ⟨g, this, by simp⟩

theorem mayInsert_spec (h : mayInsert cfgOk s a = true) : ∀ q ∈ s.thr, q.inserting a = false := by
  intro q hq
  simp [mayInsert, cfgOk] at h
  simpa using h q hq

theorem start_inv (h : Inv s) (hp : s.thr[i]? = some .idle) (op : Op) : Inv (start cfgOk s i op) := by
  cases op with
  | allocate k =>
    refine inv_pc h hp ?_ (by lks) (by intro x; rfl) (by fin) s.mctx s.nextW
    constructor <;> intro b <;> rfl
  | find k =>
    simp only [start]
    split
    · split
      · exact h
      · exact inv_pc h hp (by same) (by lks) (by intro x; rfl) (by fin) s.mctx s.nextW
    · exact h
  | clone j =>
    simp only [start]
    split
    · exact h
    · rename_i g hg
      have hu := usr_uc hg
      have hx := h.usr_spec hu
      have hl := lv_one (s := s) (a := g.a) (Or.inl hx.1)
      rw [touch_eq (h.live_mem hl).1]
      split
      · exact h
      · rename_i w hi
        have key := inv_inc (a := g.a) (us := g :: s.usr) (ml := s.mail) (p' := .idle) h hp hi ?_ (fun _ => rfl) (fun _ => rfl) (fun _ _ => rfl) ?_ ?_ ?_ h.mlk (Or.inl hu) (by lks)
          (fun _ => rfl) (by fin)
        · rw [set_self hp] at key; exact key
        · intro b; rw [ucl_cons, uc_eq, mc_eq]; simp only [PC.own]; omega
        · simp [PC.raw, hl]
        · intro b; rw [ucl_cons, uc_eq]; omega
        · intro g' hg'
          rcases List.mem_cons.mp hg' with e | e
          · subst e; exact h.hk g' (List.mem_of_getElem? hg)
          · exact h.hk g' e
      · rename_i h1 h2
        exfalso
        cases hi : incRef (s.word g.a) with
        | error e => exact h1 e hi
        | ok r =>
          obtain ⟨w, r⟩ := r
          by_cases hr : r = .ok
          · subst hr; exact h2 w hi
          · have := (inc_not_ok hi hr).1
            have h3 := hx.2
            simp only [State.b20] at h3
            rw [h3] at this; cases this
  | release j =>
    simp only [start]
    split
    · exact h
    · rename_i g hg
      split
      · rename_i hc
        have hu := usr_uc hg
        have hx := h.usr_spec hu
        have hl := lv_one (s := s) (a := g.a) (Or.inl hx.1)
        rw [touch_eq (h.live_mem hl).1]
        have hcount := ucl_eraseIdx hg
        refine inv_drop (us := s.usr.eraseIdx j) h hp hx.2 hx.1 ?_ ?_ ?_ ?_ ?_ ?_ ?_ ?_ ?_ ?_ ?_ (fun _ => rfl) ?_
        · rintro p' (rfl | rfl) b <;> have := hcount b <;> rw [uc_eq] at this <;> simp only [PC.own] <;> omega
        · rintro p' (rfl | rfl) b <;> rfl
        · rintro p' (rfl | rfl) b <;> rfl
        · rintro p' (rfl | rfl) b hb <;> simp [PC.raw, ind, Ne.symm hb]
        · simp [PC.raw, ind]
        · simp [PC.raw]
        · intro b
          have := hcount b
          rw [uc_eq] at this
          by_cases hb : g.a = b
          · subst hb
            rcases hc with h1 | h1
            · right; left
              have h2 : 2 ≤ s.uc g.a := h1
              simp [ind] at this; omega
            · right; right
              intro q hq
              simpa using List.all_eq_true.mp h1 q hq
          · left; simp [ind, hb] at this; omega
        · rintro p' (rfl | rfl) b <;> rfl
        · intro g' hg'; exact h.hk g' (List.mem_of_mem_eraseIdx hg')
        · exact Or.inl hu
        · rintro p' (rfl | rfl) <;> lks
        · rintro p' w (rfl | rfl) <;> fin
      · exact h
  | insert j =>
    simp only [start]
    split
    · exact h
    · rename_i g hg
      have hu := usr_uc hg
      have hk := h.hk g (List.mem_of_getElem? hg)
      split
      · rename_i hm
        have hms := mayInsert_spec hm
        have hx := h.usr_spec hu
        rw [touch_eq (h.live_mem (lv_one (Or.inl hx.1))).1]
        split
        · exact h
        · exact inv_pc h hp (by same) (by clear hm; lks) (by intro x; rfl) (by fin) s.mctx s.nextW
      · exact h
  | insertOrReplace j =>
    simp only [start]
    split
    · exact h
    · rename_i g hg
      have hu := usr_uc hg
      have hk := h.hk g (List.mem_of_getElem? hg)
      split
      · rename_i hm
        have hms := mayInsert_spec hm
        have hx := h.usr_spec hu
        rw [touch_eq (h.live_mem (lv_one (Or.inl hx.1))).1]
        split
        · exact h
        · exact inv_pc h hp (by same) (by clear hm; lks) (by intro x; rfl) (by fin) s.mctx s.nextW
      · exact h
  | remove j =>
    simp only [start]
    split
    · exact h
    · rename_i g hg
      have hu := usr_uc hg
      have hk := h.hk g (List.mem_of_getElem? hg)
      exact inv_pc h hp (by same) (by lks) (by intro x; rfl) (by fin) s.mctx s.nextW
  | removeIfExpired j =>
    simp only [start]
    split
    · exact h
    · rename_i g hg
      have hu := usr_uc hg
      have hk := h.hk g (List.mem_of_getElem? hg)
      exact inv_pc h hp (by same) (by lks) (by intro x; rfl) (by fin) s.mctx s.nextW
  | replace j j' =>
    simp only [start]
    split
    · rename_i g g' hg hg'
      split
      · rename_i hc
        obtain ⟨hkk, hne, hm, hb⟩ := hc
        have hu := usr_uc hg
        have hu' := usr_uc hg'
        have hk := h.hk g (List.mem_of_getElem? hg)
        have hk' := h.hk g' (List.mem_of_getElem? hg')
        have hms := mayInsert_spec hm
        rw [isA] at hb
        have hb' : s.b19 g'.a = false := hb
        exact inv_pc h hp (by same) (by clear hm; lks) (by intro x; rfl) (by fin) s.mctx s.nextW
      · exact h
    · exact h
  | slabRelease a => exact step_slabRelease h hp
  | take j =>
    simp only [start]
    split
    · exact h
    · rename_i m hm
      have hmem := List.mem_of_getElem? hm
      have hml : ∀ g ∈ s.mail.eraseIdx j, ∀ x, g.r = some x → s.key x = g.k :=
        fun g hg x hx => h.mlk g (List.mem_of_mem_eraseIdx hg) x hx
      split
      · exact h
      · cases hr : m.r with
        | none =>
          have key := inv_hand (us := s.usr) (ml := s.mail.eraseIdx j) (p' := .idle) h hp ?_ (fun _ => rfl) (fun _ => rfl)
            (fun _ => rfl) (fun b => Nat.le_refl _) h.hk hml (by lks) (fun _ => rfl) (by fin) s.mctx s.nextW
          · rw [set_self hp] at key; exact key.ghost (m.w :: s.done) s.lost
          · intro b
            have := mcl_eraseIdx hm b
            rw [hr] at this
            rw [uc_eq, ← mc_eq]
            simp [PC.own, ind] at this ⊢; exact this
        | some x =>
          have hk := h.mlk m hmem x hr
          have key := inv_hand (us := ⟨m.k, x⟩ :: s.usr) (ml := s.mail.eraseIdx j) (p' := .idle) h hp ?_ (fun _ => rfl) (fun _ => rfl)
            (fun _ => rfl) ?_ (usr_cons_key h hk) hml (by lks) (fun _ => rfl) (by fin) s.mctx s.nextW
          · rw [set_self hp] at key; exact key.ghost (m.w :: s.done) s.lost
          · intro b
            have := mcl_eraseIdx hm b
            rw [hr] at this
            rw [ucl_cons, uc_eq, ← mc_eq]
            have e : ind (some x = some b) = ind (x = b) := by simp [ind]
            rw [e] at this
            simp only [PC.own]; omega
          · intro b; rw [ucl_cons, uc_eq]; omega

theorem go_inv (h : Inv s) (hW : W s) (hp : s.thr[i]? = some p) (ch : Ch) : Inv (go cfgOk s i ch p) := by
  cases p with
  | idle => exact h
  | alloc k c =>
    cases ch with
    | go => exact h
    | alt => exact step_allocFail h hp
    | fresh b w =>
      simp only [go]
      split
      · rename_i hc; exact step_fresh h hp hc.1 (hc.2 rfl)
      · exact h
    | evict v =>
      simp only [go]
      split
      · rename_i hm; exact step_evict h hp hm
      · exact h
  | mem a k c =>
    cases ch <;> cases c <;> first | exact step_memFail h hp | exact step_mem h hp
  | ctor a k c => exact step_ctor h hp
  | ev1 v k c => exact step_ev1 h hp
  | ev2 v k c => exact step_ev2 h hp
  | ev3 v k c => exact step_ev3 h hp
  | ev4 v k c => exact step_ev4 h hp
  | find k a => exact step_find h hp
  | findW k a => exact step_findW h hp
  | rel1 a rc => exact step_rel1 h hp
  | rel2 a rc => exact step_rel2 h hp
  | ins1 k a => exact step_ins1 h hp
  | ins2 k a => exact step_ins2 h hp
  | ins3 k a => exact step_ins3 h hp
  | ins4 k a => exact step_ins4 h hp
  | ior1 k a => exact step_ior1 h hp
  | ior2 k a => exact step_ior2 h hp
  | ior3 k a => exact step_ior3 h hp
  | ior4 k a o => exact step_ior4 h hp
  | ior4w k a o => exact step_ior4w h hp
  | ior5 k a o r => exact step_ior5 h hp
  | ior6 k a o r => exact step_ior6 h hp
  | ior7 k a x => exact step_ior7 h hp
  | iorWait k a w => exact step_iorWait h hW hp
  | iorX k a => exact step_iorX h hp
  | rm1 k a => exact step_rm1 h hp
  | rm2 k a => exact step_rm2 h hp
  | rx1 k a => exact step_rx1 h _ hp
  | rx2 k a => exact step_rx2 h hp
  | rx3 k a => exact step_rx3 h hp
  | rx4 k a => exact step_rx4 h hp
  | rx5 k a => exact step_rx5 h hp
  | rp1 k o n => exact step_rp1 h hp
  | rp2 k o n => exact step_rp2 h hp
  | rp3 k o n => exact step_rp3 h hp
  | rp4 k o n => exact step_rp4 h hp
  | rp5 k o n => exact step_rp5 h hp
  | rp6 k o n => exact step_rp6 h hp
  | rp7 k o n => exact step_rp7 h hp
  | mv1 k a => exact step_mv1 h _ hp
  | mv2 k a n =>
    have := step_mv2 h (decide (ch = .go)) hp
    simp only [decide_eq_true_eq] at this
    exact this
  | mv3 k a n => exact step_mv3 h hp
  | mv3b k a n => exact step_mv3b h hp
  | mvF k a n => exact step_mvF h hp
  | mvF2 k a n => exact step_mvF2 h hp
  | mv4 k a n => exact step_mv4 h hp
  | mv5 k a n => exact step_mv5 h hp
  | mv6 k a n => exact step_mv6 h hp
  | mv7 k a n ws ov => exact step_mv7 h hp
  | mv8 k a n => exact step_mv8 h hp
  | mv9 a => exact step_mv9 h hp
  | me1 k a => exact step_me1 h hp
  | me2 k a => exact step_me2 h hp
  | me3 k a => exact step_me3 h hp
  | me4 k a => exact step_me4 h hp
  | me5 k a => exact step_me5 h hp
  | me6 k a ws => exact step_me6 h hp

end Verif.CacheProto
