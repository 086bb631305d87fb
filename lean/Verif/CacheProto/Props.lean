import Verif.CacheProto.Wait
/-!
C43: the life cycle of cache items under any schedule of any number of threads.

All theorems are about every run `run ⟨true, true⟩ (init n) as`: any number of threads `n`, any list of actions
(calls begun by idle threads, steps of running calls, choices of the environment).  The specification is
written on the raw reference word: bits 0-17 count handles, bit 18 = in an eviction list, bit 19 = accessible
through the index, bit 20 = exclusive.
-/
namespace Verif.CacheProto
open Verif.Refcount

namespace Spec
/-- states the cache can be in -/
def Reachable (s : State) : Prop := ∃ (n : Nat) (as : List Act), s = run ⟨true, true⟩ (init n) as

/-- number of handles on item `a` the user holds or has waiting for him -/
def handles (s : State) (a : Addr) : Nat :=
  s.usr.countP (fun h => h.a = a) + s.mail.countP (fun m => m.r = some a)

/-- the number stored in the word -/
def count (s : State) (a : Addr) : Nat := (s.word a).toNat % 2 ^ 18
def linked (s : State) (a : Addr) : Bool := (s.word a).getLsbD 18
def accessible (s : State) (a : Addr) : Bool := (s.word a).getLsbD 19
def exclusive (s : State) (a : Addr) : Bool := (s.word a).getLsbD 20

/-- no call is running -/
def Quiet (s : State) : Prop := ∀ p ∈ s.thr, p = PC.idle

/-- the running call is taking item `a` away from the cache: evicting it or moving it out of a slab that
is being released (from the mark to the release of the mark) -/
inductive Taking : PC → Addr → Prop
  | ev1 : Taking (.ev1 a k c) a
  | ev2 : Taking (.ev2 a k c) a
  | ev3 : Taking (.ev3 a k c) a
  | ev4 : Taking (.ev4 a k c) a
  | mv1 : Taking (.mv1 k a) a
  | mvAlloc : Taking (.alloc k (.move a)) a
  | mvMem : Taking (.mem n k (.move a)) a
  | mvCtor : Taking (.ctor n k (.move a)) a
  | mvEv1 : Taking (.ev1 v k (.move a)) a
  | mvEv2 : Taking (.ev2 v k (.move a)) a
  | mvEv3 : Taking (.ev3 v k (.move a)) a
  | mvEv4 : Taking (.ev4 v k (.move a)) a
  | mvRel1 : Taking (.rel1 v (.recycle k (.move a))) a
  | mvRel2 : Taking (.rel2 v (.recycle k (.move a))) a
  | mv2 : Taking (.mv2 k a n) a
  | mv3 : Taking (.mv3 k a n) a
  | mv3b : Taking (.mv3b k a n) a
  | mvF : Taking (.mvF k a n) a
  | mvF2 : Taking (.mvF2 k a n) a
  | mvFRel1 : Taking (.rel1 n (.evictOld k a)) a
  | mvFRel2 : Taking (.rel2 n (.evictOld k a)) a
  | mv4 : Taking (.mv4 k a n) a
  | mv5 : Taking (.mv5 k a n) a
  | me1 : Taking (.me1 k a) a
  | me2 : Taking (.me2 k a) a
  | me3 : Taking (.me3 k a) a
  | me4 : Taking (.me4 k a) a

/-- the running call is about to give the memory of `a` back (or to reuse it) -/
inductive Freeing : PC → Addr → Prop
  | rel1 : Freeing (.rel1 a rc) a
  | rel2 : Freeing (.rel2 a rc) a
  | old1 : Freeing (.rel1 n (.freeOld a)) a
  | old2 : Freeing (.rel2 n (.freeOld a)) a
  | mv6 : Freeing (.mv6 k a n) a
  | mv7 : Freeing (.mv7 k a n ws ov) a
  | mv8 : Freeing (.mv8 k a n) a
  | mv9 : Freeing (.mv9 a) a
  | me5 : Freeing (.me5 k a) a
  | me6 : Freeing (.me6 k a ws) a
  | mem : Freeing (.mem a k c) a
  | ctor : Freeing (.ctor a k c) a

/-- The reasons why the index entry of `k` changes from `x` to `y` by a step of a thread at `p`. -/
inductive Change (s : State) (k : Key) : PC → Option Addr → Option Addr → Prop
  /-- `insert`: only if there was no entry -/
  | insert : Change s k (.ins3 k a) none (some a)
  /-- `insertOrReplace` -/
  | put : Change s k (.ior3 k a) none (some a)
  | replace : Change s k (.ior5 k a o r) (some o) (some a)
  /-- removal asked for by the user, of exactly that item -/
  | remove : Change s k (.rm1 k a) (some a) none
  | expired : Change s k (.rx3 k a) (some a) none
  /-- replacing a parent by another one, asked for by the user -/
  | swapOut : Change s k (.rp1 k o n) (some o) none
  | swapIn : Change s k (.rp2 k o n) none (some n)
  | swapUndo : Change s k (.rp5 k o n) (some n) none
  /-- eviction: nobody holds the item -/
  | evict : handles s v = 0 → Change s k (.ev2 v k' c) (some v) none
  | evictSlab : handles s v = 0 → Change s k (.me2 k v) (some v) none
  /-- slab release: nobody holds the item; the same step sequence, under the bucket lock, puts the copy in -/
  | moveOut : handles s a = 0 → Change s k (.mv3 k a n) (some a) none
  | moveIn : Change s k (.mv3b k a n) none (some n)

end Spec
open Spec

variable {s : State} {a b : Addr} {k : Key}

theorem reach_inv (h : Reachable s) : Inv s ∧ W s := by
  obtain ⟨n, as, rfl⟩ := h; exact run_inv n as

theorem handles_eq (s : State) (a : Addr) : handles s a = s.uc a + s.mc a := rfl

theorem Spec.Taking.ex {p : PC} (h : Taking p a) : 1 ≤ p.ex a := by
  cases h <;> simp [PC.ex, PC.mo, Cont.old, ind]

theorem Spec.Freeing.raw {p : PC} (h : Freeing p a) : 1 ≤ p.raw a := by
  cases h
  case rel1 rc => cases rc <;> simp [PC.raw, ind]
  case rel2 rc => cases rc <;> simp [PC.raw, ind]
  all_goals simp [PC.raw, ind]

theorem uc_pos {h : Hdl} (hh : h ∈ s.usr) : 1 ≤ s.uc h.a :=
  List.countP_pos_iff.mpr ⟨h, hh, by simp⟩

theorem mc_pos {m : Mail} (hm : m ∈ s.mail) (hr : m.r = some a) : 1 ≤ s.mc a :=
  List.countP_pos_iff.mpr ⟨m, hm, by simp [hr]⟩

/-- C43: no run touches memory that was given back, frees memory twice, releases an item that is still
referenced, linked or accessible, lets a reference count underflow, or removes from the index what is not
there. -/
theorem no_fault (h : Reachable s) : s.fault = false := (reach_inv h).1.nf

/-- C43: an item the user holds a handle to (or has a ready handle waiting for him) is allocated and still
has the key it was asked for. -/
theorem handle_valid (h : Reachable s) :
    (∀ hd ∈ s.usr, s.mem hd.a = true ∧ s.key hd.a = hd.k) ∧
    (∀ m ∈ s.mail, ∀ a, m.r = some a → s.mem a = true ∧ s.key a = m.k) := by
  have hi := (reach_inv h).1
  refine ⟨fun hd hh => ⟨?_, hi.hk hd hh⟩, fun m hm a hr => ⟨?_, hi.mlk m hm a hr⟩⟩
  · have := hi.usr_spec (uc_pos hh)
    exact (hi.live_mem (lv_one (Or.inl this.1))).1
  · have h1 := hi.cnt a
    have h2 := mc_pos hm hr
    exact (hi.live_mem (lv_one (Or.inl (by omega)))).1

/-- C43: what the index maps `k` to is an allocated item with key `k` whose accessible flag is set. -/
theorem index_valid (h : Reachable s) (hk : s.idx k = some a) :
    s.mem a = true ∧ s.key a = k ∧ accessible s a = true := by
  have hi := (reach_inv h).1
  have := hi.idk k a hk
  exact ⟨(hi.live_mem (lv_one (Or.inr (Or.inr (Or.inl this.2))))).1, this.1, this.2⟩

/-- C43: an item is in an eviction list iff its flag says so, and then it is allocated. -/
theorem list_valid (h : Reachable s) : s.mm a = linked s a ∧ (s.mm a = true → s.mem a = true) := by
  have hi := (reach_inv h).1
  have h1 := hi.lnk a
  refine ⟨h1.symm, fun h2 => ?_⟩
  rw [h2] at h1
  exact (hi.live_mem (lv_one (Or.inr (Or.inl h1)))).1

/-- C43: nothing refers to freed memory: no handle, no ready handle, no index entry, no eviction list. -/
theorem free_unreferenced (h : Reachable s) (hm : s.mem a = false) :
    handles s a = 0 ∧ (∀ k, s.idx k ≠ some a) ∧ s.mm a = false ∧ count s a = 0 := by
  have hi := (reach_inv h).1
  have hl : s.lv a = 0 := by
    have := hi.liv a
    rw [hm] at this
    simp [ind] at this; omega
  obtain ⟨h1, h2, h3, h4⟩ := lv_zero hl
  have hc := hi.cnt a
  refine ⟨by rw [handles_eq]; omega, fun k hk => ?_, ?_, h1⟩
  · have := (hi.idk k a hk).2
    rw [h3] at this; cases this
  · have := hi.lnk a
    rw [← this]; exact h2

/-- C43: the reference count never drops below the number of handles the user holds or has waiting. -/
theorem count_covers (h : Reachable s) : handles s a ≤ count s a := by
  have := (reach_inv h).1.cnt a
  show s.uc a + s.mc a ≤ s.rf a
  omega

theorem quiet_tot (f : PC → Nat) (hf : f .idle = 0) (hq : Quiet s) : tot f s.thr = 0 :=
  tot_zero_of_all f (fun q hq' => by rw [hq q hq']; exact hf)

/-- C43: when no call is running, the reference count of every item is exactly the number of handles, no
item is marked as exclusive, and the accessible flag is set exactly for what the index holds. -/
theorem quiet_exact (h : Reachable s) (hq : Quiet s) :
    count s a = handles s a ∧ exclusive s a = false ∧
    (accessible s a = true ↔ s.idx (s.key a) = some a) := by
  have hi := (reach_inv h).1
  refine ⟨?_, ?_, fun h1 => ?_, fun h1 => (hi.idk _ _ h1).2⟩
  · have h1 := hi.cnt a
    rw [quiet_tot _ rfl hq, quiet_tot _ rfl hq] at h1
    exact h1
  · have h1 := hi.exc a
    rw [quiet_tot _ rfl hq] at h1
    show s.b20 a = false
    cases hb : s.b20 a with
    | false => rfl
    | true => simp [hb, ind] at h1
  · rcases hi.acI a h1 with h2 | ⟨q, hq', h2⟩
    · exact h2
    · rw [hq q hq'] at h2; cases h2

/-- C43: no leak: when no call is running, every allocated item is reachable: through an eviction list,
through the index, or through a handle. -/
theorem no_leak (h : Reachable s) (hq : Quiet s) (hm : s.mem a = true) :
    s.mm a = true ∨ s.idx (s.key a) = some a ∨ 1 ≤ handles s a := by
  have hi := (reach_inv h).1
  have hl : s.lv a = 1 := by
    have := hi.liv a
    rw [hm, quiet_tot _ rfl hq] at this
    simpa [ind] using this
  obtain ⟨h1, h2, h3⟩ := quiet_exact (a := a) h hq
  cases hb : s.b18 a with
  | true => exact Or.inl (by rw [← hi.lnk a]; exact hb)
  | false =>
    cases hb' : s.b19 a with
    | true => exact Or.inr (Or.inl (h3.mp hb'))
    | false =>
      refine Or.inr (Or.inr ?_)
      rw [← h1]
      apply Classical.byContradiction
      intro hne
      have hz : s.rf a = 0 := by simp only [count] at hne; show (s.word a).toNat % 2 ^ 18 = 0; omega
      have : s.lv a = 0 := by
        have h2' : s.b20 a = false := h2
        simp [State.lv, ind, hz, hb, hb', h2']
      omega

/-- C43: an item that is being evicted or moved out of a slab is not held by anybody, is allocated and
marked exclusive. -/
theorem taking_unheld (h : Reachable s) {p : PC} (hp : p ∈ s.thr) (ht : Taking p a) :
    handles s a = 0 ∧ s.mem a = true ∧ exclusive s a = true := by
  have hi := (reach_inv h).1
  obtain ⟨j, hj⟩ := mem_get hp
  have he := hi.exc a
  have h1 := tot_ge (·.ex a) hj
  have h2 := ht.ex
  have hb : s.b20 a = true := by
    cases hb : s.b20 a with
    | true => rfl
    | false => simp [hb, ind] at he; omega
  have h3 := hi.exh a hb
  have h4 := hi.cnt a
  refine ⟨by rw [handles_eq]; omega, ?_, hb⟩
  exact (hi.live_mem (lv_one (Or.inr (Or.inr (Or.inr hb))))).1

/-- C43: memory a thread is about to give back or to reuse is referenced by nothing. -/
theorem freeing_unreferenced (h : Reachable s) {p : PC} (hp : p ∈ s.thr) (ht : Freeing p a) :
    handles s a = 0 ∧ s.mem a = true ∧ (∀ k, s.idx k ≠ some a) ∧ s.mm a = false := by
  have hi := (reach_inv h).1
  obtain ⟨j, hj⟩ := mem_get hp
  have h1 := tot_ge (·.raw a) hj
  have h2 := ht.raw
  have h3 := hi.liv a
  have hmem : s.mem a = true := by
    cases hb : s.mem a with
    | true => rfl
    | false => simp [hb, ind] at h3; omega
  have hl : s.lv a = 0 := by simp [hmem, ind] at h3; omega
  obtain ⟨g1, g2, g3, g4⟩ := lv_zero hl
  have hc := hi.cnt a
  refine ⟨by rw [handles_eq]; omega, hmem, fun k hk => ?_, ?_⟩
  · have := (hi.idk k a hk).2
    rw [g3] at this; cases this
  · have := hi.lnk a
    rw [← this]; exact g2

/-- C43: two threads never evict, move or free the same item. -/
theorem one_taker (h : Reachable s) {i j : Nat} {p q : PC} (hp : s.thr[i]? = some p) (hq : s.thr[j]? = some q)
    (hij : i ≠ j) (h1 : Taking p a ∨ Freeing p a) : ¬ (Taking q a ∨ Freeing q a) := by
  have hi := (reach_inv h).1
  intro h2
  have mp := List.mem_of_getElem? hp
  have mq := List.mem_of_getElem? hq
  have ex : ∀ {p : PC}, p ∈ s.thr → Taking p a → ∀ {q : PC}, q ∈ s.thr → Freeing q a → False := by
    intro p hp h1 q hq h2
    have h3 := (taking_unheld h hp h1).2.2
    obtain ⟨j, hj⟩ := mem_get hq
    have h4 := tot_ge (·.raw a) hj
    have h5 := h2.raw
    have h6 := hi.liv a
    have h7 : s.lv a = 1 := lv_one (Or.inr (Or.inr (Or.inr h3)))
    have := ind_le (s.mem a = true)
    omega
  rcases h1 with h1 | h1 <;> rcases h2 with h2 | h2
  · have h3 := tot_ge2 (·.ex a) hp hq (Ne.symm hij)
    have h4 := h1.ex
    have h5 := h2.ex
    have h6 := hi.exc a
    have := ind_le (s.b20 a = true)
    omega
  · exact ex mp h1 mq h2
  · exact ex mq h2 mp h1
  · have h3 := tot_ge2 (·.raw a) hp hq (Ne.symm hij)
    have h4 := h1.raw
    have h5 := h2.raw
    have h6 := hi.liv a
    have := ind_le (s.mem a = true)
    omega

/-- C43: at the moment a lookup acquires its handle, the index still maps the key to that item. -/
theorem find_current (h : Reachable s) (hp : PC.find k a ∈ s.thr) : s.idx k = some a := by
  have := ((reach_inv h).1.fct _ hp).iat k (some a)
  exact this (by simp [PC.iat])

/-- C43: waiting lookups: when no call is running nobody is left waiting, and every wait context that was
ever created was served exactly once: it is ready, consumed, or (only if cloning the handle threw because
of too many references) lost. -/
theorem waiters_served (h : Reachable s) (hq : Quiet s) :
    (∀ k, s.mctx k = []) ∧
    ∀ w, (s.mail.map (·.w) ++ s.done ++ s.lost).count w = if w < s.nextW then 1 else 0 := by
  obtain ⟨wk, hw⟩ := (reach_inv h).2
  have h1 : ∀ k, s.mctx k = [] := by
    intro k
    apply Classical.byContradiction
    intro hne
    obtain ⟨q, hq', h2⟩ := hw.mov k hne
    rw [hq q hq'] at h2; cases h2
  refine ⟨h1, fun w => ?_⟩
  have h2 := hw.cnt w
  rw [h1, quiet_tot _ rfl hq] at h2
  simp only [List.count_nil, ind] at h2
  simp only [List.count_append]
  have h3 : (s.mail.map (·.w)).count w = s.mail.countP (fun m => m.w = w) := by
    rw [List.count, List.countP_map]; congr 1
  rw [h3]; omega

theorem acRemove_idx (s : State) (a : Addr) (k : Key) :
    (acRemove s a).idx k = s.idx k ∨ (k = s.key a ∧ s.idx k = some a ∧ (acRemove s a).idx k = none) := by
  unfold acRemove
  split
  · split
    · by_cases hk : k = s.key a
      · subst hk; rename_i h; right; exact ⟨rfl, h, by simp [upd]⟩
      · left; simp [upd, hk]
    · left; rfl
  · left; rfl

theorem mmRemove_idx (s : State) (a : Addr) : (mmRemove s a).1.idx = s.idx := by unfold mmRemove; split <;> rfl
theorem mmAdd_idx (s : State) (a : Addr) : (mmAdd s a).1.idx = s.idx := by unfold mmAdd; split <;> rfl
theorem free_idx (s : State) (a : Addr) : (free s a).idx = s.idx := by unfold free; split <;> rfl
theorem drop_idx (s : State) (i : Nat) (a : Addr) (p q : PC) : (drop s i a p q).idx = s.idx := by
  unfold drop; split <;> rfl
theorem touch_idx {t : State} (h2 : (touch s a t).idx k ≠ s.idx k) : (touch s a t) = t := by
  unfold touch at h2 ⊢
  split at h2
  · rename_i hm; simp [hm]
  · exact absurd rfl h2

theorem at_idx (s : State) (i : Nat) (p : PC) : (at_ s i p).idx = s.idx := rfl
theorem setW_idx (s : State) (a : Addr) (w : Word) : (setW s a w).idx = s.idx := rfl

theorem start_idx (cfg : Cfg) (s : State) (i : Nat) (op : Op) : (start cfg s i op).idx = s.idx := by
  cases op <;> simp only [start] <;> (repeat' split) <;>
    first
    | rfl
    | (unfold touch; split <;> (repeat' split) <;> first | rfl | simp [drop_idx, at_idx, setW_idx, bad])

theorem acRem_case {i : Nat} {v : Addr} {p' : PC}
    (hne : (touch s v (at_ (acRemove s v) i p')).idx k ≠ s.idx k) :
    (touch s v (at_ (acRemove s v) i p')).idx k = none ∧ s.idx k = some v ∧ s.key v = k := by
  have e := touch_idx hne
  rw [e] at hne ⊢
  rcases acRemove_idx s v k with h1 | ⟨h1, h2, h3⟩
  · exact absurd h1 hne
  · exact ⟨h3, h2, h1.symm⟩

theorem acSet_case {i : Nat} {n : Addr} {k' : Key} {p' : PC}
    (hne : (touch s n (at_ (acSet s k' n) i p')).idx k ≠ s.idx k) :
    (touch s n (at_ (acSet s k' n) i p')).idx k = some n ∧ k' = k := by
  have e := touch_idx hne
  rw [e] at hne ⊢
  by_cases hk : k = k'
  · exact ⟨by simp [at_, acSet, upd, hk], hk.symm⟩
  · exact absurd (by simp [at_, acSet, upd, hk]) hne

theorem swap_case {i : Nat} {o : Addr} {k' : Key} {w : Word} {p' p'' : PC} {c : Bool} (ho : c = true → s.idx k' = some o)
    (hne : (touch s o (if c = true then at_ { setW s o w with idx := upd s.idx k' none } i p' else at_ s i p'')).idx k
      ≠ s.idx k) :
    (touch s o (if c = true then at_ { setW s o w with idx := upd s.idx k' none } i p' else at_ s i p'')).idx k = none ∧
    s.idx k = some o ∧ k' = k := by
  have e := touch_idx hne
  rw [e] at hne ⊢
  cases c with
  | false => exact absurd rfl hne
  | true =>
    simp only [if_true] at hne ⊢
    by_cases hk : k = k'
    · exact ⟨by simp [at_, upd, hk], by rw [hk]; exact ho rfl, hk.symm⟩
    · exact absurd (by simp [at_, setW, upd, hk]) hne

theorem go_idx (h : Inv s) {p : PC} {i : Nat} {ch : Ch} (hp : s.thr[i]? = some p)
    (hne : (go ⟨true, true⟩ s i ch p).idx k ≠ s.idx k) :
    Change s k p (s.idx k) ((go ⟨true, true⟩ s i ch p).idx k) := by
  have hf := h.fct p (List.mem_of_getElem? hp)
  -- eviction and slab release: the item is exclusive, so nobody holds it
  have hn : ∀ b, 1 ≤ p.ex b → handles s b = 0 := by
    intro b hb
    have he := h.exc b
    have h1 := tot_ge (·.ex b) hp
    have hb' : s.b20 b = true := by
      cases hb' : s.b20 b with
      | true => rfl
      | false => simp [hb', ind] at he; omega
    have h3 := h.exh b hb'
    have h4 := h.cnt b
    rw [handles_eq]; omega
  cases p
  all_goals first
    | exact absurd rfl hne
    | (exfalso; apply hne; simp only [go]; (repeat' split) <;>
        first
        | rfl
        | (simp only [touch]; (repeat' split) <;>
            first | rfl | simp [drop_idx, at_idx, setW_idx, mmRemove_idx, mmAdd_idx, free_idx, bad, drop_idx]); done)
    | (exfalso; apply hne; simp only [go]; first | rfl | ((repeat' split) <;> first | rfl | rw [at_idx, free_idx] | (rw [touch]; split <;> rfl)); done)
    | skip
  case ev2 v k' c =>
    simp only [go] at hne ⊢
    by_cases hc : canX s (s.key v) = true
    · simp only [hc, if_true] at hne ⊢
      obtain ⟨h1, h2, h3⟩ := acRem_case hne
      rw [h1, h2]
      exact .evict (hn v (by simp [PC.ex, ind]))
    · simp [hc] at hne
  case me2 k' v =>
    have hk' := hf.kat v k' (by simp [PC.kat])
    simp only [go] at hne ⊢
    by_cases hc : canX s (s.key v) = true
    · simp only [hc, if_true] at hne ⊢
      obtain ⟨h1, h2, h3⟩ := acRem_case hne
      rw [h1, h2]
      have : k' = k := by rw [← hk', h3]
      subst this
      exact .evictSlab (hn v (by simp [PC.ex, ind]))
    · simp [hc] at hne
  case rm1 k' v =>
    have hk' := hf.kat v k' (by simp [PC.kat])
    simp only [go] at hne ⊢
    by_cases hc : canX s k' = true
    · simp only [hc, if_true] at hne ⊢
      obtain ⟨h1, h2, h3⟩ := acRem_case hne
      rw [h1, h2]
      have : k' = k := by rw [← hk', h3]
      subst this
      exact .remove
    · simp [hc] at hne
  case rx3 k' v =>
    have hk' := hf.kat v k' (by simp [PC.kat])
    simp only [go] at hne ⊢
    obtain ⟨h1, h2, h3⟩ := acRem_case hne
    rw [h1, h2]
    have : k' = k := by rw [← hk', h3]
    subst this
    exact .expired
  case rp5 k' o v =>
    have hk' := hf.kat v k' (by simp [PC.kat])
    simp only [go] at hne ⊢
    by_cases hc : canX s k' = true
    · simp only [hc, if_true] at hne ⊢
      obtain ⟨h1, h2, h3⟩ := acRem_case hne
      rw [h1, h2]
      have : k' = k := by rw [← hk', h3]
      subst this
      exact .swapUndo
    · simp [hc] at hne
  case ior5 k' v o r =>
    simp only [go] at hne ⊢
    obtain ⟨h1, rfl⟩ := acSet_case hne
    rw [h1, hf.iat k' (some o) (by simp [PC.iat])]
    exact .replace
  case rp2 k' o n =>
    simp only [go] at hne ⊢
    obtain ⟨h1, rfl⟩ := acSet_case hne
    rw [h1, hf.iat k' none (by simp [PC.iat])]
    exact .swapIn
  case mv3b k' o n =>
    simp only [go] at hne ⊢
    obtain ⟨h1, rfl⟩ := acSet_case hne
    rw [h1, hf.iat k' none (by simp [PC.iat])]
    exact .moveIn
  case ins3 k' v =>
    simp only [go] at hne ⊢
    by_cases hc : canX s k' = true
    · simp only [hc, if_true] at hne ⊢
      cases hx : s.idx k' with
      | none =>
        rw [hx] at hne; simp only at hne ⊢
        obtain ⟨h1, rfl⟩ := acSet_case hne
        rw [h1, hx]; exact .insert
      | some o =>
        rw [hx] at hne; simp only at hne
        exact absurd (by rw [touch_idx hne]; rfl) hne
    · simp [hc] at hne
  case ior3 k' v =>
    simp only [go] at hne ⊢
    by_cases hc : canX s k' = true
    · simp only [hc, if_true] at hne ⊢
      cases hx : s.idx k' with
      | none =>
        rw [hx] at hne; simp only at hne ⊢
        obtain ⟨h1, rfl⟩ := acSet_case hne
        rw [h1, hx]; exact .put
      | some o =>
        rw [hx] at hne; simp only at hne
        exact absurd (by rw [touch_idx hne]; rfl) hne
    · simp [hc] at hne
  case rp1 k' o n =>
    have hk' := hf.kat o k' (by simp [PC.kat])
    simp only [go] at hne ⊢
    by_cases hc : canX s k' = true
    · simp only [hc, if_true] at hne ⊢
      obtain ⟨h1, h2, rfl⟩ := swap_case (fun hb => by
        rw [isA] at hb
        rcases h.acI o hb with h1 | ⟨q, hq, h1⟩
        · rw [← hk']; exact h1
        · obtain ⟨k2, h2, h3⟩ := stale_lock q o h1
          have := (h.fct q hq).kat o k2 h2
          rw [← this, hk', (canX_spec hc hq).1] at h3; cases h3) hne
      rw [h1, h2]; exact .swapOut
    · simp [hc] at hne
  case mv3 k' o n =>
    have hk' := hf.kat o k' (by simp [PC.kat])
    simp only [go] at hne ⊢
    by_cases hc : canX s k' = true
    · simp only [hc, if_true] at hne ⊢
      obtain ⟨h1, h2, rfl⟩ := swap_case (fun hb => by
        rw [isA] at hb
        rcases h.acI o hb with h1 | ⟨q, hq, h1⟩
        · rw [← hk']; exact h1
        · obtain ⟨k2, h2, h3⟩ := stale_lock q o h1
          have := (h.fct q hq).kat o k2 h2
          rw [← this, hk', (canX_spec hc hq).1] at h3; cases h3) hne
      rw [h1, h2]; exact .moveOut (hn o (by simp [PC.ex, PC.mo, ind]))
    · simp [hc] at hne

/-- C43: the entry of a key changes only for one of the reasons in `Change`: in particular an item the user
holds is never evicted and never moved, and `insert` never overwrites. -/
theorem index_changes (h : Reachable s) (x : Act) (hne : (step ⟨true, true⟩ s x).idx k ≠ s.idx k) :
    ∃ (i : Nat) (ch : Ch) (p : PC), x = .go i ch ∧ s.thr[i]? = some p ∧
      Change s k p (s.idx k) ((step ⟨true, true⟩ s x).idx k) := by
  have hi := (reach_inv h).1
  cases x with
  | start i op =>
    simp only [step] at hne
    split at hne
    · exact absurd (by rw [start_idx]) hne
    · exact absurd rfl hne
  | go i ch =>
    simp only [step] at hne ⊢
    cases hp : s.thr[i]? with
    | none => rw [hp] at hne; exact absurd rfl hne
    | some p =>
      rw [hp] at hne; simp only at hne ⊢
      exact ⟨i, ch, p, rfl, hp, go_idx hi hp hne⟩

/-- C43: an item the user holds leaves the index only by a call of the user that asks for it: `remove` or
`removeIfExpired` of that item, `insertOrReplace` of another item with the key, or replacing a parent. -/
theorem held_stays (h : Reachable s) (hk : s.idx k = some a) (hh : 1 ≤ handles s a) (x : Act)
    (hne : (step ⟨true, true⟩ s x).idx k ≠ some a) :
    ∃ (i : Nat) (ch : Ch), x = .go i ch ∧
      (s.thr[i]? = some (.rm1 k a) ∨ s.thr[i]? = some (.rx3 k a) ∨ (∃ b r, s.thr[i]? = some (.ior5 k b a r)) ∨
       (∃ n, s.thr[i]? = some (.rp1 k a n)) ∨ ∃ o, s.thr[i]? = some (.rp5 k o a)) := by
  obtain ⟨i, ch, p, hx, hp, hc⟩ := index_changes h x (k := k) (by rw [hk]; exact hne)
  refine ⟨i, ch, hx, ?_⟩
  rw [hk] at hc
  generalize hy : (step ⟨true, true⟩ s x).idx k = y at hc
  cases hc
  case replace b r => exact Or.inr (Or.inr (Or.inl ⟨b, r, hp⟩))
  case remove => exact Or.inl hp
  case expired => exact Or.inr (Or.inl hp)
  case swapOut n => exact Or.inr (Or.inr (Or.inr (Or.inl ⟨n, hp⟩)))
  case swapUndo o => exact Or.inr (Or.inr (Or.inr (Or.inr ⟨o, hp⟩)))
  all_goals omega

/-! ### concrete runs -/

section runs
/-- `n` steps of thread `i` -/
def steps (i n : Nat) : List Act := List.replicate n (.go i .go)

/-- Thread 0 allocates item 10 with key `[1]`, puts it into the cache and drops its handle; thread 1 begins to
move it out of its slab; thread 0 looks the key up and has to wait. -/
def exWait : List Act :=
  [.start 0 (.allocate [1]), .go 0 (.fresh 10 0)] ++ steps 0 2 ++ [.start 0 (.insertOrReplace 0)] ++ steps 0 3 ++
  [.start 0 (.release 0), .start 1 (.slabRelease 10)] ++ steps 1 1 ++ [.start 0 (.find [1])] ++ steps 0 2

/-- Thread 1 finishes the move to 11 and wakes the waiter; the user reads the handle. -/
def exMoved : List Act := exWait ++ [.go 1 (.fresh 11 0)] ++ steps 1 12 ++ [.start 0 (.take 0)]

/-- Thread 0 releases it and allocates an item with key `[2]` by evicting 11. -/
def exEvicted : List Act :=
  exMoved ++ [.start 0 (.release 0), .start 0 (.allocate [2]), .go 0 (.evict 11)] ++ steps 0 8

example : let s := run ⟨true, true⟩ (init 2) exWait
    (s.thr, s.mctx [1], s.idx [1], s.mem 10, s.mm 10) =
      ([.idle, .alloc [1] (.move 10)], [0], some 10, true, true) := by decide +kernel
example : Taking (.alloc [1] (.move 10)) 10 := .mvAlloc
example : let s := run ⟨true, true⟩ (init 2) exMoved
    (s.thr, s.usr, s.mctx [1], s.idx [1], s.done) = ([.idle, .idle], [⟨[1], 11⟩], [], some 11, [0]) ∧
    (s.mem 10, s.mem 11, s.mm 11) = (false, true, true) := by decide +kernel
example : let s := run ⟨true, true⟩ (init 2) exEvicted
    (s.thr, s.usr, s.idx [1], s.idx [2]) = ([.idle, .idle], [⟨[2], 11⟩], none, none) ∧
    (s.mem 11, s.mm 11, count s 11) = (true, false, 1) := by decide +kernel
example : Reachable (run ⟨true, true⟩ (init 2) exEvicted) := ⟨2, exEvicted, rfl⟩

/-- the first obligation of `Cfg` is needed: if the memory handed out by the allocator has the bit "linked" at the
place of the reference word, a slab release takes an item that is being constructed and frees it although the
user holds it -/
def exDirty : List Act :=
  [.start 0 (.allocate [1]), .go 0 (.fresh 10 (1#32 <<< 18)), .start 1 (.slabRelease 10)] ++ steps 0 2 ++
  [.go 1 .alt] ++ steps 1 8 ++ [.start 0 (.release 0)]
example : (run ⟨false, true⟩ (init 2) exDirty).fault = true := by decide +kernel

/-- the second obligation of `Cfg` is needed: two `insertOrReplace` of the same handle (and a `remove`) at the same
time make the item replace itself; the index then points to freed memory -/
def exTwice : List Act :=
  [.start 0 (.allocate [1]), .go 0 (.fresh 10 0)] ++ steps 0 2 ++ [.start 0 (.insertOrReplace 0)] ++ steps 0 2 ++
  [.start 1 (.remove 0)] ++ steps 1 2 ++ [.start 1 (.insertOrReplace 0)] ++ steps 1 3 ++ steps 0 5 ++
  [.start 0 (.release 0), .start 0 (.release 0)] ++ steps 0 2 ++ [.start 0 (.find [1])] ++ steps 0 1
example : let s := run ⟨true, false⟩ (init 2) exTwice
    (s.idx [1], s.mem 10, s.fault) = (some 10, false, true) := by decide +kernel

/-- item 10 with key `[1]` in the cache, no handles -/
def exPrep : List Act :=
  [.start 0 (.allocate [1]), .go 0 (.fresh 10 0)] ++ steps 0 2 ++ [.start 0 (.insertOrReplace 0)] ++ steps 0 3 ++
  [.start 0 (.release 0)]

/-- thread 1 puts item 12 with key `[1]` into the cache and begins to move it; thread 2 looks the key up and waits -/
def exAgain : List Act :=
  [.start 1 (.allocate [1]), .go 1 (.fresh 12 0)] ++ steps 1 2 ++ [.start 1 (.insertOrReplace 0)] ++ steps 1 3 ++
  [.start 1 (.release 0), .start 1 (.slabRelease 12), .start 2 (.find [1])] ++ steps 2 2

/-- Stale read: wait contexts are found by key (movesMap_), not by item.  Thread 0 has moved 10 to 11; the user
removes the key and inserts 12, which is moved in turn; a lookup of the key waits for the second move but is
woken by the first and gets the removed item 11. -/
def exStale : List Act :=
  exPrep ++ [.start 0 (.slabRelease 10), .go 0 .go, .go 0 (.fresh 11 0)] ++ steps 0 7 ++
  [.start 1 (.find [1])] ++ steps 1 1 ++ [.start 1 (.remove 0)] ++ steps 1 2 ++ [.start 1 (.release 0)] ++
  exAgain ++ steps 0 2 ++ [.start 2 (.take 0)]
example : let s := run ⟨true, true⟩ (init 3) exStale
    (s.idx [1], s.usr, accessible s 11, accessible s 12) = (some 12, [⟨[1], 11⟩], false, true) := by decide +kernel

/-- Spurious miss: the same with a first move that ended in an eviction: the lookup is woken with a null handle
although the key was in the cache all the time it ran. -/
def exMiss : List Act :=
  exPrep ++ [.start 0 (.slabRelease 10), .go 0 .alt] ++ steps 0 4 ++ exAgain ++ steps 0 2 ++ [.start 2 (.take 0)]
example : let s := run ⟨true, true⟩ (init 3) exMiss
    (s.idx [1], s.usr, s.done) = (some 12, [], [0]) := by decide +kernel
end runs

end Verif.CacheProto
