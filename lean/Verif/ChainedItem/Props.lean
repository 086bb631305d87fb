import Verif.ChainedItem.Main
/-!
C20: chained items.

A reachable state is any state after a sequence of calls and internal activities (eviction, slab release).  The
user sees, for a parent, the list `view s p` of its children (viewAsChainedAllocs), and the handles he holds.
-/
namespace Verif.ChainedItem
open Verif

/-- A state of some run. -/
def Reachable (s : State) : Prop := ∃ ops, s = run ops

variable {s : State}

theorem Reachable.good (h : Reachable s) : Good s (view s) := by
  obtain ⟨ops, rfl⟩ := h
  obtain ⟨ch, g⟩ := run_good ops
  have : view (run ops) = ch := funext g.rep.view
  rw [this]; exact g

/-- C20: no run dereferences a null or freed item, frees a referenced one or loops for ever. -/
theorem C20_no_fault (h : Reachable s) : s.fault = false := h.good.rep.nf

/-- C20: the children of a parent: each once, allocated, referenced only by the parent, and no child is seen under two
parents; the parent says it has children iff there are some. -/
theorem C20_view_wf (h : Reachable s) (p : Addr) :
    (view s p).Nodup ∧
    (∀ c ∈ view s p, c ∈ s.live ∧ s.chd c = true ∧ s.par c = p ∧ s.rc c = 1 ∧ c ∉ s.hs) ∧
    (∀ q, ∀ c ∈ view s p, c ∈ view s q → p = q) ∧
    (p ∈ s.live → s.chd p = false → (s.has p = true ↔ view s p ≠ [])) ∧
    (view s p ≠ [] → p ∈ s.live ∧ s.chd p = false) := by
  have r := h.good.rep
  refine ⟨r.nd p, fun c hc => ?_, fun q c hc hq => r.disj hc hq, r.has p, r.own p⟩
  have := r.linked hc
  exact ⟨this.1, this.2.1, this.2.2.2.1, this.2.2.2.2.1, this.2.2.2.2.2⟩

/-- C20: following the pointers from the head gives the view and then ends, however long one follows. -/
theorem C20_iteration_ends (h : Reachable s) (p : Addr) (k : Nat) (hk : (view s p).length ≤ k) :
    walk s.nxt k (s.tab p) = view s p := by
  rw [h.good.rep.tab]; exact walk_chain (h.good.rep.chn p) k hk

/-- C20: no leak, and the counters are exact: an allocated child is either held by the user or in the chain of its
parent, a regular item without handles is in the cache, and the counter is the number of handles plus one for a
child in a chain. -/
theorem C20_no_leak (h : Reachable s) {a : Addr} (ha : a ∈ s.live) :
    (s.chd a = true → (a ∈ s.hs ↔ a ∉ view s (s.par a))) ∧
    (s.chd a = false → a ∉ s.hs → s.mm a = true ∨ s.ac a = true) ∧
    s.rc a = s.hs.count a + (if s.chd a = true ∧ a ∈ view s (s.par a) then 1 else 0) := by
  have r := h.good.rep
  have hr := r.rc a ha
  have hd := h.good.drn a ha
  have hm : s.chd a = true → (a ∈ view s (s.par a) ↔ s.mm a = true) := fun hc => by
    rw [r.mem]; simp [ha, hc]
  have hac : s.chd a = true → s.ac a = true → a ∈ view s (s.par a) := fun hc hx =>
    r.head_mem ((r.acc a ha hc).mp hx)
  have hcp : a ∈ s.hs ↔ 0 < s.hs.count a := List.count_pos_iff.symm
  have hl := r.lnk a ha
  refine ⟨fun hc => ?_, fun hc hn => ?_, ?_⟩
  · constructor
    · intro hh hv; exact (r.linked hv).2.2.2.2.2 hh
    · intro hv
      have : s.mm a = false := by
        cases hx : s.mm a with
        | false => rfl
        | true => exact absurd ((hm hc).mpr hx) hv
      rw [hcp]
      refine Nat.pos_of_ne_zero fun h0 => ?_
      have h1 : s.rc a = 0 := by rw [hr, h0, this]; simp
      rcases hd h1 with h2 | h2
      · rw [this] at h2; cases h2
      · exact hv (hac hc h2)
  · rw [hcp] at hn
    apply hd
    rw [hr, hc]; simp; omega
  · rw [hr]; congr 1
    cases hc : s.chd a with
    | false => simp
    | true => simp [hm hc]

/-- C20: adding a child puts it in front, for this parent only, and consumes the handle. -/
theorem C20_add (h : Reachable s) {p c : Addr} (hp : p ∈ s.hs) (hpd : s.chd p = false) (hc : c ∈ s.hs) (hcd : s.chd c = true)
    (hpar : s.par c = p) (h1 : s.hs.count c = 1) :
    (step s (.add p c)).2 = .ok ∧ view (step s (.add p c)).1 p = c :: view s p ∧
    (∀ q, q ≠ p → view (step s (.add p c)).1 q = view s q) ∧
    (step s (.add p c)).1.hs = s.hs.erase c ∧ (step s (.add p c)).1.live = s.live := by
  have g := h.good
  obtain ⟨r', _, hl⟩ := add_rep g.rep g.drn hp hc hpd hcd hpar h1
  have e : step s (.add p c) = ({ addChainedItem s p c with hs := s.hs.erase c }, .ok) := by
    simp [step, hp, hc, hpd, hcd, hpar, h1]
  rw [e]
  refine ⟨rfl, ?_, fun q hq => ?_, rfl, hl⟩
  · rw [r'.view]; simp
  · rw [r'.view, upd_ne _ _ hq]

/-- C20: adding an item that is not a chained item throws and changes nothing. -/
theorem C20_add_not_chained {p c : Addr} (hp : p ∈ s.hs) (hpd : s.chd p = false) (hc : c ∈ s.hs) (hcd : s.chd c = false) :
    step s (.add p c) = (s, .threw) := by
  simp [step, hp, hc, hpd, hcd]

/-- C20: popping returns a handle of the last added child and leaves the others in order; on a parent without
children it throws and changes nothing. -/
theorem C20_pop (h : Reachable s) {p : Addr} (hp : p ∈ s.hs) (hpd : s.chd p = false) :
    match (generalizing := false) view s p with
    | [] => step s (.pop p) = (s, .threw)
    | c :: l =>
      (step s (.pop p)).2 = .handle c ∧ view (step s (.pop p)).1 p = l ∧
      (∀ q, q ≠ p → view (step s (.pop p)).1 q = view s q) ∧
      (step s (.pop p)).1.hs = c :: s.hs ∧ (step s (.pop p)).1.live = s.live := by
  have g := h.good
  have hh := g.rep.has p (g.rep.hsl p hp) hpd
  cases e : view s p with
  | nil =>
    have : s.has p = false := by rw [e] at hh; simpa using hh
    simp [step, hp, hpd, this]
  | cons c l =>
    have hs : s.has p = true := hh.mpr (by simp [e])
    obtain ⟨h1, r', _, hl⟩ := pop_rep g.rep g.drn hp hpd e
    have e1 : step s (.pop p) = ({ (popChainedItem s p).1 with hs := c :: s.hs }, .handle c) := by
      simp only [step, hp, hpd, hs, and_self, if_true, h1]
    dsimp only
    rw [e1]
    refine ⟨rfl, ?_, fun q hq => ?_, rfl, hl⟩
    · rw [r'.view]; simp
    · rw [r'.view, upd_ne _ _ hq]

/-- C20: what was added last is popped first, and nothing else changes. -/
theorem C20_add_pop (h : Reachable s) {p c : Addr} (hp : p ∈ s.hs) (hpd : s.chd p = false) (hc : c ∈ s.hs) (hcd : s.chd c = true)
    (hpar : s.par c = p) (h1 : s.hs.count c = 1) :
    (step (step s (.add p c)).1 (.pop p)).2 = .handle c ∧
    ∀ q, view (step (step s (.add p c)).1 (.pop p)).1 q = view s q := by
  obtain ⟨_, h3, h4, h5, h6⟩ := C20_add h hp hpd hc hcd hpar h1
  have hr : Reachable (step s (.add p c)).1 := by
    obtain ⟨ops, rfl⟩ := h
    exact ⟨ops ++ [.add p c], by simp [run]⟩
  have hpc : p ≠ c := by rintro rfl; rw [hpd] at hcd; cases hcd
  have hp2 : p ∈ (step s (.add p c)).1.hs := by rw [h5]; exact (List.mem_erase_of_ne hpc).mpr hp
  have hpd2 : (step s (.add p c)).1.chd p = false :=
    ((C20_view_wf hr p).2.2.2.2 (by rw [h3]; simp)).2
  have := C20_pop hr hp2 hpd2
  rw [h3] at this
  refine ⟨this.1, fun q => ?_⟩
  by_cases hq : q = p
  · subst hq; exact this.2.1
  · rw [this.2.2.1 q hq, h4 q hq]

/-- C20: replacing a child keeps its position; the old child is returned and the handle of the new one consumed. -/
theorem C20_replace (h : Reachable s) {old new p : Addr} {a b : List Addr} (hp : p ∈ s.hs) (hn : new ∈ s.hs) (h1 : s.hs.count new = 1)
    (hnd : s.chd new = true) (hnp : s.par new = p) (e : view s p = a ++ old :: b) :
    (step s (.replace old new p)).2 = .handle old ∧ view (step s (.replace old new p)).1 p = a ++ new :: b ∧
    (∀ q, q ≠ p → view (step s (.replace old new p)).1 q = view s q) ∧
    (step s (.replace old new p)).1.hs = old :: s.hs.erase new ∧ (step s (.replace old new p)).1.live = s.live := by
  have g := h.good
  have ho := g.rep.linked (p := p) (c := old) (by rw [e]; simp)
  have hu := g.rep.unlinked hn hnd
  obtain ⟨r', _, hl⟩ := replace_rep g.rep g.drn hn h1 hnd hnp e
  have e1 : step s (.replace old new p) = ({ replaceChainedItem s old new p with hs := old :: s.hs.erase new }, .handle old) := by
    simp [step, hp, hn, h1, hnd, hnp, ho.1, ho.2.1, ho.2.2.1, ho.2.2.2.1, hu.2.1]
  rw [e1]
  refine ⟨rfl, ?_, fun q hq => ?_, rfl, hl⟩
  · rw [r'.view]; simp
  · rw [r'.view, upd_ne _ _ hq]

/-- C20: replacing an item that is not a child of this parent, or by an item that is not one of its unlinked children,
throws and changes nothing. -/
theorem C20_replace_throws (h : Reachable s) {old new p : Addr} (hp : p ∈ s.hs) (hn : new ∈ s.hs) (h1 : s.hs.count new = 1)
    (ho : old ∈ s.live) (hbad : old ∉ view s p ∨ s.chd new = false ∨ s.par new ≠ p) :
    step s (.replace old new p) = (s, .threw) := by
  have r := h.good.rep
  have hm := r.mem p old
  have : s.chd old = false ∨ s.chd new = false ∨ s.par old ≠ s.par new ∨ s.par old ≠ p ∨ s.mm new = true ∨ s.mm old = false := by
    rcases hbad with hb | hb | hb
    · rw [hm] at hb; grind
    · simp [hb]
    · grind
  simp [step, hp, hn, h1, ho, this]

/-- C20: a transfer moves the whole chain, in order, to the new parent. -/
theorem C20_transfer (h : Reachable s) {p p' : Addr} (hp : p ∈ s.hs) (hp' : p' ∈ s.hs) (hd : s.chd p = false) (hd' : s.chd p' = false)
    (hv : view s p ≠ []) (ha' : s.ac p' = false) :
    (view s p' ≠ [] → step s (.transfer p p') = (s, .threw)) ∧
    (view s p' = [] → (step s (.transfer p p')).2 = .ok ∧ view (step s (.transfer p p')).1 p' = view s p ∧
      view (step s (.transfer p p')).1 p = [] ∧ (∀ q, q ≠ p → q ≠ p' → view (step s (.transfer p p')).1 q = view s q) ∧
      (step s (.transfer p p')).1.hs = s.hs ∧ (step s (.transfer p p')).1.live = s.live) := by
  have g := h.good
  have h1 := (g.rep.has p (g.rep.hsl p hp) hd).mpr hv
  have h2 := g.rep.has p' (g.rep.hsl p' hp') hd'
  constructor
  · intro hv'
    have := h2.mpr hv'
    simp [step, hp, hp', hd, hd', h1, ha', this]
  · intro hv'
    have h3 : s.has p' = false := by rw [hv'] at h2; simpa using h2
    have hne : p ≠ p' := by rintro rfl; exact hv hv'
    obtain ⟨g', e1, e2, e3⟩ := transfer_good g hp hp' hd hd' h1 h3 ha'
    refine ⟨e1, ?_, ?_, ?_, e2, e3⟩
    · rw [g'.rep.view]; simp
    · rw [g'.rep.view]; simp [upd_ap, hne]
    · intro q hq hq'; rw [g'.rep.view]; simp [upd_ap, hq, hq']

/-- C20: dropping a handle frees the item and exactly its children iff it was the last handle of an item that is not in
the cache; otherwise nothing is freed and all chains stay. -/
theorem C20_drop (h : Reachable s) {a : Addr} (ha : a ∈ s.hs) :
    (step s (.drop a)).1.hs = s.hs.erase a ∧
    (s.hs.count a = 1 ∧ s.mm a = false ∧ s.ac a = false →
      (∀ x, x ∈ (step s (.drop a)).1.live ↔ x ∈ s.live ∧ x ≠ a ∧ x ∉ view s a) ∧
      view (step s (.drop a)).1 a = [] ∧ ∀ q, q ≠ a → view (step s (.drop a)).1 q = view s q) ∧
    (¬ (s.hs.count a = 1 ∧ s.mm a = false ∧ s.ac a = false) →
      (∀ x, x ∈ (step s (.drop a)).1.live ↔ x ∈ s.live) ∧ ∀ q, view (step s (.drop a)).1 q = view s q) := by
  have g := h.good
  obtain ⟨r', _, hl, hh⟩ := drop_rep g.rep g.drn ha
  have e : step s (.drop a) = (release { s with hs := s.hs.erase a } a, .ok) := by simp [step, ha]
  rw [e]
  refine ⟨hh, fun hlr => ?_, fun hlr => ?_⟩
  · have hlr' : lastRef s a := hlr
    rw [if_pos hlr'] at r'
    refine ⟨fun x => by rw [hl]; simp [hlr'], by rw [r'.view]; simp, fun q hq => by rw [r'.view, upd_ne _ _ hq]⟩
  · have hlr' : ¬ lastRef s a := hlr
    rw [if_neg hlr'] at r'
    refine ⟨fun x => by rw [hl]; simp [hlr'], fun q => by rw [r'.view]⟩

/-- C20: eviction with the iterator at `t` frees exactly the parent (of `t`, or `t` itself) and all its children, and only
if nobody holds a handle of the parent or of any of them. -/
theorem C20_evict (h : Reachable s) {t : Addr} :
    ((step s (.evict t)).2 = .skip ∧ (step s (.evict t)).1 = s) ∨
    ∃ p, (t = p ∨ t ∈ view s p) ∧ p ∈ s.live ∧ s.chd p = false ∧ p ∉ s.hs ∧ (∀ c ∈ view s p, c ∉ s.hs) ∧
      (step s (.evict t)).2 = .recycled t ∧
      (∀ x, x ∈ (step s (.evict t)).1.live ↔ x ∈ s.live ∧ x ≠ p ∧ x ∉ view s p) ∧
      view (step s (.evict t)).1 p = [] ∧ (∀ q, q ≠ p → view (step s (.evict t)).1 q = view s q) ∧
      (step s (.evict t)).1.hs = s.hs := by
  have g := h.good
  by_cases ht : t ∈ s.live ∧ s.mm t = true
  · cases hx : exclusive s (root s t) with
    | false =>
      left
      simp only [step, ht, and_self, if_true]
      rw [show (if s.chd t = true then s.par t else t) = root s t from rfl, hx]
      simp
    | true =>
      right
      obtain ⟨h1, h2, h3⟩ := root_spec g.rep ht.1 ht.2
      have h0 : s.rc (root s t) = 0 := by simp [exclusive] at hx; exact hx.1.2
      have g' := evict_good g ht.1 ht.2 hx
      refine ⟨root s t, h3, h1, h2, ?_, ?_, ?_, ?_, ?_, ?_, ?_⟩
      · intro hh
        have := List.count_pos_iff.mpr hh
        have := g.rep.rc _ h1
        omega
      · exact fun c hc => (g.rep.linked hc).2.2.2.2.2
      · rw [evict_eq g.rep ht.1 ht.2 hx]
      · intro x
        rw [evict_eq g.rep ht.1 ht.2 hx]
        simp [after]
      · rw [g'.rep.view]; simp
      · intro q hq; rw [g'.rep.view, upd_ne _ _ hq]
      · rw [evict_eq g.rep ht.1 ht.2 hx]; rfl
  · left; simp [step, ht]

/-- C20: slab release of a child substitutes the new memory at the same position. -/
theorem C20_move_child (h : Reachable s) {old n : Addr} :
    ((step s (.moveChild old n)).2 = .skip ∧ (step s (.moveChild old n)).1 = s) ∨
    ∃ p a b, view s p = a ++ old :: b ∧ p ∉ s.hs ∧ n ∉ s.live ∧ (step s (.moveChild old n)).2 = .handle n ∧
      view (step s (.moveChild old n)).1 p = a ++ n :: b ∧
      (∀ q, q ≠ p → view (step s (.moveChild old n)).1 q = view s q) ∧
      (∀ x, x ∈ (step s (.moveChild old n)).1.live ↔ x = n ∨ (x ∈ s.live ∧ x ≠ old)) ∧
      (step s (.moveChild old n)).1.hs = s.hs := by
  have g := h.good
  by_cases hc : old ∈ s.live ∧ s.chd old = true ∧ s.mm old = true ∧ exclusive s (s.par old) = true ∧ n ∉ s.live
  · right
    have hm : old ∈ view s (s.par old) := (g.rep.mem _ old).mpr ⟨hc.1, hc.2.1, hc.2.2.1, rfl⟩
    obtain ⟨a, b, e⟩ := List.append_of_mem hm
    obtain ⟨g', h1, h2, h3⟩ := moveChild_good g hc.1 hc.2.1 hc.2.2.1 hc.2.2.2.1 hc.2.2.2.2 e
    refine ⟨s.par old, a, b, e, ?_, hc.2.2.2.2, h1, ?_, ?_, ?_, h2⟩
    · intro hh
      have h4 := hc.2.2.2.1
      simp [exclusive] at h4
      have := List.count_pos_iff.mpr hh
      have := g.rep.rc _ h4.1.1
      omega
    · rw [g'.rep.view]; simp
    · intro q hq; rw [g'.rep.view, upd_ne _ _ hq]
    · intro x; rw [h3, List.mem_cons, g.rep.ndl.mem_erase_iff]; grind
  · left; simp [step, hc]

/-- C20: slab release of a parent gives the whole chain to the new memory; if the item was removed from the cache in the
meantime, the parent and all its children are freed (and nothing else). -/
theorem C20_move_parent (h : Reachable s) {old n : Addr} {lost : Bool} :
    ((step s (.moveParent old n lost)).2 = .skip ∧ (step s (.moveParent old n lost)).1 = s) ∨
    (old ∈ s.live ∧ old ∉ s.hs ∧ n ∉ s.live ∧ (step s (.moveParent old n lost)).1.hs = s.hs ∧
      view (step s (.moveParent old n lost)).1 old = [] ∧
      (∀ q, q ≠ old → q ≠ n → view (step s (.moveParent old n lost)).1 q = view s q) ∧
      (lost = false → view (step s (.moveParent old n lost)).1 n = view s old ∧
        ∀ x, x ∈ (step s (.moveParent old n lost)).1.live ↔ x = n ∨ (x ∈ s.live ∧ x ≠ old)) ∧
      (lost = true → view (step s (.moveParent old n lost)).1 n = [] ∧
        ∀ x, x ∈ (step s (.moveParent old n lost)).1.live ↔ x ∈ s.live ∧ x ≠ old ∧ x ∉ view s old)) := by
  have g := h.good
  by_cases hc : old ∈ s.live ∧ s.chd old = false ∧ exclusive s old = true ∧ n ∉ s.live
  · right
    obtain ⟨g', h1, h2, h3⟩ := moveParent_good g hc.1 hc.2.1 hc.2.2.1 hc.2.2.2 lost
    have hne : old ≠ n := fun e => hc.2.2.2 (e ▸ hc.1)
    have hvn : view s n = [] := g.rep.reg_nil (Or.inl hc.2.2.2)
    refine ⟨hc.1, ?_, hc.2.2.2, h2, ?_, ?_, ?_, ?_⟩
    · intro hh
      have h4 := hc.2.2.1
      simp [exclusive] at h4
      have := List.count_pos_iff.mpr hh
      have := g.rep.rc _ h4.1.1
      omega
    · rw [g'.rep.view]; cases lost <;> simp [upd_ap, hne]
    · intro q hq hq'; rw [g'.rep.view]; cases lost <;> simp [upd_ap, hq, hq']
    · rintro rfl
      refine ⟨by rw [g'.rep.view]; simp, fun x => ?_⟩
      rw [h3]; simp; grind
    · rintro rfl
      refine ⟨by rw [g'.rep.view]; simp [upd_ap, Ne.symm hne, hvn], fun x => ?_⟩
      rw [h3]; simp
  · left; simp [step, hc]

/-! ### the hypotheses are met -/

/-- a parent 1 with children 4, 3, 2 (last added first), in the cache, and handles -/
def ex : List Op := [.allocate 1, .allocateChained 1 2, .add 1 2, .allocateChained 1 3, .add 1 3, .allocateChained 1 4, .add 1 4, .insert 1]

def ex2 : List Op := ex ++ [.allocateChained 1 5, .replace 3 5 1, .allocate 6]

example : view (run ex) 1 = [4, 3, 2] ∧ (run ex).hs = [1] ∧ (run ex).fault = false := by decide +kernel
example : view (run ex2) 1 = [4, 5, 2] ∧ (run ex2).hs = [6, 3, 1] := by decide +kernel
-- add
example : 3 ∈ (run (ex ++ [.pop 1, .allocateChained 1 7])).hs → view (run (ex ++ [.pop 1, .allocateChained 1 7, .add 1 7])) 1 = [7, 3, 2] := by decide +kernel
example : view (run (ex ++ [.pop 1])) 1 = [3, 2] ∧ view (run (ex ++ [.pop 1, .pop 1, .pop 1])) 1 = [] ∧ (step (run (ex ++ [.pop 1, .pop 1, .pop 1])) (.pop 1)).2 = .threw := by decide +kernel
-- replace of a child of nobody
example : (step (run (ex ++ [.allocateChained 1 5, .pop 1, .drop 4])) (.replace 4 5 1)).2 = .skip := by decide +kernel
example : (step (run (ex ++ [.allocateChained 1 5, .pop 1])) (.replace 4 5 1)).2 = .threw := by decide +kernel
-- transfer
example : view (run (ex2 ++ [.transfer 1 6])) 6 = [4, 5, 2] ∧ view (run (ex2 ++ [.transfer 1 6])) 1 = [] ∧ (run (ex2 ++ [.transfer 1 6])).ac 6 = true := by decide +kernel
-- the last handle
example : (run (ex ++ [.remove 1, .drop 1])).live = [] ∧ (run (ex ++ [.drop 1])).live = [4, 3, 2, 1] := by decide +kernel
-- eviction at a child
example : (run (ex ++ [.drop 1, .evict 3])).live = [] ∧ (step (run ex) (.evict 3)).2 = .skip := by decide +kernel
-- slab release
example : view (run (ex ++ [.drop 1, .moveChild 3 9])) 1 = [4, 9, 2] ∧ (run (ex ++ [.drop 1, .moveChild 3 9])).live = [9, 4, 2, 1] := by decide +kernel
example : view (run (ex ++ [.drop 1, .moveParent 1 9 false])) 9 = [4, 3, 2] ∧ (run (ex ++ [.drop 1, .moveParent 1 9 false])).live = [9, 4, 3, 2] := by decide +kernel
example : (run (ex ++ [.drop 1, .moveParent 1 9 true])).live = [] := by decide +kernel

end Verif.ChainedItem
