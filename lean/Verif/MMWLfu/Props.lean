import Verif.MMWLfu.Iter
/-!
Property C55: the W-TinyLFU container (MMWTinyLFU.h).

The specification is in Spec.lean.
-/
namespace Verif.MMLfu.W
open Verif MultiDList

variable {N : Type} [DecidableEq N] {e : Env} {s : State N} {u : U N}

theorem stats_eq (h : Link e s u) : stats s = (u.items.length,
    (match (u.tiny.getLast?.or u.prob.getLast?).or u.main.getLast? with | some x => u.time x | none => 0), u.refresh) := by
  unfold stats
  rw [h.size, h.refresh, h.time]
  have hr : rbegin s.m = rbeginFrom s.m 2 := by unfold rbegin; rw [h.seg.num]
  have l2 := h.seg.len 2
  have l1 := h.seg.len 1
  have l0 := h.seg.len 0
  have t2 := h.seg.last 2
  have t1 := h.seg.last 1
  have t0 := h.seg.last 0
  simp only [seqOf] at l2 l1 l0 t2 t1 t0
  rw [hr]
  simp only [rbeginFrom]
  rcases List.eq_nil_or_concat u.tiny with e2 | ⟨a, x, e2⟩
  · rcases List.eq_nil_or_concat u.prob with e1 | ⟨b, y, e1⟩
    · rcases List.eq_nil_or_concat u.main with e0 | ⟨c, z, e0⟩
      · simp [U.items, e2, e1, e0]
      · rw [List.concat_eq_append] at e0
        simp [l2, l1, l0, t0, e2, e1, e0, U.items]
    · rw [List.concat_eq_append] at e1
      simp [l2, l1, t1, e2, e1, U.items]
  · rw [List.concat_eq_append] at e2
    simp [l2, t2, e2, U.items]

theorem Link.view (h : Link e s u) : View e s u where
  tiny := DList.observes_of_rep (h.seg.rep.rep 2)
  prob := DList.observes_of_rep (h.seg.rep.rep 1)
  main := DList.observes_of_rep (h.seg.rep.rep 0)
  once := h.nodup
  member := h.mem
  queue := ⟨fun x hx => h.seg.seg 2 x hx, fun x hx => h.seg.seg 1 x hx, fun x hx => h.seg.seg 0 x hx⟩
  size := h.size
  evictions := by
    intro k hk
    have := visit_spec h.seg k (begin_at h) (List.prefix_refl _) (List.prefix_refl _) (List.prefix_refl _) hk
    rw [this, beats_admit h]; rfl
  time := h.time
  accessed := h.acc
  refresh := h.refresh
  config := h.cfg
  freq := by intro x; rw [h.freq.get, h.hash]; rfl
  under := fun x => h.freq.never_under x
  window := h.freq.below
  ages := fun now k => ageStat_eq h now k
  stats := stats_eq h

/-- C55: whatever the history of operations and (accepted) configurations, as long as the counters fit, the code never dereferences
null or throws, its answers are those of the specification, and all that can be observed agrees with it: each item is in exactly
one queue, the one reported for it; sizes add up; eviction candidates come newcomers and those on probation in the order of `merge`, then the protected ones; frequencies are those of
the sketch and never below the true ones. -/
theorem w_tiny_lfu_refines (e : Env) (c : Config) (now : Nat) (hooks : DList.Hooks N) (hash : N → Nat) (hc : c.Ok)
    (hf : e.Fits (100 * c.windowRatio)) (ops : List (Op N)) (hl : (U.new c now hash : U N).LegalRun e ops) :
    ∃ s0 s, new e c now hooks hash = some s0 ∧ run e s0 ops = some (s, ((U.new c now hash).run e ops).2) ∧
      View e s ((U.new c now hash).run e ops).1 := by
  obtain ⟨s0, h0, hl0⟩ := link_new e c now hooks hash hc hf
  obtain ⟨s, h1, h2⟩ := link_run hl0 ops hl
  exact ⟨s0, s, h0, h1, h2.view⟩

/-- C55: checkConfig accepts exactly these configurations. -/
theorem check_config (c : Config) : c.check = true ↔ c.Ok := by
  unfold Config.check
  simp only [Bool.and_eq_true, Bool.not_eq_true', Bool.or_eq_false_iff, decide_eq_false_iff_not]
  constructor
  · rintro ⟨h1, h2⟩; exact ⟨by omega, by omega⟩
  · rintro ⟨h1, h2⟩; exact ⟨by omega, by omega⟩

/-- a state that a run of the code reaches, and its specification. -/
def Reached (e : Env) (s : State N) (u : U N) : Prop :=
  ∃ (c : Config) (now : Nat) (hooks : DList.Hooks N) (hash : N → Nat) (ops : List (Op N)) (s0 : State N) (ans : List Bool),
    c.Ok ∧ e.Fits (100 * c.windowRatio) ∧ (U.new c now hash : U N).LegalRun e ops ∧ new e c now hooks hash = some s0 ∧
    run e s0 ops = some (s, ans) ∧ u = ((U.new c now hash).run e ops).1

theorem Reached.link (h : Reached e s u) : Link e s u := by
  obtain ⟨c, now, hooks, hash, ops, s0, ans, h1, h2, h3, h4, h5, rfl⟩ := h
  obtain ⟨s0', g1, g2⟩ := link_new e c now hooks hash h1 h2
  rw [h4] at g1
  cases g1
  obtain ⟨s', g3, g4⟩ := link_run g2 ops h3
  rw [h5] at g3
  cases g3
  exact g4

/-! ### The eviction iterator -/

/-- C55: the iterator shows every item exactly once, the items of each queue in order from the least recently used, no protected item
before an item of the other queues; the first of the newcomers and those on probation is the last newcomer unless probation's last is worth less
(or as little, if newcomers win ties). -/
theorem iterator_complete (h : Reached e s u) (k : Nat) (hk : u.items.length ≤ k) :
    (visit s k (begin s)).Perm u.items ∧ (visit s k (begin s)).Nodup ∧
    (∃ l, visit s k (begin s) = l ++ u.main.reverse ∧ l.Perm (u.tiny ++ u.prob) ∧ u.tiny.reverse.Sublist l ∧ u.prob.reverse.Sublist l) ∧
    (∀ t x, u.tiny.getLast? = some t → u.prob.getLast? = some x →
      (visit s k (begin s)).head? = some (if u.beats e t x then x else t)) := by
  have hl := h.link
  rw [hl.view.evictions k hk]
  have hp : (u.evictions e).Perm u.items := left_perm _ _ _ _
  refine ⟨hp, hp.nodup_iff.2 hl.nodup, ⟨_, rfl, ?_, merge_tiny _ _ _, merge_main _ _ _⟩, ?_⟩
  · exact (merge_perm _ _ _).trans (List.Perm.append (List.reverse_perm _) (List.reverse_perm _))
  · intro t x ht hx
    unfold U.evictions
    have h1 : u.tiny ≠ [] := by rintro e'; rw [e'] at ht; cases ht
    have h2 : u.prob ≠ [] := by rintro e'; rw [e'] at hx; cases hx
    obtain ⟨a, t', ha⟩ := split_last _ h1
    obtain ⟨b, x', hb⟩ := split_last _ h2
    rw [ha] at ht; rw [hb] at hx
    simp only [List.getLast?_concat, Option.some.injEq] at ht hx
    subst ht; subst hx
    rw [ha, hb]
    simp only [List.reverse_append, List.reverse_cons, List.reverse_nil, List.nil_append, List.cons_append]
    rw [merge_cons]
    split <;> rfl

/-- C55: an eviction that walks along and removes nodes as it goes (true: remove, false: go on) sees exactly the first items of the
order of eviction, whatever it removes, and afterwards exactly the removed ones are gone. -/
theorem eviction_walk (h : Reached e s u) (ds : List Bool) (hd : ds.length ≤ u.items.length) :
    ∃ s', sweep s (begin s) ds = some (s', (u.evictions e).take ds.length) ∧
      View e s' (u.taken (((u.evictions e).take ds.length).zip ds)) := by
  have hl := h.link
  have := sweep_spec ds hl (begin_at hl) (List.prefix_refl _) (List.prefix_refl _) (List.prefix_refl _) (by
    rw [(left_perm _ _ _ _).length_eq]; exact hd)
  obtain ⟨s', g1, g2⟩ := this
  exact ⟨s', g1, g2.view⟩

/-! ### Admission and protection -/

/-- C55: adding an item never loses one, never touches the protected ones, and never makes tiny larger than it was or than its
share of the items. -/
theorem add_keeps (u : U N) (x : N) (now : Nat) (hx : x ∉ u.items) :
    ((u.step e (.add x now)).1.items).Perm (x :: u.items) ∧ (u.step e (.add x now)).1.main = u.main ∧
    (u.step e (.add x now)).1.tiny.length ≤ max u.tiny.length (u.cfg.tinyPct * (u.items.length + 1) / 100) := by
  simp only [U.step]
  rw [if_neg hx]
  have h1 : ({ u with tiny := x :: u.tiny, cnt := u.cnt.use (u.hash x) } : U N).tiny ≠ [] := by simp
  obtain ⟨a, t, ht⟩ := split_last _ h1
  generalize hv : ({ u with tiny := x :: u.tiny, cnt := u.cnt.use (u.hash x) } : U N) = v at ht
  have hvi : v.items = x :: u.items := by rw [← hv]; rfl
  have hvt : v.tiny.length = u.tiny.length + 1 := by rw [← hv]; rfl
  have hvc : v.cfg = u.cfg := by rw [← hv]
  have hvm : v.main = u.main := by rw [← hv]
  have key : (v.settle e).items.Perm v.items ∧ (v.settle e).main = v.main ∧
      (v.settle e).tiny.length ≤ max u.tiny.length (u.cfg.tinyPct * (u.items.length + 1) / 100) := by
    have hal : a.length = u.tiny.length := by
      have := congrArg List.length ht; simp only [List.length_append, List.length_singleton] at this; omega
    unfold U.settle
    rw [show v.tiny.getLast? = some t by rw [ht]; simp]
    simp only
    have hd : v.tiny.dropLast = a := by rw [ht]; simp
    rw [hd]
    split
    · refine ⟨?_, rfl, by simp only; omega⟩
      simp only [U.items, ht]
      rw [List.perm_iff_count]
      intro z
      simp only [List.count_append, List.count_cons, List.count_nil]
      omega
    · rename_i hgt
      rw [hvi, hvc] at hgt
      simp only [List.length_cons] at hgt
      split
      · exact ⟨List.Perm.refl _, rfl, by omega⟩
      · rename_i y hy
        have hm : v.prob ≠ [] := by rintro e'; rw [e'] at hy; cases hy
        obtain ⟨b, y', hb⟩ := split_last _ hm
        rw [hb] at hy
        simp only [List.getLast?_concat, Option.some.injEq] at hy
        subst hy
        have hdm : v.prob.dropLast = b := by rw [hb]; simp
        rw [hdm]
        split
        · refine ⟨?_, rfl, by simp only [List.length_append, List.length_singleton]; omega⟩
          simp only [U.items, ht, hb]
          rw [List.perm_iff_count]
          intro z
          simp only [List.count_append, List.count_cons, List.count_nil]
          omega
        · refine ⟨?_, rfl, by simp only; omega⟩
          simp only [U.items, hb]
          rw [List.perm_iff_count]; intro z
          simp only [List.count_append, List.count_cons, List.count_nil]; omega
  refine ⟨?_, ?_, key.2.2⟩
  · have := key.1
    rw [hvi] at this
    exact this
  · simp only; rw [key.2.1, hvm]

/-- C55: adding an item puts another one out of probation only if that is the least recently used of probation and the last newcomer
is estimated at least as frequent (more frequent, if newcomers do not win ties). -/
theorem probation_kept (u : U N) (x y : N) (now : Nat) (hx : x ∉ u.items) (hy : y ∈ u.prob)
    (hgone : y ∉ (u.step e (.add x now)).1.prob) :
    u.prob.getLast? = some y ∧ ∃ t, (x :: u.tiny).getLast? = some t ∧
      ({ u with cnt := u.cnt.use (u.hash x) } : U N).beats e t y = true := by
  simp only [U.step] at hgone
  rw [if_neg hx] at hgone
  simp only [U.settle] at hgone
  have hne : (x :: u.tiny) ≠ [] := by simp
  obtain ⟨a, t, ht⟩ := split_last _ hne
  rw [show (x :: u.tiny).getLast? = some t by rw [ht]; simp] at hgone ⊢
  simp only at hgone
  split at hgone
  · exact absurd (List.mem_cons_of_mem _ hy) hgone
  · split at hgone
    · exact absurd hy hgone
    · rename_i z hz
      obtain ⟨b, z', hb⟩ := split_last u.prob (by rintro e'; rw [e'] at hy; cases hy)
      rw [hb] at hz
      simp only [List.getLast?_concat, Option.some.injEq] at hz
      subst hz
      have hdm : u.prob.dropLast = b := by rw [hb]; simp
      split at hgone
      · rename_i hbeat
        rw [hdm] at hgone
        rw [hb] at hy
        simp only [List.mem_append, List.mem_singleton] at hy
        rcases hy with hy | hy
        · exact absurd (List.mem_cons_of_mem _ hy) hgone
        · subst hy
          exact ⟨by rw [hb]; simp, t, rfl, hbeat⟩
      · rw [hdm] at hgone
        rw [hb] at hy
        simp only [List.mem_append, List.mem_singleton] at hy
        rcases hy with hy | hy
        · exact absurd (List.mem_cons_of_mem _ hy) hgone
        · exact absurd (by simp [hy]) hgone

theorem hit_keeps (hn : u.prob.Nodup) {x : N} (hxp : x ∈ u.prob) :
    (u.hit e x).items.Perm u.items ∧ (u.hit e x).tiny = u.tiny ∧
    (∀ y, y ∈ (u.hit e x).main → y ∉ u.main → y = x ∧ u.cfg.protFreq < u.est e x) ∧
    (u.hit e x).main.length ≤ max u.main.length (u.cfg.protPct * (u.prob.length + u.main.length) / 100) := by
  have hperm : (u.tiny ++ (x :: u.prob.filter (fun y => y ≠ x)) ++ u.main).Perm u.items :=
    List.Perm.append_right _ (List.Perm.append_left _ (filter_perm hn hxp))
  have hlenp : (u.prob.filter (fun y => y ≠ x)).length + 1 = u.prob.length := (filter_perm hn hxp).length_eq
  unfold U.hit
  simp only
  by_cases hg : u.est e x > u.cfg.protFreq
  · rw [if_pos hg]
    by_cases hd : u.main.length + 1 > u.cfg.protPct * ((u.prob.filter (fun y => y ≠ x)).length + (u.main.length + 1)) / 100
    · rw [if_pos hd]
      obtain ⟨b, y, hb⟩ := split_last (x :: u.main) (by simp)
      have hgl' : (x :: u.main).getLast (List.cons_ne_nil x u.main) = y := by
        have := List.getLast?_eq_some_getLast (List.cons_ne_nil x u.main)
        rw [show (x :: u.main).getLast? = some y by rw [hb]; simp] at this
        exact (Option.some.inj this).symm
      have hdl : (x :: u.main).dropLast = b := by rw [hb]; simp
      simp only [hdl, hgl', U.items]
      refine ⟨?_, trivial, ?_, ?_⟩
      · refine List.Perm.trans ?_ hperm
        have hb' : ∀ z, List.count z (x :: u.main) = List.count z (b ++ [y]) := by intro z; rw [hb]
        rw [List.perm_iff_count]; intro z
        have := hb' z
        simp only [List.count_append, List.count_cons, List.count_nil] at this ⊢
        omega
      · intro z hz hzm
        have : z ∈ x :: u.main := by rw [hb]; exact List.mem_append.2 (Or.inl hz)
        rcases List.mem_cons.1 this with h' | h'
        · exact ⟨h', hg⟩
        · exact absurd h' hzm
      · have := congrArg List.length hb
        simp only [List.length_cons, List.length_append, List.length_nil] at this
        omega
    · rw [if_neg hd]
      simp only [U.items]
      refine ⟨?_, trivial, ?_, ?_⟩
      · refine List.Perm.trans ?_ hperm
        rw [List.perm_iff_count]; intro z
        simp only [List.count_append, List.count_cons]; omega
      · intro z hz hzm
        rcases List.mem_cons.1 hz with h' | h'
        · exact ⟨h', hg⟩
        · exact absurd h' hzm
      · simp only [List.length_cons]
        have : (u.prob.filter (fun y => y ≠ x)).length + (u.main.length + 1) = u.prob.length + u.main.length := by omega
        rw [this] at hd
        omega
  · rw [if_neg hg]
    simp only [U.items]
    exact ⟨hperm, trivial, fun z hz hzm => absurd hz hzm, by omega⟩

/-- C55: a recorded access (`promote`) loses no item, never moves another newcomer, protects only the accessed item, and that only if it
was on probation with an estimate above the limit; the protected ones never become more than they were or than their share. -/
theorem access_keeps (h : Reached e s u) (x : N) (now : Nat) :
    ((u.step e (.promote x now)).1.items).Perm u.items ∧
    (∀ y, y ≠ x → (y ∈ (u.step e (.promote x now)).1.tiny ↔ y ∈ u.tiny)) ∧
    (∀ y, y ∈ (u.step e (.promote x now)).1.main → y ∉ u.main → y = x ∧ x ∈ u.prob ∧ u.cfg.protFreq < u.est e x) ∧
    (u.step e (.promote x now)).1.main.length ≤
      max u.main.length (u.cfg.protPct * (u.prob.length + u.main.length) / 100) := by
  have hl := h.link
  obtain ⟨e1, e2, e3, e4, e5, e6, e7, e8⟩ := tune_rest u now
  have ec : (u.tune now).cfg = u.cfg := by unfold U.tune; split <;> rfl
  have ee : (u.tune now).est e x = u.est e x := by unfold U.est; rw [e4, e6]
  simp only [U.step]
  by_cases hx : x ∈ u.items
  · rw [if_pos hx]
    simp only
    by_cases hxt : x ∈ u.tiny
    · simp only [if_pos hxt]
      refine ⟨?_, ?_, ?_, ?_⟩
      · simp only [U.items, e2, e3]
        exact List.Perm.append_right _ (List.Perm.append_right _ (filter_perm (hl.seg.nodup 2) hxt))
      · intro y hy; simp [hy]
      · intro y hy hny; rw [e3] at hy; exact absurd hy hny
      · rw [e3]; omega
    · simp only [if_neg hxt]
      by_cases hxp : x ∈ u.prob
      · simp only [if_pos hxp]
        obtain ⟨k1, k2, k3, k4⟩ := hit_keeps (e := e) (u := u.tune now) (x := x) (by rw [e2]; exact hl.seg.nodup 1) (by rw [e2]; exact hxp)
        rw [e7] at k1
        rw [e1] at k2
        rw [e3, ec, ee] at k3
        rw [e2, e3, ec] at k4
        generalize (u.tune now).hit e x = w at k1 k2 k3 k4 ⊢
        simp only [U.items] at k1 ⊢
        exact ⟨k1, fun y _ => by rw [k2], fun y hy hn => ⟨(k3 y hy hn).1, hxp, (k3 y hy hn).2⟩, k4⟩
      · simp only [if_neg hxp]
        have hxm : x ∈ u.main := by
          rcases mem_items.1 hx with h' | h' | h'
          · exact absurd h' hxt
          · exact absurd h' hxp
          · exact h'
        have hpm := filter_perm (hl.seg.nodup 0) hxm
        refine ⟨?_, ?_, ?_, ?_⟩
        · simp only [U.items, e1, e2]
          exact List.Perm.append_left _ hpm
        · intro y hy; rw [e1]
        · intro y hy hny; exact absurd (hpm.mem_iff.1 hy) hny
        · have := hpm.length_eq
          simp only [seqOf] at this ⊢
          simp at this ⊢
          omega
  · rw [if_neg hx]
    simp only [e1, e3, e7]
    exact ⟨List.Perm.refl _, by simp, fun y hy hny => absurd hy hny, by omega⟩

/-! ### recordAccess -/

/-- what recordAccess does when nobody interferes: an access of a kind that is recorded, to an item in the container that was not
used since it came or that was not moved within the refresh time, sets "used" and (unless the try-lock fails) moves the item to
the front of its queue (or of main), counts the use and sets its time; any other access changes nothing. -/
def U.access (e : Env) (u : U N) (x : N) (write : Bool) (now : Nat) (locked : Bool) : U N × Bool :=
  if (if write then u.cfg.updateOnWrite else u.cfg.updateOnRead) = true ∧ x ∈ u.items ∧
      (u.acc x = false ∨ (u.time x + u.refresh) % 2 ^ 32 ≤ now) then
    let v := (u.step e (.mark x)).1
    if u.cfg.tryLock = true ∧ locked = false then (v, false) else v.step e (.promote x now)
  else (u, false)

theorem record_access (h : Reached e s u) (x : N) (write : Bool) (now : Nat) (locked : Bool) :
    (recordAccess s x (if write then .write else .read) now locked).2 = (u.access e x write now locked).2 ∧
    View e (recordAccess s x (if write then .write else .read) now locked).1 (u.access e x write now locked).1 := by
  have hl := h.link
  unfold recordAccess U.access
  have hw : wants s x (if write then Mode.write else Mode.read) now = true ↔
      ((if write then u.cfg.updateOnWrite else u.cfg.updateOnRead) = true ∧ x ∈ u.items ∧
      (u.acc x = false ∨ (u.time x + u.refresh) % 2 ^ 32 ≤ now)) := by
    unfold wants
    rw [hl.cfg, hl.time, hl.refresh]
    by_cases hx : x ∈ u.items
    · rw [(hl.mem x).2 hx, hl.acc x hx]
      cases write <;> simp [hx] <;> grind
    · rw [hl.inMM_false hx]
      cases write <;> simp [hx]
  by_cases hc : ((if write then u.cfg.updateOnWrite else u.cfg.updateOnRead) = true ∧ x ∈ u.items ∧
      (u.acc x = false ∨ (u.time x + u.refresh) % 2 ^ 32 ≤ now))
  · rw [if_pos (hw.2 hc), if_pos hc]
    have hm := mark_link hl x
    have hcfg : (mark s x).config = u.cfg := hl.cfg
    simp only
    rw [hcfg]
    by_cases ht : u.cfg.tryLock = true ∧ locked = false
    · rw [if_pos ht, if_pos (by simp [ht])]
      exact ⟨rfl, hm.view⟩
    · rw [if_neg ht, if_neg (by simpa using ht)]
      obtain ⟨g1, g2⟩ := promote_link hm x now
      exact ⟨g1, g2.view⟩
  · rw [if_neg (fun h' => hc (hw.1 h')), if_neg hc]
    exact ⟨rfl, hl.view⟩

/-! ### Save and restore -/

theorem rep_nil {h : DList.Hooks N} {d : DList.DList N} (r : DList.Rep h d []) : d = DList.DList.empty := by
  have h1 := r.head
  have h2 := r.tail
  have h3 := r.size
  obtain ⟨a, b, c⟩ := d
  simp only [List.head?_nil, List.getLast?_nil, List.length_nil] at h1 h2 h3
  subst h1; subst h2; subst h3; rfl

/-- what a container is after saving and restoring: queues, times and use as before; nothing is counted; the refresh time in use has
become the default one, and a lock is always waited for. -/
def U.restored (u : U N) (now : Nat) : U N :=
  let c := { u.cfg with defaultRefresh := u.refresh, refresh := u.refresh, tryLock := false }
  { u with cnt := ⟨[], 0, max u.items.length 100 * u.cfg.windowRatio, max u.items.length 100⟩, cfg := c,
           next := U.nextTime c now }

/-- C55: a container that was saved and restored on the same memory. -/
theorem save_restore (h : Reached e s u) (now : Nat) (hf : e.Fits (max u.items.length 100 * u.cfg.windowRatio)) :
    ∃ s', restore e (saveState s) now s = some s' ∧ View e s' (u.restored now) ∧
      (u.restored now).tiny = u.tiny ∧ (u.restored now).prob = u.prob ∧ (u.restored now).main = u.main ∧ (u.restored now).time = u.time ∧
      (u.restored now).acc = u.acc ∧ (u.restored now).refresh = u.refresh ∧ ∀ k, (u.restored now).cnt.uses k = 0 := by
  have hl := h.link
  have hm : MultiDList.restore (MultiDList.saveState s.m) s.m.hooks = s.m :=
    saveRestore s.m (fun i hi => rep_nil (by
      rw [hl.seg.num] at hi
      have h1 := hl.seg.rep.rep i
      rwa [hl.seg.none i hi] at h1))
  obtain ⟨f, g1, g2⟩ := FLink.new e u.items.length u.cfg.windowRatio hl.ok.window.1 hf
  have hck : ∀ d r b, Config.check ⟨d, r, s.config.ratio, s.config.updateOnWrite, s.config.updateOnRead, b, s.config.windowRatio,
      s.config.tinyPct, s.config.interval, s.config.newcomerWins, s.config.protFreq, s.config.protPct⟩ = true := by
    intro d r b
    rw [check_config, hl.cfg]
    exact ⟨hl.ok.tiny, hl.ok.window⟩
  have hsz := hl.size
  unfold restore Saved.config saveState
  simp only [hck, if_true, Option.bind_some, hm, hsz]
  have hwr : s.config.windowRatio = u.cfg.windowRatio := by rw [hl.cfg]
  rw [hwr, g1]
  refine ⟨_, rfl, ?_, rfl, rfl, rfl, rfl, rfl, rfl, fun _ => rfl⟩
  obtain ⟨hseg, hmem, hout, hone, hfr, ht, hac, hh, hcf, hrf, hnx, hok⟩ := hl
  refine Link.view ⟨hseg, hmem, hout, hone, g2, ht, hac, hh, ?_, hrf, ?_, ⟨hok.tiny, hok.window⟩⟩
  · simp only [U.restored, ← hcf, hrf]
  · simp only [U.restored, ← hcf]; rfl

/-! ### A concrete case -/

/-- hashes of the example: items are numbers; widths about as for e / 5. -/
def env0 : Env := ⟨fun r k => r + k, fun w => w * 27 / 50⟩
/-- tiny has up to half of the items; an item seen twice is protected when it is hit; two thirds are protected. -/
def cfg0 : Config := ⟨60, 60, fun a => a / 2, false, true, false, 2, 50, 0, false, 1, 67⟩
/-- a run with protections, a demotion, a tie, a swap and removals. -/
def ops0 : List (Op Nat) :=
  [.add 1 10, .add 2 10, .add 3 10, .add 4 10, .promote 1 80, .promote 2 80, .promote 1 160, .promote 2 160, .add 5 170, .add 6 170,
    .remove 4, .replace 1 7, .promote 3 240, .promote 3 320, .promote 3 400, .add 5 180]

/-- Non-vacuity: the hypotheses of `w_tiny_lfu_refines` are met, and what the queues are. -/
theorem legal0 : cfg0.Ok ∧ env0.Fits (100 * cfg0.windowRatio) ∧ (U.new cfg0 0 id : U Nat).LegalRun env0 ops0 := by
  refine ⟨⟨by decide, by decide⟩, by decide, ?_⟩
  simp only [ops0, U.LegalRun, U.Legal]
  decide +kernel

example : ((U.new cfg0 0 id : U Nat).run env0 ops0).1.tiny = [6, 5] ∧ ((U.new cfg0 0 id : U Nat).run env0 ops0).1.prob = [7] ∧
    ((U.new cfg0 0 id : U Nat).run env0 ops0).1.main = [3, 2] ∧ ((U.new cfg0 0 id : U Nat).run env0 ops0).2 =
      [true, true, true, true, true, true, true, true, true, true, true, true, true, true, true, false] := by decide +kernel

/-- states are reached. -/
example : ∃ s u, Reached (N := Nat) env0 s u ∧ u.tiny = [6, 5] ∧ u.prob = [7] ∧ u.main = [3, 2] := by
  obtain ⟨g1, g2, g3⟩ := legal0
  obtain ⟨s0, s, h1, h2, h3⟩ := w_tiny_lfu_refines env0 cfg0 0 ⟨fun _ => none, fun _ => none⟩ (id : Nat → Nat) g1 g2 ops0 g3
  exact ⟨s, _, ⟨cfg0, 0, _, id, ops0, s0, _, g1, g2, g3, h1, h2, rfl⟩, by decide +kernel, by decide +kernel, by decide +kernel⟩

end Verif.MMLfu.W
