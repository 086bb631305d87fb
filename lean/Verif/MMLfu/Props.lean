import Verif.MMLfu.Iter
/-!
Property C54: the TinyLFU container (MMTinyLFU.h).

The specification is in Spec.lean.
-/
namespace Verif.MMLfu.Tiny
open Verif MultiDList

variable {N : Type} [DecidableEq N] {e : Env} {s : State N} {u : U N}

theorem stats_eq (h : Link e s u) : stats s = (u.items.length,
    (match u.tiny.getLast?.or u.main.getLast? with | some x => u.time x | none => 0), u.refresh) := by
  unfold stats
  rw [h.size, h.refresh, h.time]
  have h1 : rbegin s.m = rbeginFrom s.m 1 := by unfold rbegin; rw [h.seg.num]
  have l1 := h.seg.len 1
  have l0 := h.seg.len 0
  have t1 := h.seg.last 1
  have t0 := h.seg.last 0
  simp only [seqOf] at l1 l0 t1 t0
  rw [h1]
  simp only [rbeginFrom]
  rcases List.eq_nil_or_concat u.tiny with e1 | ⟨a, x, e1⟩
  · rcases List.eq_nil_or_concat u.main with e0 | ⟨b, y, e0⟩
    · simp [U.items, e1, e0]
    · rw [List.concat_eq_append] at e0
      simp [l1, l0, t0, e1, e0, U.items]
  · rw [List.concat_eq_append] at e1
    simp [l1, t1, e1, U.items]

theorem Link.view (h : Link e s u) : View e s u where
  tiny := DList.observes_of_rep (h.seg.rep.rep 1)
  main := DList.observes_of_rep (h.seg.rep.rep 0)
  once := h.nodup
  member := h.mem
  queue := ⟨fun x hx => h.seg.seg 1 x hx, fun x hx => h.seg.seg 0 x hx⟩
  size := h.size
  evictions := by
    intro k hk
    have := visit_spec h.seg k (begin_at h) (ra := []) (rb := []) (by simp [seqOf]) (by simp [seqOf])
      (by simpa [U.items] using hk)
    rw [this, beats_admit h]; rfl
  time := h.time
  accessed := h.acc
  refresh := h.refresh
  config := h.cfg
  freq := by intro x; rw [h.freq.get, h.hash]; rfl
  under := fun x => h.freq.never_under x
  window := h.freq.below
  ages := fun now k => ageStat_eq h now k
  stats := stats_eq h

/-- C54: whatever the history of operations and (accepted) configurations, as long as the counters fit, the code never dereferences
null or throws, its answers are those of the specification, and all that can be observed agrees with it: each item is in exactly
one queue, the one reported for it; sizes add up; eviction candidates come in the order of `merge`; frequencies are those of
the sketch and never below the true ones. -/
theorem tiny_lfu_refines (e : Env) (c : Config) (now : Nat) (hooks : DList.Hooks N) (hash : N → Nat) (hc : c.Ok)
    (hf : e.Fits (100 * c.windowRatio)) (ops : List (Op N)) (hl : (U.new c now hash : U N).LegalRun e ops) :
    ∃ s0 s, new e c now hooks hash = some s0 ∧ run e s0 ops = some (s, ((U.new c now hash).run e ops).2) ∧
      View e s ((U.new c now hash).run e ops).1 := by
  obtain ⟨s0, h0, hl0⟩ := link_new e c now hooks hash hc hf
  obtain ⟨s, h1, h2⟩ := link_run hl0 ops hl
  exact ⟨s0, s, h0, h1, h2.view⟩

/-- C54: checkConfig accepts exactly these configurations. -/
theorem check_config (c : Config) : c.check = true ↔ c.Ok := by
  unfold Config.check
  simp only [Bool.and_eq_true, Bool.not_eq_true', Bool.or_eq_false_iff, decide_eq_false_iff_not]
  constructor
  · rintro ⟨h1, h2⟩; exact ⟨by omega, by omega⟩
  · rintro ⟨h1, h2⟩; exact ⟨by omega, by omega⟩

/-- a state that a run of the code reaches, and its specification. -/
def Reached (e : Env) (s : State N) (u : U N) : Prop :=
  ∃ (c : Config) (now : Nat) (hooks : DList.Hooks N) (hash : N → Nat) (ops : List (Op N)) (s0 : State N) (ans : List Bool),
    c.Ok ∧ e.Fits (100 * c.windowRatio) ∧ (U.new c now hash : U N).LegalRun e ops ∧ new e c now hooks hash = some s0 ∧
    run e s0 ops = some (s, ans) ∧ u = ((U.new c now hash).run e ops).1

theorem Reached.link (h : Reached e s u) : Link e s u := by
  obtain ⟨c, now, hooks, hash, ops, s0, ans, h1, h2, h3, h4, h5, rfl⟩ := h
  obtain ⟨s0', g1, g2⟩ := link_new e c now hooks hash h1 h2
  rw [h4] at g1
  cases g1
  obtain ⟨s', g3, g4⟩ := link_run g2 ops h3
  rw [h5] at g3
  cases g3
  exact g4

/-! ### The eviction iterator -/

/-- C54: the iterator shows every item exactly once, the items of each queue in order from the least recently used; the first
is the last of tiny unless main's last is worth less (or as little, if newcomers win ties). -/
theorem iterator_complete (h : Reached e s u) (k : Nat) (hk : u.items.length ≤ k) :
    (visit s k (begin s)).Perm u.items ∧ (visit s k (begin s)).Nodup ∧
    u.tiny.reverse.Sublist (visit s k (begin s)) ∧ u.main.reverse.Sublist (visit s k (begin s)) ∧
    (∀ t x, u.tiny.getLast? = some t → u.main.getLast? = some x →
      (begin s).get s = some (if u.beats e t x then x else t)) ∧
    (u.main = [] → (begin s).get s = u.tiny.getLast?) ∧ (u.tiny = [] → (begin s).get s = u.main.getLast?) := by
  have hl := h.link
  rw [hl.view.evictions k hk]
  have hp : (u.evictions e).Perm u.items := by
    refine (merge_perm _ _ _).trans ?_
    exact List.Perm.append (List.reverse_perm _) (List.reverse_perm _)
  have hg := at_get (begin_at hl)
  rw [beats_admit hl] at hg
  refine ⟨hp, hp.nodup_iff.2 hl.nodup, merge_tiny _ _ _, merge_main _ _ _, ?_, ?_, ?_⟩
  · intro t x ht hx
    rw [hg]
    have h1 : u.tiny ≠ [] := by rintro e'; rw [e'] at ht; cases ht
    have h2 : u.main ≠ [] := by rintro e'; rw [e'] at hx; cases hx
    obtain ⟨a, t', ha⟩ := split_last _ h1
    obtain ⟨b, x', hb⟩ := split_last _ h2
    rw [ha] at ht; rw [hb] at hx
    simp only [List.getLast?_concat, Option.some.injEq] at ht hx
    subst ht; subst hx
    rw [ha, hb]
    simp only [List.reverse_append, List.reverse_cons, List.reverse_nil, List.nil_append, List.cons_append]
    rw [merge_cons]
    split <;> rfl
  · intro hm; rw [hg, hm]; simp [merge_nil, List.head?_reverse]
  · intro ht; rw [hg, ht]; simp [merge, List.head?_reverse]

/-- C54: an eviction that walks along and removes nodes as it goes (true: remove, false: go on) sees exactly the first items of the
order of eviction, whatever it removes, and afterwards exactly the removed ones are gone. -/
theorem eviction_walk (h : Reached e s u) (ds : List Bool) (hd : ds.length ≤ u.items.length) :
    ∃ s', sweep s (begin s) ds = some (s', (u.evictions e).take ds.length) ∧
      View e s' (u.taken (((u.evictions e).take ds.length).zip ds)) := by
  have hl := h.link
  have := sweep_spec ds hl (begin_at hl) (ra := []) (rb := []) (by simp) (by simp) (by
    rw [(merge_perm _ _ _).length_eq]; simpa [U.items] using hd)
  obtain ⟨s', g1, g2⟩ := this
  exact ⟨s', g1, g2.view⟩

/-! ### Admission -/

/-- C54: adding an item never loses one, and never makes tiny larger than it was or than its share of the items. -/
theorem add_keeps (u : U N) (x : N) (now : Nat) (hx : x ∉ u.items) :
    ((u.step e (.add x now)).1.items).Perm (x :: u.items) ∧
    (u.step e (.add x now)).1.tiny.length ≤ max u.tiny.length (u.cfg.tinyPct * (u.items.length + 1) / 100) := by
  simp only [U.step]
  rw [if_neg hx]
  have h1 : ({ u with tiny := x :: u.tiny, cnt := u.cnt.use (u.hash x) } : U N).tiny ≠ [] := by simp
  obtain ⟨a, t, ht⟩ := split_last _ h1
  generalize hv : ({ u with tiny := x :: u.tiny, cnt := u.cnt.use (u.hash x) } : U N) = v at ht
  have hvi : v.items = x :: u.items := by rw [← hv]; rfl
  have hvt : v.tiny.length = u.tiny.length + 1 := by rw [← hv]; rfl
  have hvc : v.cfg = u.cfg := by rw [← hv]
  have key : (v.settle e).items.Perm v.items ∧
      (v.settle e).tiny.length ≤ max u.tiny.length (u.cfg.tinyPct * (u.items.length + 1) / 100) := by
    have hal : a.length = u.tiny.length := by
      have := congrArg List.length ht; simp only [List.length_append, List.length_singleton] at this; omega
    unfold U.settle
    rw [show v.tiny.getLast? = some t by rw [ht]; simp]
    simp only
    have hd : v.tiny.dropLast = a := by rw [ht]; simp
    rw [hd]
    split
    · refine ⟨?_, by simp only; omega⟩
      simp only [U.items, ht, List.append_assoc]
      exact List.Perm.refl _
    · rename_i hgt
      rw [hvi, hvc] at hgt
      simp only [List.length_cons] at hgt
      split
      · exact ⟨List.Perm.refl _, by omega⟩
      · rename_i y hy
        have hm : v.main ≠ [] := by rintro e'; rw [e'] at hy; cases hy
        obtain ⟨b, y', hb⟩ := split_last _ hm
        rw [hb] at hy
        simp only [List.getLast?_concat, Option.some.injEq] at hy
        subst hy
        have hdm : v.main.dropLast = b := by rw [hb]; simp
        rw [hdm]
        split
        · refine ⟨?_, by simp only [List.length_append, List.length_singleton]; omega⟩
          simp only [U.items, ht, hb]
          rw [List.perm_iff_count]
          intro z
          simp only [List.count_append, List.count_cons, List.count_nil]
          omega
        · refine ⟨?_, by simp only; omega⟩
          simp only [U.items, hb]
          exact List.Perm.append_left _ (by
            rw [List.perm_iff_count]; intro z
            simp only [List.count_append, List.count_cons, List.count_nil]; omega)
  refine ⟨?_, key.2⟩
  have := key.1
  rw [hvi] at this
  exact this

/-- C54: adding an item puts another one out of main only if that is the least recently used of main and the last newcomer is
estimated at least as frequent (more frequent, if newcomers do not win ties). -/
theorem main_kept (u : U N) (x y : N) (now : Nat) (hx : x ∉ u.items) (hy : y ∈ u.main)
    (hgone : y ∉ (u.step e (.add x now)).1.main) :
    u.main.getLast? = some y ∧ ∃ t, (x :: u.tiny).getLast? = some t ∧
      ({ u with cnt := u.cnt.use (u.hash x) } : U N).beats e t y = true := by
  simp only [U.step] at hgone
  rw [if_neg hx] at hgone
  simp only [U.settle] at hgone
  have hne : (x :: u.tiny) ≠ [] := by simp
  obtain ⟨a, t, ht⟩ := split_last _ hne
  rw [show (x :: u.tiny).getLast? = some t by rw [ht]; simp] at hgone ⊢
  simp only at hgone
  split at hgone
  · exact absurd (List.mem_cons_of_mem _ hy) hgone
  · split at hgone
    · exact absurd hy hgone
    · rename_i z hz
      obtain ⟨b, z', hb⟩ := split_last u.main (by rintro e'; rw [e'] at hy; cases hy)
      rw [hb] at hz
      simp only [List.getLast?_concat, Option.some.injEq] at hz
      subst hz
      have hdm : u.main.dropLast = b := by rw [hb]; simp
      split at hgone
      · rename_i hbeat
        rw [hdm] at hgone
        rw [hb] at hy
        simp only [List.mem_append, List.mem_singleton] at hy
        rcases hy with hy | hy
        · exact absurd (List.mem_cons_of_mem _ hy) hgone
        · subst hy
          exact ⟨by rw [hb]; simp, t, rfl, hbeat⟩
      · rw [hdm] at hgone
        rw [hb] at hy
        simp only [List.mem_append, List.mem_singleton] at hy
        rcases hy with hy | hy
        · exact absurd (List.mem_cons_of_mem _ hy) hgone
        · exact absurd (by simp [hy]) hgone

/-! ### recordAccess -/

/-- what recordAccess does when nobody interferes: an access of a kind that is recorded, to an item in the container that was not
used since it came or that was not moved within the refresh time, sets "used" and (unless the try-lock fails) moves the item to
the front of its queue, counts the use and sets its time; any other access changes nothing. -/
def U.access (e : Env) (u : U N) (x : N) (write : Bool) (now : Nat) (locked : Bool) : U N × Bool :=
  if (if write then u.cfg.updateOnWrite else u.cfg.updateOnRead) = true ∧ x ∈ u.items ∧
      (u.acc x = false ∨ (u.time x + u.refresh) % 2 ^ 32 ≤ now) then
    let v := (u.step e (.mark x)).1
    if u.cfg.tryLock = true ∧ locked = false then (v, false) else v.step e (.promote x now)
  else (u, false)

theorem record_access (h : Reached e s u) (x : N) (write : Bool) (now : Nat) (locked : Bool) :
    (recordAccess s x (if write then .write else .read) now locked).2 = (u.access e x write now locked).2 ∧
    View e (recordAccess s x (if write then .write else .read) now locked).1 (u.access e x write now locked).1 := by
  have hl := h.link
  unfold recordAccess U.access
  have hw : wants s x (if write then Mode.write else Mode.read) now = true ↔
      ((if write then u.cfg.updateOnWrite else u.cfg.updateOnRead) = true ∧ x ∈ u.items ∧
      (u.acc x = false ∨ (u.time x + u.refresh) % 2 ^ 32 ≤ now)) := by
    unfold wants
    rw [hl.cfg, hl.time, hl.refresh]
    by_cases hx : x ∈ u.items
    · rw [(hl.mem x).2 hx, hl.acc x hx]
      cases write <;> simp [hx] <;> grind
    · rw [hl.inMM_false hx]
      cases write <;> simp [hx]
  by_cases hc : ((if write then u.cfg.updateOnWrite else u.cfg.updateOnRead) = true ∧ x ∈ u.items ∧
      (u.acc x = false ∨ (u.time x + u.refresh) % 2 ^ 32 ≤ now))
  · rw [if_pos (hw.2 hc), if_pos hc]
    have hm := mark_link hl x
    have hcfg : (mark s x).config = u.cfg := hl.cfg
    simp only
    rw [hcfg]
    by_cases ht : u.cfg.tryLock = true ∧ locked = false
    · rw [if_pos ht, if_pos (by simp [ht])]
      exact ⟨rfl, hm.view⟩
    · rw [if_neg ht, if_neg (by simpa using ht)]
      obtain ⟨g1, g2⟩ := promote_link hm x now
      exact ⟨g1, g2.view⟩
  · rw [if_neg (fun h' => hc (hw.1 h')), if_neg hc]
    exact ⟨rfl, hl.view⟩

/-! ### Save and restore -/

theorem rep_nil {h : DList.Hooks N} {d : DList.DList N} (r : DList.Rep h d []) : d = DList.DList.empty := by
  have h1 := r.head
  have h2 := r.tail
  have h3 := r.size
  obtain ⟨a, b, c⟩ := d
  simp only [List.head?_nil, List.getLast?_nil, List.length_nil] at h1 h2 h3
  subst h1; subst h2; subst h3; rfl

/-- what a container is after saving and restoring: queues, times and use as before; nothing is counted; the refresh time in use has
become the default one, and a lock is always waited for. -/
def U.restored (u : U N) (now : Nat) : U N :=
  let c := { u.cfg with defaultRefresh := u.refresh, refresh := u.refresh, tryLock := false }
  { u with cnt := ⟨[], 0, max u.items.length 100 * u.cfg.windowRatio, max u.items.length 100⟩, cfg := c,
           next := U.nextTime c now }

/-- C54: a container that was saved and restored on the same memory. -/
theorem save_restore (h : Reached e s u) (now : Nat) (hf : e.Fits (max u.items.length 100 * u.cfg.windowRatio)) :
    ∃ s', restore e (saveState s) now s = some s' ∧ View e s' (u.restored now) ∧
      (u.restored now).tiny = u.tiny ∧ (u.restored now).main = u.main ∧ (u.restored now).time = u.time ∧
      (u.restored now).acc = u.acc ∧ (u.restored now).refresh = u.refresh ∧ ∀ k, (u.restored now).cnt.uses k = 0 := by
  have hl := h.link
  have hm : MultiDList.restore (MultiDList.saveState s.m) s.m.hooks = s.m :=
    saveRestore s.m (fun i hi => rep_nil (by
      rw [hl.seg.num] at hi
      have h1 := hl.seg.rep.rep i
      rwa [hl.seg.none i hi] at h1))
  obtain ⟨f, g1, g2⟩ := FLink.new e u.items.length u.cfg.windowRatio hl.ok.window.1 hf
  have hck : ∀ d r b, Config.check ⟨d, r, s.config.ratio, s.config.updateOnWrite, s.config.updateOnRead, b, s.config.windowRatio,
      s.config.tinyPct, s.config.interval, s.config.newcomerWins⟩ = true := by
    intro d r b
    rw [check_config, hl.cfg]
    exact ⟨hl.ok.tiny, hl.ok.window⟩
  have hsz := hl.size
  unfold restore Saved.config saveState
  simp only [hck, if_true, Option.bind_some, hm, hsz]
  have hwr : s.config.windowRatio = u.cfg.windowRatio := by rw [hl.cfg]
  rw [hwr, g1]
  refine ⟨_, rfl, ?_, rfl, rfl, rfl, rfl, rfl, fun _ => rfl⟩
  obtain ⟨hseg, hmem, hout, hfr, ht, hac, hh, hcf, hrf, hnx, hok⟩ := hl
  refine Link.view ⟨hseg, hmem, hout, g2, ht, hac, hh, ?_, hrf, ?_, ⟨hok.tiny, hok.window⟩⟩
  · simp only [U.restored, ← hcf, hrf]
  · simp only [U.restored, ← hcf]; rfl

/-! ### A concrete case -/

/-- hashes of the example: items are numbers, rows hash alike; widths as for e. -/
def env0 : Env := ⟨fun r k => r + k, fun w => w * 27 / 50⟩
/-- tiny has up to half of the items, newcomers do not win ties. -/
def cfg0 : Config := ⟨60, 60, fun a => a / 2, false, true, false, 2, 50, 0, false⟩
/-- a run with promotions, a tie, a swap and removals. -/
def ops0 : List (Op Nat) :=
  [.add 1 10, .add 2 10, .add 3 10, .mark 2, .promote 2 80, .add 4 90, .promote 3 160, .add 5 170, .remove 4, .replace 1 7,
    .add 5 180, .evict 2]

/-- Non-vacuity: the hypotheses of `tiny_lfu_refines` are met, and what the queues are. -/
theorem legal0 : cfg0.Ok ∧ env0.Fits (100 * cfg0.windowRatio) ∧ (U.new cfg0 0 id : U Nat).LegalRun env0 ops0 := by
  refine ⟨⟨by decide, by decide⟩, by decide, ?_⟩
  simp only [ops0, U.LegalRun, U.Legal]
  decide +kernel

example : ((U.new cfg0 0 id : U Nat).run env0 ops0).1.tiny = [5, 3] ∧ ((U.new cfg0 0 id : U Nat).run env0 ops0).1.main = [7] ∧
    ((U.new cfg0 0 id : U Nat).run env0 ops0).2 =
      [true, true, true, true, true, true, true, true, true, true, false, true] := by decide +kernel

/-- states are reached. -/
example : ∃ s u, Reached (N := Nat) env0 s u ∧ u.tiny = [5, 3] ∧ u.main = [7] := by
  obtain ⟨g1, g2, g3⟩ := legal0
  obtain ⟨s0, s, h1, h2, h3⟩ := tiny_lfu_refines env0 cfg0 0 ⟨fun _ => none, fun _ => none⟩ (id : Nat → Nat) g1 g2 ops0 g3
  exact ⟨s, _, ⟨cfg0, 0, _, id, ops0, s0, _, g1, g2, g3, h1, h2, rfl⟩, by decide +kernel, by decide +kernel⟩

end Verif.MMLfu.Tiny
