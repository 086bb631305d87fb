import Verif.MMLru.Lemmas
import Verif.DList.Props
/-!
Property C09: the LRU container.

Specification: a plain sequence `l` from most to least recently used (the next item to evict is the last),
the number `k` of items behind the insertion point, and per item the time of its last promotion and whether it
was accessed since it was added.
-/
namespace Verif.MMLru
open Verif

variable {N : Type} [DecidableEq N]

/-- What a user knows about the container. -/
structure Lru (N : Type) where
  l : List N
  k : Nat
  spec : Nat
  time : N → Nat
  used : N → Bool

/-- Items the insertion point is to have behind it, of `n`: the fraction 1/2^spec, at least one if there is one. -/
def behind (spec n : Nat) : Nat :=
  if spec = 0 ∨ n = 0 then 0 else if n / 2 ^ spec = 0 then 1 else n / 2 ^ spec

/-- The operations, each one critical section; `touch` is the unlocked part of recordAccess and `promote` its
critical section, which may come any time later, also for items that have left the container. -/
inductive Op (N : Type) where
  | add (x : N) (now : Nat)
  | remove (x : N)
  | replace (o x : N)
  | touch (x : N)
  | promote (x : N) (now : Nat)
  | setConfig (c : Config) (now : Nat)

/-- Specification of the operations: new state and answer. -/
def Lru.step (u : Lru N) : Op N → Lru N × Bool
  | .add x now =>
    if x ∈ u.l then (u, false)
    else ({ u with
      l := if u.k = 0 then x :: u.l else u.l.take (u.l.length - u.k) ++ [x] ++ u.l.drop (u.l.length - u.k),
      k := behind u.spec (u.l.length + 1),
      time := fun y => if y = x then now else u.time y,
      used := fun y => if y = x then false else u.used y }, true)
  | .remove x =>
    if x ∈ u.l then ({ u with
      l := u.l.filter (fun y => y ≠ x),
      k := behind u.spec (u.l.length - 1),
      used := fun y => if y = x then false else u.used y }, true)
    else (u, false)
  | .replace o x =>
    if o ∈ u.l ∧ x ∉ u.l then ({ u with
      l := u.l.map (fun y => if y = o then x else y),
      time := fun y => if y = x then u.time o else u.time y,
      used := fun y => if y = x then u.used o else u.used y }, true)
    else (u, false)
  | .touch x => ({ u with used := fun y => if y = x then true else u.used y }, true)
  | .promote x now =>
    if x ∈ u.l then ({ u with
      l := x :: u.l.filter (fun y => y ≠ x),
      k := if x ∈ u.l.drop (u.l.length - u.k) then behind u.spec u.l.length else u.k,
      time := fun y => if y = x then now else u.time y }, true)
    else (u, true)
  | .setConfig c _ => ({ u with spec := c.ipSpec, k := if c.ipSpec = 0 then 0 else u.k }, true)

/-- Run of the specification with all answers. -/
def Lru.run (u : Lru N) : List (Op N) → Lru N × List Bool
  | [] => (u, [])
  | o :: os => (((u.step o).1.run os).1, (u.step o).2 :: ((u.step o).1.run os).2)

/-- Running the code. -/
def step (s : State N) : Op N → Option (State N × Bool)
  | .add x now => add s x now
  | .remove x => remove s x
  | .replace o x => replace s o x
  | .touch x => some (mark s x, true)
  | .promote x now => (promote s x now).map fun s => (s, true)
  | .setConfig c now => (setConfig s c now).map fun s => (s, true)

/-- Run of the code with all answers; `none` if it ever dereferences null or wraps a counter. -/
def run (s : State N) : List (Op N) → Option (State N × List Bool)
  | [] => some (s, [])
  | o :: os => (step s o).bind fun r => (run r.1 os).map fun q => (q.1, r.2 :: q.2)

/-- What can be observed of the container agrees with the specification. -/
structure View (s : State N) (u : Lru N) : Prop where
  /-- size, both traversals (the eviction iterator is the backward one), no duplicates -/
  list : DList.Observes (s.hooks, s.lru) u.l
  /-- an item is reported a member exactly when it is on the list -/
  member : ∀ x, s.inMM x = true ↔ x ∈ u.l
  /-- the insertion point is the first of the `k` last items (none if `k = 0`) -/
  point : s.ip = (u.l.drop (u.l.length - u.k)).head?
  tailSize : s.tailSize = u.k
  bound : u.k ≤ u.l.length
  inTail : ∀ x, s.tail x = true ↔ x ∈ u.l.drop (u.l.length - u.k)
  time : s.time = u.time
  used : s.accessed = u.used
  spec : s.config.ipSpec = u.spec

/-- link between the invariant and the specification. -/
structure Link (s : State N) (u : Lru N) : Prop where
  inv : Inv s (u.l.take (u.l.length - u.k)) (u.l.drop (u.l.length - u.k))
  bound : u.k ≤ u.l.length
  time : s.time = u.time
  used : s.accessed = u.used
  spec : s.config.ipSpec = u.spec

theorem Link.view {s : State N} {u : Lru N} (h : Link s u) : View s u := by
  have hl : u.l.take (u.l.length - u.k) ++ u.l.drop (u.l.length - u.k) = u.l := List.take_append_drop _ _
  refine ⟨DList.observes_of_rep (s := (s.hooks, s.lru)) ?_, ?_, h.inv.ip, ?_, h.bound, h.inv.tl, h.time, h.used,
    h.spec⟩
  · have := h.inv.rep; rwa [hl] at this
  · have := h.inv.mem; rwa [hl] at this
  · rw [h.inv.size, List.length_drop]; have := h.bound; omega

theorem Link.of_split {s : State N} {u : Lru N} {a t : List N} (h : Inv s a t) (hl : u.l = a ++ t)
    (hk : u.k = t.length) (ht : s.time = u.time) (hu : s.accessed = u.used) (hs : s.config.ipSpec = u.spec) :
    Link s u := by
  have : u.l.length - u.k = a.length := by rw [hl, hk]; simp
  refine ⟨?_, by rw [hl, hk]; simp, ht, hu, hs⟩
  rw [this, hl]
  simpa using h

theorem behind_eq (spec n : Nat) : behind spec n = if spec = 0 then 0 else tgt spec n := by
  unfold behind tgt
  by_cases h : spec = 0
  · simp [h]
  · simp only [h, false_or, if_false]
    have := div_le_half n spec h
    split
    · omega
    · split <;> omega

theorem link_step {s : State N} {u : Lru N} (h : Link s u) (o : Op N) :
    ∃ s', step s o = some (s', (u.step o).2) ∧ Link s' (u.step o).1 := by
  obtain ⟨inv, hb, ht, hu, hs⟩ := h
  obtain ⟨a, t, ha, htt, hl⟩ : ∃ a t, u.l.take (u.l.length - u.k) = a ∧ u.l.drop (u.l.length - u.k) = t ∧
      u.l = a ++ t := ⟨_, _, rfl, rfl, (List.take_append_drop _ _).symm⟩
  have hk : u.k = t.length := by rw [← htt, List.length_drop]; omega
  rw [ha, htt] at inv
  cases o with
  | add x now =>
    simp only [step, Lru.step]
    by_cases hx : x ∈ u.l
    · rw [if_pos hx]
      exact ⟨s, add_in inv (hl ▸ hx) now, Link.of_split inv hl hk ht hu hs⟩
    · rw [if_neg hx]
      obtain ⟨s', a', t', h1, h2, h3, h4, h5, h6, h7⟩ := add_out inv (hl ▸ hx) now
      refine ⟨s', h1, Link.of_split h2 ?_ ?_ ?_ ?_ ?_⟩
      · simp only
        rw [ha, htt, h3]
        cases t with
        | nil => simp [hk, hl]
        | cons z zs => simp [hk]
      · simp only [behind_eq]; rw [h4, hs, hl]
      · simp only; rw [h5, ht]; rfl
      · simp only; rw [h6, hu]; rfl
      · simp only; rw [h7, hs]
  | remove x =>
    simp only [step, Lru.step]
    by_cases hx : x ∈ u.l
    · rw [if_pos hx, remove_in inv (hl ▸ hx)]
      obtain ⟨s', a', t', h1, h2, h3, h4, h5, h6, h7, _⟩ := removeLocked_spec inv (x := x) (hl ▸ hx)
      refine ⟨s', by rw [h1]; rfl, Link.of_split h2 ?_ ?_ ?_ ?_ ?_⟩
      · simp only; rw [h3, hl]
      · simp only [behind_eq]; rw [h4, hs, hl]
      · simp only; rw [h5, ht]
      · simp only; rw [h6, hu]; rfl
      · simp only; rw [h7, hs]
    · rw [if_neg hx]
      exact ⟨s, remove_out inv (hl ▸ hx), Link.of_split inv hl hk ht hu hs⟩
  | replace o x =>
    simp only [step, Lru.step]
    by_cases hx : o ∈ u.l ∧ x ∉ u.l
    · rw [if_pos hx]
      obtain ⟨s', h1, h2, h3, h4, h5⟩ := replace_yes inv (o := o) (x := x) (hl ▸ hx.1) (hl ▸ hx.2)
      refine ⟨s', h1, Link.of_split h2 ?_ ?_ ?_ ?_ ?_⟩
      · simp only; rw [hl, List.map_append]; rfl
      · simp only; rw [hk]; simp [subst]
      · simp only; rw [h3, ht]; rfl
      · simp only; rw [h4, hu]; rfl
      · simp only; rw [h5, hs]
    · rw [if_neg hx]
      refine ⟨s, replace_no inv ?_, Link.of_split inv hl hk ht hu hs⟩
      rw [← hl]
      by_cases ho : o ∈ u.l
      · right
        by_cases hxx : x ∈ u.l
        · exact hxx
        · exact absurd ⟨ho, hxx⟩ hx
      · left; exact ho
  | touch x =>
    simp only [step, Lru.step]
    refine ⟨_, rfl, Link.of_split (a := a) (t := t) ?_ hl hk ht ?_ hs⟩
    · exact ⟨⟨inv.rep, inv.mem, inv.tl, inv.size, inv.ip⟩, inv.half, inv.zero⟩
    · simp only [mark]; rw [hu]; rfl
  | promote x now =>
    simp only [step, Lru.step]
    by_cases hx : x ∈ u.l
    · rw [if_pos hx]
      obtain ⟨s', a', t', h1, h2, h3, h4, h5, h6, h7, _⟩ := promote_in inv (x := x) (hl ▸ hx) now
      refine ⟨s', by rw [h1]; rfl, Link.of_split h2 ?_ ?_ ?_ ?_ ?_⟩
      · simp only; rw [h3, hl]
      · simp only [behind_eq]
        rw [htt, h4, hs, hl, hk]
        by_cases hxt : x ∈ t
        · have : u.spec ≠ 0 := by
            intro e; rw [← hs] at e; rw [inv.zero e] at hxt; cases hxt
          simp [hxt, this]
        · simp [hxt]
      · simp only; rw [h5, ht]; rfl
      · simp only; rw [h6, hu]
      · simp only; rw [h7, hs]
    · rw [if_neg hx]
      refine ⟨_, by rw [promote_out inv (hl ▸ hx) now]; rfl, ?_⟩
      unfold reconfigure
      split
      · exact Link.of_split inv hl hk ht hu hs
      · exact Link.of_split (a := a) (t := t)
          ⟨⟨inv.rep, inv.mem, inv.tl, inv.size, inv.ip⟩, inv.half, inv.zero⟩ hl hk ht hu hs
  | setConfig c now =>
    simp only [step, Lru.step]
    obtain ⟨s', a', t', h1, h2, h3, h4, h5, h6, h7⟩ := setConfig_spec inv c now
    refine ⟨s', by rw [h1]; rfl, Link.of_split h2 ?_ ?_ ?_ ?_ ?_⟩
    · simp only; rw [h3, hl]
    · simp only; rw [h4, hk]
    · simp only; rw [h5, ht]
    · simp only; rw [h6, hu]
    · simp only; rw [h7]

/-- the new container. -/
def Lru.new (spec : Nat) : Lru N := ⟨[], 0, spec, fun _ => 0, fun _ => false⟩

theorem link_run {s : State N} {u : Lru N} (h : Link s u) (ops : List (Op N)) :
    ∃ s', run s ops = some (s', (u.run ops).2) ∧ Link s' (u.run ops).1 := by
  induction ops generalizing s u with
  | nil => exact ⟨s, rfl, h⟩
  | cons o os ih =>
    obtain ⟨s1, h1, h2⟩ := link_step h o
    obtain ⟨s2, h3, h4⟩ := ih h2
    refine ⟨s2, ?_, h4⟩
    simp only [run, h1, Option.bind_some, h3, Option.map_some, Lru.run]

theorem link_new (c : Config) (now : Nat) (hooks : DList.Hooks N) : Link (new c now hooks) (Lru.new c.ipSpec) :=
  Link.of_split (a := []) (t := []) (inv_new c now hooks) rfl rfl rfl rfl rfl

/-- C09: whatever the history of operations and configurations, the code never dereferences null or wraps a
counter, its answers are those of the specification, and all that can be observed agrees with it. -/
theorem lru_refines (c : Config) (now : Nat) (hooks : DList.Hooks N) (ops : List (Op N)) :
    ∃ s, run (new c now hooks) ops = some (s, ((Lru.new c.ipSpec).run ops).2) ∧
      View s ((Lru.new c.ipSpec).run ops).1 := by
  obtain ⟨s, h1, h2⟩ := link_run (link_new c now hooks) ops
  exact ⟨s, h1, h2.view⟩

/-- an operation that does not change the configuration. -/
def Op.plain : Op N → Prop
  | .setConfig _ _ => False
  | _ => True

theorem spec_const (u : Lru N) (ops : List (Op N)) (h : ∀ o ∈ ops, o.plain) : (u.run ops).1.spec = u.spec := by
  induction ops generalizing u with
  | nil => rfl
  | cons o os ih =>
    have hh : (u.step o).1.spec = u.spec := by
      cases o with
      | setConfig c now => exact absurd (h (.setConfig c now) (by simp)) id
      | touch x => rfl
      | _ => simp only [Lru.step]; split <;> rfl
    simp only [Lru.run]
    rw [ih _ (fun o ho => h o (by simp [ho])), hh]

/-- C09: as long as the configuration does not change, exactly `behind spec n` of the `n` items lie behind the
insertion point: a new item is evicted after these, and before all others. -/
theorem insertion_point (c : Config) (ops : List (Op N)) (h : ∀ o ∈ ops, o.plain) :
    ((Lru.new c.ipSpec : Lru N).run ops).1.k = behind c.ipSpec ((Lru.new c.ipSpec : Lru N).run ops).1.l.length := by
  have key : ∀ (u : Lru N), u.l.Nodup → u.k = behind u.spec u.l.length →
      (u.run ops).1.k = behind (u.run ops).1.spec (u.run ops).1.l.length := by
    induction ops with
    | nil => intro u _ hu; exact hu
    | cons o os ih =>
      intro u hn hu
      simp only [Lru.run]
      have step : (u.step o).1.l.Nodup ∧ (u.step o).1.k = behind (u.step o).1.spec (u.step o).1.l.length := by
        have flen : ∀ x ∈ u.l, (u.l.filter (fun y => y ≠ x)).length = u.l.length - 1 := by
          intro x hx; rw [filter_len hn, if_pos hx]
        cases o with
        | setConfig c now => exact absurd (h (.setConfig c now) (by simp)) id
        | touch x => exact ⟨hn, hu⟩
        | add x now =>
          simp only [Lru.step]
          split
          · exact ⟨hn, hu⟩
          · rename_i hx
            simp only
            constructor
            · split
              · exact List.nodup_cons.2 ⟨hx, hn⟩
              · have hl := List.take_append_drop (u.l.length - u.k) u.l
                rw [← hl] at hn hx
                generalize u.l.take (u.l.length - u.k) = a at *
                generalize u.l.drop (u.l.length - u.k) = t at *
                rw [List.append_assoc, List.nodup_append] at *
                simp only [List.mem_append, not_or] at hx
                simp only [List.singleton_append, List.nodup_cons, List.mem_cons]
                refine ⟨hn.1, ⟨hx.2, hn.2.1⟩, ?_⟩
                rintro y hy z (rfl | hz) e
                · exact hx.1 (e ▸ hy)
                · exact hn.2.2 y hy z hz e
            · congr 1
              split
              · simp
              · simp only [List.length_append, List.length_cons, List.length_nil, List.length_take,
                  List.length_drop]
                omega
        | remove x =>
          simp only [Lru.step]
          split
          · rename_i hx
            simp only
            exact ⟨hn.sublist List.filter_sublist, by rw [flen x hx]⟩
          · exact ⟨hn, hu⟩
        | replace o x =>
          simp only [Lru.step]
          split
          · rename_i hx
            simp only
            refine ⟨?_, by rw [List.length_map]; exact hu⟩
            obtain ⟨b, c, hbc⟩ := List.append_of_mem hx.1
            have := subst_mid (x := x) (hbc ▸ hn)
            unfold subst at this
            rw [hbc, this]
            have h1 := DList.nodup_mid (hbc ▸ hn)
            have h2 : x ∉ b ∧ x ∉ c := by
              have := hx.2
              rw [hbc] at this
              simp at this
              exact ⟨this.1, this.2.2⟩
            rw [List.nodup_append, List.nodup_cons]
            refine ⟨h1.2.2.1, ⟨h2.2, h1.2.2.2.1⟩, ?_⟩
            intro y hy z hz e
            subst e
            rcases List.mem_cons.1 hz with rfl | hz
            · exact h2.1 hy
            · exact h1.2.2.2.2 y hy hz
          · exact ⟨hn, hu⟩
        | promote x now =>
          simp only [Lru.step]
          split
          · rename_i hx
            simp only
            have hlen : (x :: u.l.filter (fun y => y ≠ x)).length = u.l.length := by
              rw [List.length_cons, flen x hx]
              have := List.length_pos_of_mem hx
              omega
            refine ⟨?_, ?_⟩
            · rw [List.nodup_cons]
              exact ⟨by simp, hn.sublist List.filter_sublist⟩
            · rw [hlen]
              split
              · rfl
              · exact hu
          · exact ⟨hn, hu⟩
      exact ih (fun o ho => h o (by simp [ho])) (u.step o).1 step.1 step.2
  have := key (Lru.new c.ipSpec) (by simp [Lru.new]) (by simp [Lru.new, behind])
  rw [spec_const _ ops h] at this
  exact this

/-! ### Least recently used order -/

/-- times given to the operations do not decrease from `t` on. -/
def Clock (t : Nat) : List (Op N) → Prop
  | [] => True
  | .add _ now :: os => t ≤ now ∧ Clock now os
  | .promote _ now :: os => t ≤ now ∧ Clock now os
  | .setConfig _ now :: os => t ≤ now ∧ Clock now os
  | _ :: os => Clock t os

/-- C09: without insertion point and with a clock that does not go back, items are in the order of their last
addition or promotion: the one to be evicted next has the oldest time. -/
theorem lru_order (ops : List (Op N)) (h : ∀ o ∈ ops, o.plain) (hc : Clock 0 ops) :
    ((Lru.new 0 : Lru N).run ops).1.l.Pairwise fun x y =>
      ((Lru.new 0 : Lru N).run ops).1.time y ≤ ((Lru.new 0 : Lru N).run ops).1.time x := by
  have key : ∀ (ops : List (Op N)) (u : Lru N) (t : Nat), (∀ o ∈ ops, o.plain) → Clock t ops →
      u.spec = 0 → u.k = 0 → u.l.Nodup → (∀ x ∈ u.l, u.time x ≤ t) →
      u.l.Pairwise (fun x y => u.time y ≤ u.time x) →
      (u.run ops).1.l.Pairwise fun x y => (u.run ops).1.time y ≤ (u.run ops).1.time x := by
    intro ops
    induction ops with
    | nil => intro u t _ _ _ _ _ _ hp; exact hp
    | cons o os ih =>
      intro u t h hc hs hk hn hm hp
      have h' : ∀ o ∈ os, o.plain := fun o ho => h o (by simp [ho])
      simp only [Lru.run]
      have front : ∀ (x : N) (now : Nat) (l : List N), x ∉ l → t ≤ now → (∀ y ∈ l, u.time y ≤ t) →
          l.Pairwise (fun x y => u.time y ≤ u.time x) →
          (x :: l).Pairwise (fun a b => (if b = x then now else u.time b) ≤ (if a = x then now else u.time a)) ∧
          ∀ y ∈ x :: l, (if y = x then now else u.time y) ≤ now := by
        intro x now l hx ht hm hp
        have hne : ∀ y ∈ l, y ≠ x := fun y hy e => hx (e ▸ hy)
        refine ⟨List.pairwise_cons.2 ⟨?_, ?_⟩, ?_⟩
        · intro y hy
          have := hm y hy
          simp [hne y hy]; omega
        · refine hp.imp_of_mem ?_
          intro a b ha hb hab
          simpa [hne a ha, hne b hb] using hab
        · intro y hy
          rcases List.mem_cons.1 hy with rfl | hy
          · simp
          · have := hm y hy
            simp [hne y hy]; omega
      cases o with
      | setConfig c now => exact absurd (h (.setConfig c now) (by simp)) id
      | touch x => exact ih (u.step (.touch x)).1 t h' hc hs hk hn hm hp
      | add x now =>
        simp only [Lru.step]
        by_cases hx : x ∈ u.l
        · rw [if_pos hx]
          exact ih u now h' hc.2 hs hk hn (fun y hy => Nat.le_trans (hm y hy) hc.1) hp
        · rw [if_neg hx]
          simp only [hk, if_true]
          have := front x now u.l hx hc.1 hm hp
          exact ih _ now h' hc.2 hs (by simp [behind, hs]) (List.nodup_cons.2 ⟨hx, hn⟩) this.2 this.1
      | remove x =>
        simp only [Lru.step]
        by_cases hx : x ∈ u.l
        · rw [if_pos hx]
          exact ih _ t h' hc hs (by simp [behind, hs]) (hn.sublist List.filter_sublist)
            (fun y hy => hm y ((List.mem_filter.1 hy).1)) (hp.sublist List.filter_sublist)
        · rw [if_neg hx]
          exact ih u t h' hc hs hk hn hm hp
      | replace o x =>
        simp only [Lru.step]
        by_cases hx : o ∈ u.l ∧ x ∉ u.l
        · rw [if_pos hx]
          have tm : ∀ y ∈ u.l, (fun y => if y = x then u.time o else u.time y) (if y = o then x else y) =
              u.time y := by
            intro y hy
            by_cases e : y = o
            · simp [e]
            · have : y ≠ x := fun e' => hx.2 (e' ▸ hy)
              simp [e, this]
          refine ih _ t h' hc hs hk ?_ ?_ ?_
          · obtain ⟨b, c, hbc⟩ := List.append_of_mem hx.1
            have := subst_mid (x := x) (hbc ▸ hn)
            unfold subst at this
            simp only
            rw [hbc, this]
            have h1 := DList.nodup_mid (hbc ▸ hn)
            have h2 : x ∉ b ∧ x ∉ c := by
              have := hx.2
              rw [hbc] at this
              simp at this
              exact ⟨this.1, this.2.2⟩
            rw [List.nodup_append, List.nodup_cons]
            refine ⟨h1.2.2.1, ⟨h2.2, h1.2.2.2.1⟩, ?_⟩
            intro y hy z hz e
            subst e
            rcases List.mem_cons.1 hz with rfl | hz
            · exact h2.1 hy
            · exact h1.2.2.2.2 y hy hz
          · simp only [List.mem_map]
            rintro y ⟨z, hz, rfl⟩
            have := tm z hz
            simp only at this
            rw [this]; exact hm z hz
          · simp only
            rw [List.pairwise_map]
            refine hp.imp_of_mem ?_
            intro a b ha hb hab
            have h1 := tm a ha
            have h2 := tm b hb
            simp only at h1 h2
            rw [h1, h2]; exact hab
        · rw [if_neg hx]
          exact ih u t h' hc hs hk hn hm hp
      | promote x now =>
        simp only [Lru.step]
        by_cases hx : x ∈ u.l
        · rw [if_pos hx]
          have := front x now (u.l.filter (fun y => y ≠ x)) (by simp) hc.1
            (fun y hy => hm y ((List.mem_filter.1 hy).1)) (hp.sublist List.filter_sublist)
          exact ih _ now h' hc.2 hs (by simp [hk, behind, hs])
            (List.nodup_cons.2 ⟨by simp, hn.sublist List.filter_sublist⟩) this.2 this.1
        · rw [if_neg hx]
          exact ih u now h' hc.2 hs hk hn (fun y hy => Nat.le_trans (hm y hy) hc.1) hp
  exact key ops (Lru.new 0) 0 h hc rfl rfl (by simp [Lru.new]) (by simp [Lru.new]) (by simp [Lru.new])

/-! ### recordAccess -/

/-- the configuration asks for promotion on this kind of access. -/
def Config.asks (c : Config) : Mode → Prop
  | .read => c.updateOnRead = true
  | .write => c.updateOnWrite = true

/-- C09: recordAccess promotes exactly when the configuration asks for it, the item is a member, and it has not been
accessed since it was added or its last promotion is at least the refresh time ago; with tryLockUpdate also the lock
must be free.  Promotion moves it to the front; otherwise the order does not change. -/
theorem recordAccess_spec {s : State N} {u : Lru N} (h : Link s u) (x : N) (m : Mode) (now : Nat) (free : Bool)
    (hw : s.time x + s.refreshTime < 2 ^ 32) :
    ∃ s' b, recordAccess s x m now free = some (s', b) ∧
      (b = true ↔ s.config.asks m ∧ x ∈ u.l ∧ (u.used x = false ∨ u.time x + s.refreshTime ≤ now) ∧
        (s.config.tryLock = true → free = true)) ∧
      (b = true → View s' ((u.step (.touch x)).1.step (.promote x now)).1) ∧
      (b = false → View s' u ∨ View s' (u.step (.touch x)).1) := by
  have hv := h.view
  have hwant : wants s x m now = true ↔
      s.config.asks m ∧ x ∈ u.l ∧ (u.used x = false ∨ u.time x + s.refreshTime ≤ now) := by
    unfold wants Config.asks
    rw [Nat.mod_eq_of_lt hw, ← hv.time, ← hv.used, ← hv.member x]
    cases m <;> cases s.config.updateOnWrite <;> cases s.config.updateOnRead <;> cases s.inMM x <;>
      cases s.accessed x <;> simp
  unfold recordAccess
  by_cases hwt : wants s x m now = true
  · rw [if_pos hwt]
    have hw2 := hwant.1 hwt
    obtain ⟨s1, h1, h2⟩ := link_step h (.touch x)
    simp only [step, Lru.step] at h1
    cases h1
    simp only
    by_cases hl : ((mark s x).config.tryLock && !free) = true
    · rw [if_pos hl]
      refine ⟨_, _, rfl, ?_, by simp, fun _ => Or.inr h2.view⟩
      simp only [Bool.and_eq_true, Bool.not_eq_true'] at hl
      simp only [Bool.false_eq_true, false_iff]
      rintro ⟨_, _, _, h4⟩
      rw [h4 hl.1] at hl
      simp at hl
    · rw [if_neg hl]
      obtain ⟨s2, h3, h4⟩ := link_step h2 (.promote x now)
      simp only [step, Lru.step] at h3
      cases hp : promote (mark s x) x now with
      | none => rw [hp] at h3; cases h3
      | some s3 =>
        rw [hp] at h3
        simp only [Option.map_some, Option.some.injEq, Prod.mk.injEq] at h3
        obtain ⟨rfl, _⟩ := h3
        refine ⟨_, _, rfl, ?_, fun _ => h4.view, by simp⟩
        simp only [true_iff]
        refine ⟨hw2.1, hw2.2.1, hw2.2.2, ?_⟩
        intro ht
        simp only [Bool.and_eq_true, Bool.not_eq_true', not_and, Bool.not_eq_false] at hl
        exact hl ht
  · rw [if_neg hwt]
    refine ⟨_, _, rfl, ?_, by simp, fun _ => Or.inl hv⟩
    simp only [Bool.false_eq_true, false_iff]
    rintro ⟨h1, h2, h3, _⟩
    exact hwt (hwant.2 ⟨h1, h2, h3⟩)

/-! ### Eviction -/

/-- The eviction loop: remove `n` items through the iterator, beginning at its position (CacheAllocator.h uses
remove(Iterator&) on the locked iterator); the items removed, in order. -/
def evict : Nat → State N → Option N → Option (State N × List N)
  | 0, s, _ => some (s, [])
  | _, s, none => some (s, [])
  | n + 1, s, some x => (removeIt s x).bind fun r => (evict n r.1 r.2).map fun q => (q.1, x :: q.2)

/-- C09: evicting through the iterator takes the items strictly from the least recently used end, and the iterator
stays valid; what remains is the rest of the sequence. -/
theorem evict_order {s : State N} {u : Lru N} (h : Link s u) (n : Nat) :
    ∃ s' u', evict n s s.lru.tail = some (s', u.l.reverse.take n) ∧ View s' u' ∧
      u'.l = u.l.take (u.l.length - n) := by
  induction n generalizing s u with
  | zero => exact ⟨s, u, by simp [evict], h.view, by simp⟩
  | succ n ih =>
    have hv := h.view
    have htl := hv.list.tail
    simp only at htl
    rcases List.eq_nil_or_concat u.l with e | ⟨b, x, e⟩
    · rw [e] at htl
      simp only [List.getLast?_nil] at htl
      exact ⟨s, u, by rw [htl, e]; simp [evict], hv, by simp [e]⟩
    · rw [List.concat_eq_append] at e
      rw [e, List.getLast?_concat] at htl
      rw [htl]
      have hx : x ∈ u.l := by rw [e]; simp
      obtain ⟨s1, h1, h2⟩ := link_step h (.remove x)
      simp only [step, Lru.step] at h1 h2
      rw [if_pos hx] at h1 h2
      have hm : s.inMM x = true := (hv.member x).2 hx
      simp only [remove, hm, if_true] at h1
      cases hr : removeLocked s x with
      | none => rw [hr] at h1; cases h1
      | some s2 =>
        rw [hr] at h1
        simp only [Option.map_some, Option.some.injEq, Prod.mk.injEq] at h1
        obtain ⟨rfl, _⟩ := h1
        have hn : (b ++ [x]).Nodup := e ▸ hv.list.noDup
        have hfil : u.l.filter (fun y => y ≠ x) = b := by
          rw [e]
          have := nodup_filter_mid (b := []) hn
          simpa using this
        have hit : DList.iterNext s.hooks .fromTail (some x) = b.getLast? := by
          have hrep := h.inv.rep
          rw [List.take_append_drop, e] at hrep
          exact DList.rep_prev (b := []) hrep
        have ht2 : s2.lru.tail = b.getLast? := by
          have := h2.view.list.tail
          simp only at this
          rw [this, hfil]
        obtain ⟨s3, u3, h4, h5, h6⟩ := ih h2
        simp only at h4 h6
        rw [hfil] at h4 h6
        refine ⟨s3, u3, ?_, h5, ?_⟩
        · simp only [evict, removeIt, hr, Option.map_some, Option.bind_some, hit]
          rw [← ht2, h4]
          simp [e]
        · rw [h6, e]
          simp only [List.length_append, List.length_cons, List.length_nil]
          rw [show b.length + (0 + 1) - (n + 1) = b.length - n by omega, List.take_append_of_le_length (by omega)]

/-! ### Warm restart -/

/-- C09: saving and restoring keeps the list, the insertion point and every item's state (a spec fits in 8 bits). -/
theorem save_restore {s : State N} {u : Lru N} (h : Link s u) (hs : u.spec < 256) :
    Link (restore (saveState s) s) u := by
  have hsp : (restore (saveState s) s).config.ipSpec = u.spec := by
    simp only [restore, saveState, Saved.config]; rw [h.spec, Nat.mod_eq_of_lt hs]
  refine ⟨⟨⟨h.inv.rep, h.inv.mem, h.inv.tl, h.inv.size, h.inv.ip⟩, h.inv.half, ?_⟩, h.bound, h.time, h.used, hsp⟩
  intro e
  exact h.inv.zero (by rw [hsp] at e; rw [h.spec]; exact e)

/-- The restored container never adapts its refresh time again: the reconfigure interval is not saved, and the
current refresh time has become the configured one. -/
theorem restore_stops_reconfigure (s mem : State N) :
    (restore (saveState s) mem).config.interval = 0 ∧ (restore (saveState s) mem).nextReconf = 2 ^ 32 - 1 ∧
    (restore (saveState s) mem).config.defaultRefresh = s.refreshTime := ⟨rfl, rfl, rfl⟩

/-! ### Concrete cases -/

/-- a configuration with insertion at 1/2. -/
def exConfig (spec : Nat) : Config := ⟨60, 60, fun _ => 0, false, true, false, spec, 0⟩

/-- six items inserted at the middle, one promoted, one removed. -/
example : ((Lru.new 1 : Lru Nat).run [.add 1 10, .add 2 11, .add 3 12, .add 4 13, .add 5 14, .add 6 15,
    .touch 1, .promote 1 90, .remove 4]).1.l = [1, 2, 3, 5, 6] ∧
  ((Lru.new 1 : Lru Nat).run [.add 1 10, .add 2 11, .add 3 12, .add 4 13, .add 5 14, .add 6 15,
    .touch 1, .promote 1 90, .remove 4]).1.k = 2 := by decide

/-- order by time with insertion at the head. -/
example : ((Lru.new 0 : Lru Nat).run [.add 1 10, .add 2 11, .add 3 12, .touch 1, .promote 1 90, .replace 2 9]).1.l =
    [1, 3, 9] := by decide

example : Clock 0 ([.add 1 10, .add 2 11, .touch 1, .promote 1 90] : List (Op Nat)) := by
  refine ⟨by decide, by decide, by decide, trivial⟩

/-- a state that meets the hypotheses of `recordAccess_spec`, `evict_order` and `save_restore`. -/
example : ∃ (s : State Nat) (u : Lru Nat), Link s u ∧ u.l = [3, 2, 1] ∧ u.spec < 256 ∧
    s.time 3 + s.refreshTime < 2 ^ 32 := by
  obtain ⟨s, h1, h2⟩ := link_run (link_new (exConfig 0) 0 ⟨fun _ => none, fun _ => none⟩)
    ([.add 1 10, .add 2 11, .add 3 12, .touch 2, .promote 2 90, .promote 3 91] : List (Op Nat))
  have h3 : (run (new (exConfig 0) 0 ⟨fun _ => none, fun _ => none⟩)
    ([.add 1 10, .add 2 11, .add 3 12, .touch 2, .promote 2 90, .promote 3 91] : List (Op Nat))).map
      (fun r => r.1.time 3 + r.1.refreshTime) = some 151 := rfl
  rw [h1] at h3
  simp only [Option.map_some, Option.some.injEq] at h3
  exact ⟨s, _, h2, by decide, by decide, by rw [h3]; decide⟩

/-- the same with an insertion point, reached through changes of the configuration. -/
example : ∃ (s : State Nat) (u : Lru Nat), Link s u ∧ u.l = [3, 2, 1] ∧ u.k = 1 := by
  obtain ⟨s, h1, h2⟩ := link_run (link_new (exConfig 1) 0 ⟨fun _ => none, fun _ => none⟩)
    ([.add 1 10, .add 2 11, .setConfig (exConfig 0) 12, .add 3 12, .setConfig (exConfig 1) 12,
      .touch 3, .promote 3 13, .remove 7, .replace 2 8, .replace 8 2, .add 4 20, .remove 4] : List (Op Nat))
  exact ⟨s, _, h2, by decide, by decide⟩

end Verif.MMLru
