import Verif.Async.Props
/-! What the code does not guarantee. -/
namespace Verif.Async

/-- Once forgotten, always forgotten. -/
theorem forgotten_forever {c : Cfg} (hc : c.noChained = true) {acts more : List Act} {s s' : State} (h : State.runs c {} acts = some s)
    (h' : State.runs c {} (acts ++ more) = some s') {w : Waiter} (hw : w ∈ s.lost) : ∀ r, (w, r) ∉ s'.got := by
  have key : ∀ (more : List Act) (l0 : List Act) (s0 : State), Run c l0 s0 → w ∈ s0.lost → ∀ s', s0.runs c more = some s' → w ∈ s'.lost := by
    intro more
    induction more with
    | nil => intro l0 s0 _ hw s' h; simp [State.runs] at h; subst h; exact hw
    | cons a l ih =>
      intro l0 s0 hr hw s' h
      simp only [State.runs] at h
      cases he : s0.exec c a with
      | none => simp [he] at h
      | some s1 =>
        simp only [he] at h
        refine ih _ s1 (hr.step a he) ?_ s' h
        cases (hr.reach.inv hc).eff hc a he with
        | same _ _ _ h4 => rw [h4]; exact hw
        | join _ _ _ _ _ _ _ _ h4 => rw [h4]; exact hw
        | fillJoin _ _ _ _ h4 => rw [h4]; exact hw
        | woke _ _ _ _ _ h4 => rw [h4]; exact List.mem_append_left _ hw
        | filled _ _ _ _ _ _ _ h4 => rw [h4]; exact List.mem_append_left _ hw
  have happ : ∀ (l l' : List Act) (s0 : State), s0.runs c (l ++ l') = (s0.runs c l).bind (·.runs c l') := by
    intro l
    induction l with
    | nil => intro l' s0; simp [State.runs]
    | cons b l ih =>
      intro l' s0
      simp only [List.cons_append, State.runs]
      cases s0.exec c b with
      | none => rfl
      | some s1 => exact ih l' s1
  rw [happ, h] at h'
  have hl := key more acts s (reach_of_runs h) hw s' h'
  have hnd := ((C53_once_partial hc (s := s') (acts := acts ++ more) (by rw [happ, h]; exact h')).1)
  intro r hr
  have h1 : w.id ∈ s'.got.map fun p => p.1.id := List.mem_map.mpr ⟨_, hr, rfl⟩
  have h2 : w.id ∈ s'.lost.map fun w => w.id := List.mem_map.mpr ⟨_, hl, rfl⟩
  simp only [Spec.everyone, List.append_assoc] at hnd
  rw [List.nodup_append] at hnd
  exact hnd.2.2 _ h1 _ (List.mem_append_left _ h2) rfl

/-- "[If the count overflows] we'll return a miss to the user's pending read" (CacheAllocator.h:2495-2499, NvmCache.h:483-487) does not hold:
the handle for which the count overflows is never set; `wait()` on it does not return.  Those after it get a miss. -/
theorem violated_completes_on_overflow :
    (State.runs { noOverflow := false, max := 2 } {} [.insert 0, .release 0, .mark, .find, .find, .find, .mvReplace 0 1, .mvUnmark 0, .mvWake 0]).map sum =
      some { got := [(0, some 0), (2, none)], waiting := [], lost := [1], handles := [1], movers := [.woke 0],
             refs := [some (0, 0), some (0, 1), none] } := by decide

/-- The same for a lookup in NVM. -/
theorem violated_completes_on_overflow_nvm :
    (State.runs { noOverflow := false, max := 2 } {} [.nvmFind, .nvmFind, .nvmFind, .nvmEnd (some 0)]).map sum =
      some { got := [(0, some 0), (2, none)], waiting := [], lost := [1], handles := [0], movers := [],
             refs := [some (0, 1), none, none] } := by decide

/-- The number of waiters made and the value of the key, after each step. -/
def trace (c : Cfg) : State → List Act → List (Nat × Option Nat)
  | s, [] => [(s.nextW, Spec.value s)]
  | s, a :: l =>
    (s.nextW, Spec.value s) ::
      match s.exec c a with
      | none => []
      | some s' => trace c s' l

/-- Two threads release slabs with items of the same key (the second: the value that replaced the first one, which was moved).  Waiters are found
by the key only: the first thread wakes up one that waits for the second item, with the old value.  So a lookup returns a value that was
overwritten before it began. -/
theorem violated_current_with_two_movers :
    (State.runs { oneMover := false } {} [.insert 0, .release 0, .mark, .mvReplace 0 1, .mvUnmark 0, .insert 2, .release 2, .mark, .find, .mvWake 0]).map sum =
      some { got := [(0, some 0)], waiting := [], lost := [], handles := [1, 1], movers := [.woke 0, .moving 2],
             refs := [some (0, 0), some (0, 2), some (1, 0)] } ∧
    trace { oneMover := false } {} [.insert 0, .release 0, .mark, .mvReplace 0 1, .mvUnmark 0, .insert 2, .release 2, .mark, .find, .mvWake 0] =
      [(0, none), (0, some 0), (0, some 0), (0, some 0), (0, some 0), (0, some 0), (0, some 1), (0, some 1), (0, some 1), (1, some 1), (1, some 1)] := by decide

/-- A chained item is moved, a lookup waits for its parent.  The parent is unmarked (CacheAllocator.h:5530), removed and freed, and its
memory is used for another key; the key of the entry in the map points there (3970), so the thread does not find the entry, and
nobody wakes up the waiter.  (5524-5529 copies the key for the thread's own lookup only.) -/
theorem violated_completes_after_chained_move :
    (State.runs { noChained := false } {} [.insert 0, .release 0, .mark, .find, .chUnmark 0, .unlink, .free 0, .scribble 0, .chFind 0, .chWake 0]).map sum =
      some { got := [], waiting := [0], lost := [], handles := [], movers := [], refs := [none, none, none] } := by decide

/-- A miss of a waiting lookup does not mean that there was no value at any time since: the item was replaced while it moved, and there was a value
all the time. -/
theorem violated_miss_means_absent :
    (State.runs {} {} [.insert 0, .release 0, .mark, .find, .insert 1, .mvEvict 0, .evWake 0]).map (fun s => (sum s).got) = some [(0, none), (1, none)] ∧
    trace {} {} [.insert 0, .release 0, .mark, .find, .insert 1, .mvEvict 0, .evWake 0] =
      [(0, none), (0, some 0), (0, some 0), (0, some 0), (1, some 0), (2, some 1), (2, some 1), (2, some 1)] := by decide

end Verif.Async
