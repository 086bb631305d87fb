import Verif.Latch.Props
/-
C63: concrete executions, and what the latch does not guarantee.
-/
namespace Verif.Latch
open Verif

/-- A latch of 1: thread 0 waits and sleeps, thread 1 counts down; all calls return. -/
example : ∃ s, Reach 1 2 [.start 0 .wait, .start 1 .down, .ret 1 .down true, .ret 0 .wait true] s ∧ s.pc 0 = .idle ∧ s.pc 1 = .idle := by
  have h := Reach.new (n := 1) (N := 2)
  have h := h.step (.start (t := 0) .wait (by decide) rfl)
  have h := h.step (.wSleep (t := 0) false rfl (by decide))
  have h := h.step (.start (t := 1) .down (by decide) rfl)
  have h := h.step (.dLast (t := 1) false rfl rfl)
  have h := h.step (.notify (t := 1) false rfl)
  have h := h.step (.wDone (t := 0) false rfl rfl)
  exact ⟨_, h, rfl, rfl⟩

/-- A latch of 2: arrive_and_wait waits for a count_down of another thread. try_wait answers false in between. -/
example : ∃ s, Reach 2 3 [.start 0 .arrive, .start 2 .tryWait, .ret 2 .tryWait false, .start 1 .down, .ret 1 .down true, .ret 0 .arrive true] s := by
  have h := Reach.new (n := 2) (N := 3)
  have h := h.step (.start (t := 0) .arrive (by decide) rfl)
  have h := h.step (.aMore (t := 0) rfl (by decide))
  have h := h.step (.wSleep (t := 0) true rfl (by decide))
  have h := h.step (.start (t := 2) .tryWait (by decide) rfl)
  have h := h.step (.tryWait (t := 2) rfl)
  have h := h.step (.start (t := 1) .down (by decide) rfl)
  have h := h.step (.dLast (t := 1) false rfl rfl)
  have h := h.step (.notify (t := 1) false rfl)
  have h := h.step (.wDone (t := 0) true rfl rfl)
  exact ⟨_, h⟩

/-- wait can return, and its caller destroy the latch, while the last count_down has still to notify cv_, a member of it
(CountDownLatch.cpp:44-46: the lock is released before). -/
theorem violated_destroy_after_wait :
    ∃ s, Reach 1 2 [.start 1 .down, .start 0 .wait, .ret 0 .wait true] s ∧ s.pc 1 = .dNotify false := by
  have h := Reach.new (n := 1) (N := 2)
  have h := h.step (.start (t := 1) .down (by decide) rfl)
  have h := h.step (.dLast (t := 1) false rfl rfl)
  have h := h.step (.start (t := 0) .wait (by decide) rfl)
  have h := h.step (.wDone (t := 0) false rfl rfl)
  exact ⟨_, h, rfl⟩

end Verif.Latch
