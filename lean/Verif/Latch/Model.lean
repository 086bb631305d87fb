import Verif.Base.Chain
/-
Model of `cachelib/common/CountDownLatch.{h,cpp}` (C63): a labelled transition system over any number of threads. What a thread does while
it holds lock_ is one step (the lock is released before the next access, except that cv_.wait releases it when it starts to wait); the
condition variable is the set of threads asleep, and it may wake any of them at any time.
-/
namespace Verif.Latch
open Verif

/-- CountDownLatch.h:31-40: the calls. -/
inductive Call | wait | down | arrive | tryWait
  deriving DecidableEq

/-- Where a thread is. The flag of count_down and wait says whether they are called by arrive_and_wait. -/
inductive PC
  | idle
  | wCheck (arr : Bool)
  | asleep (arr : Bool)
  | dCheck (arr : Bool)
  | dNotify (arr : Bool)
  | tCheck
  deriving DecidableEq

/-- Events: a call starts, a call returns (`wait` and `arrive_and_wait` have no result, `true` stands for it). -/
inductive Ev | start (t : Nat) (c : Call) | ret (t : Nat) (c : Call) (r : Bool)
  deriving DecidableEq

/-- CountDownLatch.h:43-45. -/
structure St where
  count : Nat
  pc : Nat → PC

/-- CountDownLatch.cpp:22. -/
def St.new (n : Nat) : St := ⟨n, fun _ => .idle⟩

/-- First step of each call: CountDownLatch.cpp:24-25, 33-35, 51-52, 58-59. -/
def PC.first : Call → PC
  | .wait => .wCheck false
  | .down => .dCheck false
  | .arrive => .dCheck true
  | .tryWait => .tCheck

/-- Which call a return of `wait` belongs to. CountDownLatch.cpp:55. -/
def waitCall (arr : Bool) : Call := if arr then .arrive else .wait

/-- Which call a return of `count_down` belongs to. CountDownLatch.cpp:52. -/
def downCall (arr : Bool) : Call := if arr then .arrive else .down

/-- CountDownLatch.cpp:46: a thread asleep is woken. -/
def PC.wake : PC → PC
  | .asleep arr => .wCheck arr
  | p => p

/-- A step of thread `t` among `N` threads, with the event it shows. -/
inductive Step (N : Nat) (s : St) (t : Nat) : Option Ev → St → Prop
  /-- A call starts. -/
  | start (c : Call) (ht : t < N) (h : s.pc t = .idle) : Step N s t (some (.start t c)) ⟨s.count, upd s.pc t (PC.first c)⟩
  /-- CountDownLatch.cpp:36-38. -/
  | dZero (arr : Bool) (h : s.pc t = .dCheck arr) (hc : s.count = 0) : Step N s t (some (.ret t (downCall arr) true)) ⟨s.count, upd s.pc t .idle⟩
  /-- CountDownLatch.cpp:40-43, called directly. -/
  | dMore (h : s.pc t = .dCheck false) (hc : 1 < s.count) : Step N s t (some (.ret t .down false)) ⟨s.count - 1, upd s.pc t .idle⟩
  /-- CountDownLatch.cpp:40-43 and 55. -/
  | aMore (h : s.pc t = .dCheck true) (hc : 1 < s.count) : Step N s t none ⟨s.count - 1, upd s.pc t (.wCheck true)⟩
  /-- CountDownLatch.cpp:40-44. -/
  | dLast (arr : Bool) (h : s.pc t = .dCheck arr) (hc : s.count = 1) : Step N s t none ⟨0, upd s.pc t (.dNotify arr)⟩
  /-- CountDownLatch.cpp:46-47. -/
  | notify (arr : Bool) (h : s.pc t = .dNotify arr) : Step N s t (some (.ret t (downCall arr) true)) ⟨s.count, upd (fun u => (s.pc u).wake) t .idle⟩
  /-- CountDownLatch.cpp:26-29: the count is 0. -/
  | wDone (arr : Bool) (h : s.pc t = .wCheck arr) (hc : s.count = 0) : Step N s t (some (.ret t (waitCall arr) true)) ⟨s.count, upd s.pc t .idle⟩
  /-- CountDownLatch.cpp:29: the count is not 0. -/
  | wSleep (arr : Bool) (h : s.pc t = .wCheck arr) (hc : s.count ≠ 0) : Step N s t none ⟨s.count, upd s.pc t (.asleep arr)⟩
  /-- CountDownLatch.cpp:59-60. -/
  | tryWait (h : s.pc t = .tCheck) : Step N s t (some (.ret t .tryWait (s.count == 0))) ⟨s.count, upd s.pc t .idle⟩

/-- The condition variable wakes `t` although nothing was notified. -/
inductive Spurious (s : St) : St → Prop
  | mk (t : Nat) (arr : Bool) (h : s.pc t = .asleep arr) : Spurious s ⟨s.count, upd s.pc t (.wCheck arr)⟩

/-- The executions of a latch of `n` with `N` threads, with their events. -/
inductive Reach (n N : Nat) : List Ev → St → Prop
  | new : Reach n N [] (St.new n)
  | step {h : List Ev} {s s' : St} {t : Nat} {e : Option Ev} (hr : Reach n N h s) (hs : Step N s t e s') : Reach n N (h ++ e.toList) s'
  | spurious {h : List Ev} {s s' : St} (hr : Reach n N h s) (hs : Spurious s s') : Reach n N h s'

end Verif.Latch
