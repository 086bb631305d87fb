/-! # Background workers (cachelib/common/PeriodicWorker.{h,cpp})

A labelled transition system: any number of calling threads, any number of worker threads created one after the other.
Each region of code under `lock_` is one step (the mutex makes it atomic); waiting on `cond_` gives the lock up, and
`notify_one` marks one of the threads then waiting (an arbitrary one) as notified. Spurious wake-ups and time-outs may
happen at any time; a wait with time-out 0 ("forever", time_point::max()) does not time out. Exceptions of `work()` and
`std::thread`, the interval, thread names, the run count and calls of `stop` from within `work()` are left out. -/

namespace Verif.Worker

def upd {α} (f : Nat → α) (i : Nat) (x : α) : Nat → α := fun j => if j = i then x else f j

/-- Where a worker thread is in `loop()`, PeriodicWorker.cpp:45-70. `waiting n`: in `wait_until`, notified or not. -/
inductive W
  | starting      -- before line 49
  | working       -- line 54
  | worked        -- before line 57
  | waiting (n : Bool) -- line 58
  | exiting       -- before line 68
  | done          -- ended, or not created yet
  deriving DecidableEq, Repr

/-- Where a calling thread is. -/
inductive C
  | idle
  | stopping (forever n : Bool) -- PeriodicWorker.cpp:125
  | joining (j : Nat)     -- PeriodicWorker.cpp:143
  | returning (b : Bool)  -- about to return from stop
  | waking                -- PeriodicWorker.h:98, before notify_one
  deriving DecidableEq, Repr

/-- PeriodicWorker.h:117-139: `shouldStopWork_`, `wakeUp_`, `workerThread_`; `next` is the number of threads created. -/
structure Sys where
  stop : Bool := false
  wake : Bool := false
  thread : Option Nat := none
  next : Nat := 0
  w : Nat → W := fun _ => .done
  c : Nat → C := fun _ => .idle

/-- What can be seen from outside. -/
inductive Obs
  | started (j : Nat)
  | workBegin (j : Nat) | workEnd (j : Nat)
  | stopCall (i : Nat) (forever : Bool) | stopRet (i : Nat) (b : Bool)
  | wakeCall (i : Nat) | wakeRet (i : Nat)
  deriving DecidableEq, Repr

/-- `cond_.notify_one()`: one thread that waits, if any does. -/
inductive Notify (s : Sys) : Sys → Prop
  | worker (j : Nat) (h : s.w j = .waiting false) : Notify s { s with w := upd s.w j (.waiting true) }
  | caller (i : Nat) (f : Bool) (h : s.c i = .stopping f false) : Notify s { s with c := upd s.c i (.stopping f true) }
  | none (hw : ∀ j, s.w j ≠ .waiting false) (hc : ∀ i f, s.c i ≠ .stopping f false) : Notify s s

/-- PeriodicWorker.cpp:52 and 65: the test of the loop, and what follows when it fails. -/
def Sys.loopTest (s : Sys) (j : Nat) : Sys × Option Obs :=
  if s.stop then ({ s with stop := false, w := upd s.w j .exiting }, none)
  else ({ s with w := upd s.w j .working }, some (.workBegin j))

/-- PeriodicWorker.cpp:59: after the wait. -/
def Sys.waited (s : Sys) (j : Nat) : Sys × Option Obs := ({ s with wake := false } : Sys).loopTest j

/-- PeriodicWorker.cpp:47, the predicate of the wait of the worker. -/
def Sys.breakOut (s : Sys) : Bool := s.wake || s.stop

/-- PeriodicWorker.cpp:124, the predicate of the wait of `stop`. -/
def Sys.stopped (s : Sys) : Bool := !s.stop

/-- Who makes a step. `timer` is the clock: a wait that times out, or wakes up spuriously. -/
inductive By
  | caller (i : Nat) | worker (j : Nat) | timer
  deriving DecidableEq, Repr

inductive Step : Sys → By → Option Obs → Sys → Prop
  /-- PeriodicWorker.cpp:80-83, 74-76: already running, or interval 0. -/
  | startNop (s : Sys) (i : Nat) (hi : s.c i = .idle) : Step s (.caller i) none s
  /-- PeriodicWorker.cpp:80-93 -/
  | start (s : Sys) (i : Nat) (hi : s.c i = .idle) (ht : s.thread = none) :
      Step s (.caller i) (some (.started s.next))
        { s with thread := some s.next, next := s.next + 1, w := upd s.w s.next .starting }
  /-- PeriodicWorker.cpp:102-105 -/
  | stopBusy (s : Sys) (i : Nat) (f : Bool) (hi : s.c i = .idle) (hs : s.stop = true) :
      Step s (.caller i) (some (.stopCall i f)) { s with c := upd s.c i (.returning false) }
  /-- PeriodicWorker.cpp:107-108 -/
  | stopNone (s : Sys) (i : Nat) (f : Bool) (hi : s.c i = .idle) (hs : s.stop = false) (ht : s.thread = none) :
      Step s (.caller i) (some (.stopCall i f)) { s with c := upd s.c i (.returning true) }
  /-- PeriodicWorker.cpp:110-125; the predicate does not hold, so `stop` waits. -/
  | stop (s s' : Sys) (i j : Nat) (f : Bool) (hi : s.c i = .idle) (hs : s.stop = false) (ht : s.thread = some j)
      (hn : Notify { s with stop := true } s') :
      Step s (.caller i) (some (.stopCall i f)) { s' with c := upd s'.c i (.stopping f false) }
  /-- PeriodicWorker.cpp:125, woken up, but the predicate does not hold. -/
  | stopAgain (s : Sys) (i : Nat) (f : Bool) (hi : s.c i = .stopping f true) (hp : s.stopped = false) :
      Step s (.caller i) none { s with c := upd s.c i (.stopping f false) }
  /-- PeriodicWorker.cpp:125-140, woken up by a notification. -/
  | stopTake (s : Sys) (i j : Nat) (f : Bool) (hi : s.c i = .stopping f true) (hp : s.stopped = true)
      (ht : s.thread = some j) :
      Step s (.caller i) none { s with thread := none, c := upd s.c i (.joining j) }
  /-- The same when another call has taken the thread (`tmp` is not joinable, PeriodicWorker.cpp:142). -/
  | stopTakeNone (s : Sys) (i : Nat) (f : Bool) (hi : s.c i = .stopping f true) (hp : s.stopped = true)
      (ht : s.thread = none) :
      Step s (.caller i) none { s with c := upd s.c i (.returning true) }
  /-- A spurious wake-up, or a time-out at which the predicate holds, counts as a notification. -/
  | stopSpurious (s : Sys) (i : Nat) (f : Bool) (hi : s.c i = .stopping f false) :
      Step s .timer none { s with c := upd s.c i (.stopping f true) }
  /-- PeriodicWorker.cpp:127-131: time-out. -/
  | stopTimeout (s : Sys) (i : Nat) (n : Bool) (hi : s.c i = .stopping false n) (hs : s.stop = true) :
      Step s .timer none { s with stop := false, c := upd s.c i (.returning false) }
  /-- PeriodicWorker.cpp:143: the thread has ended. -/
  | join (s : Sys) (i j : Nat) (hi : s.c i = .joining j) (hw : s.w j = .done) :
      Step s (.caller i) none { s with c := upd s.c i (.returning true) }
  | stopRet (s : Sys) (i : Nat) (b : Bool) (hi : s.c i = .returning b) :
      Step s (.caller i) (some (.stopRet i b)) { s with c := upd s.c i .idle }
  /-- PeriodicWorker.h:93-97 -/
  | wakeUp (s : Sys) (i : Nat) (hi : s.c i = .idle) :
      Step s (.caller i) (some (.wakeCall i)) { s with wake := true, c := upd s.c i .waking }
  /-- PeriodicWorker.h:98 -/
  | wakeRet (s s' : Sys) (i : Nat) (hi : s.c i = .waking) (hn : Notify s s') :
      Step s (.caller i) (some (.wakeRet i)) { s' with c := upd s'.c i .idle }
  /-- PeriodicWorker.cpp:49-53, or 49-52 and 65-66 -/
  | begin (s s' : Sys) (j : Nat) (o : Option Obs) (hj : s.w j = .starting) (he : s.loopTest j = (s', o)) :
      Step s (.worker j) o s'
  /-- PeriodicWorker.cpp:54-56 -/
  | worked (s : Sys) (j : Nat) (hj : s.w j = .working) :
      Step s (.worker j) (some (.workEnd j)) { s with w := upd s.w j .worked }
  /-- PeriodicWorker.cpp:57-58, the predicate does not hold. -/
  | sleep (s : Sys) (j : Nat) (hj : s.w j = .worked) (hp : s.breakOut = false) :
      Step s (.worker j) none { s with w := upd s.w j (.waiting false) }
  /-- PeriodicWorker.cpp:57-66, the predicate holds at once. -/
  | noSleep (s s' : Sys) (j : Nat) (o : Option Obs) (hj : s.w j = .worked) (hp : s.breakOut = true)
      (he : s.waited j = (s', o)) : Step s (.worker j) o s'
  /-- PeriodicWorker.cpp:58, woken up, but the predicate does not hold. -/
  | sleepAgain (s : Sys) (j : Nat) (hj : s.w j = .waiting true) (hp : s.breakOut = false) :
      Step s (.worker j) none { s with w := upd s.w j (.waiting false) }
  /-- PeriodicWorker.cpp:58-66 -/
  | woken (s s' : Sys) (j : Nat) (o : Option Obs) (hj : s.w j = .waiting true) (hp : s.breakOut = true)
      (he : s.waited j = (s', o)) : Step s (.worker j) o s'
  | spurious (s : Sys) (j : Nat) (hj : s.w j = .waiting false) :
      Step s .timer none { s with w := upd s.w j (.waiting true) }
  /-- PeriodicWorker.cpp:58-66, the interval is over. -/
  | timeout (s s' : Sys) (j : Nat) (n : Bool) (o : Option Obs) (hj : s.w j = .waiting n) (he : s.waited j = (s', o)) :
      Step s .timer o s'
  /-- PeriodicWorker.cpp:68-69 -/
  | exit (s s' : Sys) (j : Nat) (hj : s.w j = .exiting) (hn : Notify s s') :
      Step s (.worker j) none { s' with w := upd s'.w j .done }

/-- An execution; the trace has the newest observation first. -/
inductive Run : List Obs → Sys → Prop
  | init : Run [] {}
  | step (tr : List Obs) (s s' : Sys) (b : By) (o : Option Obs) (r : Run tr s) (h : Step s b o s') : Run (o.toList ++ tr) s'

end Verif.Worker
