import Verif.Sched.Pool
/-!
# NavyRequestScheduler and NavyRequestDispatcher (navy/scheduler)

Transition-system model of the fiber-based scheduler: per-shard spooling, one dispatcher per
worker thread with an atomic LIFO list of incoming requests claimed by a sentinel, a bound on the
number of outstanding requests, and `finish()`.

Simplifications: the fibers of a dispatcher are interleaved arbitrarily (the code switches only at
yield points, so it has fewer interleavings), except that the limit check and the wait on the baton
(NavyRequestDispatcher.cpp:84-89), between which there is no yield point, are one action.  A body
returning `Reschedule` is simply run again by its fiber (:109-111): no state of the model
changes.  `enqueueWithKey` and `notifyCompletion` hold the shard lock across their single atomic
access to a dispatcher's list and are one action each; `addTaskRemote`, which follows, is an
action of its own.  Statistics and the health thread are left out.
-/
namespace Verif.Sched.Navy
open Verif

/-- Construction parameters (NavyRequestScheduler.cpp:43-54). -/
structure Cfg where
  readers : Nat
  writers : Nat
  maxReads : Nat
  maxWrites : Nat
  shardsPower : Nat

/-- A dispatcher: (writer?, index). -/
abbrev DId := Bool × Nat

/-- `key % numShards_` (NavyRequestScheduler.cpp:51,113,128). -/
def Cfg.shard (c : Cfg) (key : Nat) : Nat := key % 2 ^ c.shardsPower

/-- `getDispatcher` (NavyRequestScheduler.h:89-94). -/
def Cfg.dispOf (c : Cfg) (j : Job) : DId :=
  if j.write then (true, j.key % c.writers) else (false, j.key % c.readers)

/-- `maxOutstanding_` of a dispatcher (NavyRequestScheduler.cpp:55-71): the maximum is first
raised to the number of threads, then divided among them. -/
def Cfg.maxOut (c : Cfg) (d : DId) : Nat :=
  if d.1 then max c.maxWrites c.writers / c.writers else max c.maxReads c.readers / c.readers

/-- The dispatchers in the order of `finish()` (NavyRequestScheduler.cpp:144-151). -/
def Cfg.disps (c : Cfg) : List DId :=
  (List.range c.readers).map (Prod.mk false) ++ (List.range c.writers).map (Prod.mk true)

/-- Where a fiber running `processLoop` is (NavyRequestDispatcher.cpp:57-103). -/
inductive Loop where
  /-- about to claim the list (:66) -/
  | top
  /-- the rest of the reversed list is still to be dispatched (:77-94) -/
  | disp (pending : List Job)
  /-- waiting on the baton with a request in hand (:84-89) -/
  | wait (j : Job) (pending : List Job)
deriving DecidableEq, Repr

/-- Where the fiber of a request is (NavyRequestDispatcher.cpp:108-123). -/
inductive Ph where
  /-- running the request, again and again while it asks for it (:109-111) -/
  | exec
  /-- the request returned `Done`; `notifyCompletion` not called yet (:113-117) -/
  | finished
  /-- before the decrement of `numOutstanding_` (:118) -/
  | notified
deriving DecidableEq, Repr

/-- A dispatcher and its worker thread. -/
structure Disp where
  /-- requests linked from `incomingReqs_`, head first (newest first) -/
  inc : List Job := []
  /-- the list ends in the sentinel instead of null -/
  claimed : Bool := false
  /-- threads that found the head null and have not called `addTaskRemote` yet
  (NavyRequestDispatcher.cpp:144-147) -/
  toAdd : Nat := 0
  /-- `processLoop` tasks not started yet -/
  tasks : Nat := 0
  /-- running `processLoop`s -/
  loops : List Loop := []
  /-- fibers of requests -/
  out : List (Job × Ph) := []
  /-- `numOutstanding_` -/
  outst : Nat := 0
  /-- `baton_` has been posted -/
  baton : Bool := false
  /-- functions that returned, before the decrement of `numRunning_` (NavyThread.h:86-92) -/
  ended : Nat := 0
  /-- `numRunning_` of the thread (NavyThread.h:142) -/
  running : Nat := 0
  /-- ghost: requests given to the dispatcher, in order -/
  given : List Job := []
  /-- ghost: requests whose fiber was created, in order -/
  started : List Job := []
deriving DecidableEq, Repr

/-- A caller in `finish()`; `base` (ghost): what it can count on. -/
structure Fin where
  todo : List DId
  base : List Job
deriving DecidableEq, Repr

structure St where
  disp : DId → Disp
  /-- `shouldSpool_` -/
  spool : Nat → Bool
  /-- `pendingReqs_` -/
  pend : Nat → List Job
  /-- `stopped_` -/
  stopped : Bool
  fins : List Fin
  /-- completed calls of `finish()` -/
  returned : List (List Job)
  /-- observable: requests in order of submission -/
  submitted : List Job
  /-- observable: requests in the order in which they returned `Done` -/
  done : List Job
  /-- requests thrown away by `notifyCompletion` after `stopped_` -/
  lost : List Job

def init : St where
  disp _ := {}
  spool _ := false
  pend _ := []
  stopped := false
  fins := []
  returned := []
  submitted := []
  done := []
  lost := []

/-- `submitReq` up to the exchange of the head (NavyRequestDispatcher.cpp:126-144). -/
def Disp.give (d : Disp) (j : Job) : Disp :=
  { d with
    inc := j :: d.inc
    toAdd := if d.inc = [] ∧ d.claimed = false then d.toAdd + 1 else d.toAdd
    given := d.given ++ [j] }

/-- `NavyRequestScheduler::enqueueWithKey` (NavyRequestScheduler.cpp:102-124).  The test of
`stopped_` (:106) is made before, and not under the lock: a call it turns away has no effect, one
that passed it may come at any time. -/
def submit (c : Cfg) (s : St) (key : Nat) (write : Bool) : St :=
  let j : Job := ⟨s.submitted.length, key, write⟩
  let s := { s with submitted := s.submitted ++ [j] }
  let sh := c.shard key
  if s.spool sh then { s with pend := upd s.pend sh (s.pend sh ++ [j]) }
  else { s with
    spool := upd s.spool sh true
    disp := upd s.disp (c.dispOf j) ((s.disp (c.dispOf j)).give j) }

/-- `notifyCompletion` (NavyRequestScheduler.cpp:127-142). -/
def notify (c : Cfg) (s : St) (key : Nat) : St :=
  match s.pend (c.shard key) with
  | [] => { s with spool := upd s.spool (c.shard key) false }
  | j :: rest =>
    if s.stopped then { s with pend := upd s.pend (c.shard key) rest, lost := j :: s.lost }
    else { s with
      pend := upd s.pend (c.shard key) rest
      disp := upd s.disp (c.dispOf j) ((s.disp (c.dispOf j)).give j) }

/-- `scheduleReq` (NavyRequestDispatcher.cpp:105-108; `addTask`, NavyThread.h:102-108). -/
def Disp.start (d : Disp) (j : Job) : Disp :=
  { d with
    outst := d.outst + 1
    out := d.out ++ [(j, .exec)]
    running := d.running + 1
    started := d.started ++ [j] }

/-- A step of the `i`-th `processLoop` of a dispatcher with limit `m`
(NavyRequestDispatcher.cpp:57-103). -/
def Disp.loopStep (m : Nat) (d : Disp) (i : Nat) : Loop → Option Disp
  -- :66-75 claim the list and reverse it
  | .top => some { d with
      inc := []
      claimed := true
      loops := d.loops.set i (.disp d.inc.reverse) }
  -- :77-94 next request: wait if the limit is reached, else dispatch
  | .disp (j :: rest) =>
    if d.outst = m then some { d with
        baton := false
        loops := d.loops.set i (.wait j rest) }
    else some { d.start j with loops := d.loops.set i (.disp rest) }
  -- :99-102 give the list back if nothing arrived
  | .disp [] =>
    if d.inc = [] ∧ d.claimed = true then some { d with
        claimed := false
        loops := d.loops.eraseIdx i
        ended := d.ended + 1 }
    else some { d with loops := d.loops.set i .top }
  -- :89-93 woken up
  | .wait j rest =>
    if d.baton = true then some { d.start j with loops := d.loops.set i (.disp rest) }
    else none

inductive Act where
  | submit (key : Nat) (write : Bool)
  /-- `addTaskRemote` by a submitter that found the list empty -/
  | addTask (d : DId)
  /-- a `processLoop` task starts -/
  | begin (d : DId)
  | loop (d : DId) (i : Nat)
  /-- the request's body returns `Done` -/
  | retDone (d : DId) (j : Job)
  | notify (d : DId) (j : Job)
  /-- `numOutstanding_.dec()` and the post of the baton -/
  | dec (d : DId) (j : Job)
  /-- `--numRunning_` -/
  | leave (d : DId)
  /-- `stopped_ = true` -/
  | stop
  | finBegin
  | fin (i : Nat)
deriving DecidableEq, Repr

/-- One action; `none` if it is not enabled. -/
def exec (c : Cfg) (s : St) : Act → Option St
  | .submit key w => some (submit c s key w)
  -- NavyRequestDispatcher.cpp:144-147, NavyThread.h:79-85
  | .addTask d =>
    if (s.disp d).toAdd = 0 then none
    else some { s with disp := upd s.disp d { s.disp d with
      toAdd := (s.disp d).toAdd - 1
      tasks := (s.disp d).tasks + 1
      running := (s.disp d).running + 1 } }
  | .begin d =>
    if (s.disp d).tasks = 0 then none
    else some { s with disp := upd s.disp d { s.disp d with
      tasks := (s.disp d).tasks - 1
      loops := (s.disp d).loops ++ [.top] } }
  | .loop d i =>
    match (s.disp d).loops[i]? with
    | none => none
    | some l =>
      match (s.disp d).loopStep (c.maxOut d) i l with
      | some d' => some { s with disp := upd s.disp d d' }
      | none => none
  -- NavyRequestDispatcher.cpp:109
  | .retDone d j =>
    if (j, Ph.exec) ∈ (s.disp d).out then some { s with
        done := s.done ++ [j]
        disp := upd s.disp d { s.disp d with
          out := (j, .finished) :: (s.disp d).out.erase (j, .exec) } }
    else none
  -- NavyRequestDispatcher.cpp:117
  | .notify d j =>
    if (j, Ph.finished) ∈ (s.disp d).out then
      let s := { s with disp := upd s.disp d { s.disp d with
          out := (j, .notified) :: (s.disp d).out.erase (j, .finished) } }
      some (notify c s j.key)
    else none
  -- NavyRequestDispatcher.cpp:118-122
  | .dec d j =>
    if (j, Ph.notified) ∈ (s.disp d).out then some { s with
        disp := upd s.disp d { s.disp d with
          out := (s.disp d).out.erase (j, .notified)
          outst := (s.disp d).outst - 1
          baton := if (s.disp d).outst - 1 + 1 = c.maxOut d then true else (s.disp d).baton
          ended := (s.disp d).ended + 1 } }
    else none
  -- NavyThread.h:87-91
  | .leave d =>
    if (s.disp d).ended = 0 then none
    else some { s with disp := upd s.disp d { s.disp d with
      ended := (s.disp d).ended - 1
      running := (s.disp d).running - 1 } }
  -- NavyRequestScheduler.cpp:96
  | .stop => some { s with stopped := true }
  -- NavyRequestScheduler.cpp:144.  Ghost: the requests that are not spooled, on dispatchers no
  -- other thread is about to wake
  | .finBegin => some { s with fins := s.fins ++ [⟨c.disps, s.submitted.filter (fun j =>
      j ∉ s.pend (c.shard j.key) ∧ (s.disp (c.dispOf j)).toAdd = 0)⟩] }
  -- NavyRequestScheduler.cpp:145-150, NavyThread.h:121-127
  | .fin i =>
    match s.fins[i]? with
    | some f =>
      match f.todo with
      | d :: rest =>
        if (s.disp d).running = 0 then some { s with fins := s.fins.set i { f with todo := rest } }
        else none
      | [] => some { s with fins := s.fins.eraseIdx i, returned := f.base :: s.returned }
    | none => none

/-- Reachable states. -/
inductive Reach (c : Cfg) : St → Prop where
  | init : Reach c init
  | step {s s' : St} (a : Act) : Reach c s → exec c s a = some s' → Reach c s'

/-- A run of a list of actions (for examples). -/
def runs (c : Cfg) (s : St) : List Act → Option St
  | [] => some s
  | a :: as => (exec c s a).bind (runs c · as)

theorem Reach.runs {c : Cfg} {s s' : St} (h : Reach c s) :
    ∀ {as : List Act}, runs c s as = some s' → Reach c s'
  | [], hr => by simp [Navy.runs] at hr; exact hr ▸ h
  | a :: as, hr => by
    unfold Navy.runs at hr
    cases he : exec c s a with
    | none => simp [he] at hr
    | some s1 => simp only [he, Option.bind_some] at hr; exact (Reach.step a h he).runs hr

end Verif.Sched.Navy
