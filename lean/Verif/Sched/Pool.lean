import Verif.Base.Chain
/-!
# Thread-pool job schedulers (navy/scheduler)

Model of `JobQueue`, `ThreadPoolExecutor`, `ThreadPoolJobScheduler` and
`OrderedThreadPoolJobScheduler` as a transition system.  Each action is one
critical section of the code (or one effect outside of every lock), so that any
interleaving of clients, workers and `finish()` callers is a sequence of actions.

Simplifications: jobs are opaque (a job body is the interval between the action
that pops it and the action in which it returns); statistics counters are left out;
`enqueueWithKey` and `scheduleNextJob` hold the shard lock across their single access
to the job queue, and are taken as one action each.
-/
namespace Verif.Sched
open Verif

/-- A submitted request: `JobParams` (ThreadPoolJobScheduler.h:131-142).  `id` is the
position in the order of submission (ghost), `write` is `JobType`. -/
structure Job where
  id : Nat
  key : Nat
  write : Bool
deriving DecidableEq, Repr

namespace Pool

/-- Construction parameters (ThreadPoolJobScheduler.cpp:177-187): numbers of reader and
writer threads (each owns one `JobQueue`, :41-65) and of ordering shards. -/
structure Cfg where
  readers : Nat
  writers : Nat
  shardsPower : Nat

/-- A job queue: (writer pool?, index in the pool). -/
abbrev QId := Bool × Nat

/-- `shard = key % numShards(numShardsPower_)` (ThreadPoolJobScheduler.cpp:174,194). -/
def Cfg.shard (c : Cfg) (key : Nat) : Nat := key % 2 ^ c.shardsPower

/-- Queue chosen for a job: pool by type (ThreadPoolJobScheduler.cpp:118-124), queue
`key % queues_.size()` in the pool (:71). -/
def Cfg.queueOf (c : Cfg) (j : Job) : QId :=
  if j.write then (true, j.key % c.writers) else (false, j.key % c.readers)

/-- The queues in the order `finish()` visits them: readers then writers
(ThreadPoolJobScheduler.cpp:74-80,141). -/
def Cfg.queues (c : Cfg) : List QId :=
  (List.range c.readers).map (Prod.mk false) ++ (List.range c.writers).map (Prod.mk true)

/-- Where the worker thread of a queue is in `JobQueue::process`
(ThreadPoolJobQueue.cpp:73-110). -/
inductive W where
  /-- at the top of the loop, about to look at the queue (:75-76) -/
  | idle
  /-- blocked in `cv_.wait` (:77) -/
  | asleep
  /-- running the body of the job (:84) -/
  | exec (j : Job)
  /-- the body returned `Done`; `scheduleNextJob` not called yet
      (ThreadPoolJobScheduler.cpp:212-214) -/
  | finished (j : Job)
  /-- `Done`, before re-locking the queue (:86) -/
  | retiring (j : Job)
  /-- `Reschedule`, before re-locking the queue (:86) -/
  | resched (j : Job)
deriving DecidableEq, Repr

/-- A caller inside `ThreadPoolJobScheduler::finish` (ThreadPoolJobScheduler.cpp:138-151):
the total of the previous pass, the sum of the current one, the queues still to visit.
`base` (ghost) is what had been submitted when the call was made. -/
structure Fin where
  prev : Nat
  sum : Nat
  todo : List QId
  base : List Job
deriving DecidableEq, Repr

structure St where
  /-- `queue_` of each `JobQueue` (front first) -/
  queue : QId → List Job
  /-- `processing_` -/
  processing : QId → Nat
  /-- `enqueueCount_` -/
  enq : QId → Nat
  /-- `stop_` -/
  stop : QId → Bool
  /-- the worker of each queue -/
  worker : QId → W
  /-- threads that left `JobQueue::enqueue`'s critical section with `wasEmpty` and have
  not called `notify_one` yet (ThreadPoolJobQueue.cpp:60-62) -/
  notifs : QId → Nat
  /-- `shouldSpool_` -/
  spool : Nat → Bool
  /-- `pendingJobs_` -/
  pend : Nat → List Job
  /-- callers of `finish()` -/
  fins : List Fin
  /-- finished callers of `finish()`: what each had to wait for -/
  returned : List (List Job)
  /-- observable: jobs in the order in which they were submitted -/
  submitted : List Job
  /-- observable: jobs in the order in which their body returned `Done` -/
  done : List Job
  /-- jobs that a stopped queue refused (ThreadPoolJobQueue.cpp:48) -/
  dropped : List Job

def init : St where
  queue _ := []
  processing _ := 0
  enq _ := 0
  stop _ := false
  worker _ := .idle
  notifs _ := 0
  spool _ := false
  pend _ := []
  fins := []
  returned := []
  submitted := []
  done := []
  dropped := []

/-- `JobQueue::enqueue` at the back, up to the release of the lock
(ThreadPoolJobQueue.cpp:43-58); the notification (:60-62) is a later action. -/
def push (c : Cfg) (s : St) (j : Job) : St :=
  let q := c.queueOf j
  let wasEmpty := (s.queue q).isEmpty && s.processing q == 0
  let s := if wasEmpty then { s with notifs := upd s.notifs q (s.notifs q + 1) } else s
  if s.stop q then { s with dropped := j :: s.dropped }
  else { s with
    queue := upd s.queue q (s.queue q ++ [j])
    enq := upd s.enq q (s.enq q + 1) }

/-- `OrderedThreadPoolJobScheduler::enqueueWithKey` (ThreadPoolJobScheduler.cpp:190-206). -/
def submit (c : Cfg) (s : St) (key : Nat) (write : Bool) : St :=
  let j : Job := ⟨s.submitted.length, key, write⟩
  let s := { s with submitted := s.submitted ++ [j] }
  let sh := c.shard key
  if s.spool sh then { s with pend := upd s.pend sh (s.pend sh ++ [j]) }
  else push c { s with spool := upd s.spool sh true } j

/-- `OrderedThreadPoolJobScheduler::scheduleNextJob` (ThreadPoolJobScheduler.cpp:225-235). -/
def next (c : Cfg) (s : St) (sh : Nat) : St :=
  match s.pend sh with
  | [] => { s with spool := upd s.spool sh false }
  | j :: rest => { push c s j with pend := upd s.pend sh rest }

/-- The actions: what a client, a worker or a caller of `finish` does next. -/
inductive Act where
  /-- a client (or a job body) calls `enqueueWithKey` -/
  | submit (key : Nat) (write : Bool)
  /-- the worker looks at the queue: pops, or waits -/
  | look (q : QId)
  /-- spurious wake-up of a waiting worker -/
  | spurious (q : QId)
  /-- a delayed `notify_one` -/
  | notify (q : QId)
  /-- the running body returns `Done` -/
  | retDone (q : QId)
  /-- the running body returns `Reschedule` -/
  | retResched (q : QId)
  /-- the worker calls `scheduleNextJob` -/
  | next (q : QId)
  /-- the worker re-locks the queue after the job -/
  | relock (q : QId)
  /-- `requestStop` -/
  | stop (q : QId)
  /-- a call of `finish()` begins -/
  | finBegin
  /-- the `i`-th caller of `finish()` makes a step (blocks unless the queue it visits is
  drained) -/
  | fin (i : Nat)
deriving DecidableEq, Repr

/-- One iteration of the loops in `finish()` (ThreadPoolJobScheduler.cpp:74-80,138-151 and
`JobQueue::finish`, ThreadPoolJobQueue.cpp:149-157). -/
def finStep (c : Cfg) (s : St) (i : Nat) (f : Fin) : Option St :=
  match f.todo with
  | q :: rest =>
    if s.processing q = 0 ∧ s.queue q = [] then
      some { s with fins := s.fins.set i { f with sum := f.sum + s.enq q, todo := rest } }
    else none
  | [] =>
    if f.sum = f.prev then
      some { s with fins := s.fins.eraseIdx i, returned := f.base :: s.returned }
    else some { s with fins := s.fins.set i { f with prev := f.sum, sum := 0, todo := c.queues } }

/-- One action; `none` if it is not enabled. -/
def exec (c : Cfg) (s : St) : Act → Option St
  | .submit key w => some (submit c s key w)
  -- ThreadPoolJobQueue.cpp:75-82
  | .look q =>
    if s.worker q = .idle ∧ s.stop q = false then
      match s.queue q with
      | [] => some { s with worker := upd s.worker q .asleep }
      | j :: rest => some { s with
          queue := upd s.queue q rest
          processing := upd s.processing q (s.processing q + 1)
          worker := upd s.worker q (.exec j) }
    else none
  | .spurious q =>
    if s.worker q = .asleep then some { s with worker := upd s.worker q .idle } else none
  -- ThreadPoolJobQueue.cpp:60-62
  | .notify q =>
    if s.notifs q = 0 then none
    else some { s with
      notifs := upd s.notifs q (s.notifs q - 1)
      worker := upd s.worker q (if s.worker q = .asleep then .idle else s.worker q) }
  -- ThreadPoolJobScheduler.cpp:212-213
  | .retDone q =>
    match s.worker q with
    | .exec j => some { s with worker := upd s.worker q (.finished j), done := s.done ++ [j] }
    | _ => none
  | .retResched q =>
    match s.worker q with
    | .exec j => some { s with worker := upd s.worker q (.resched j) }
    | _ => none
  -- ThreadPoolJobScheduler.cpp:214
  | .next q =>
    match s.worker q with
    | .finished j =>
      let s := next c s (c.shard j.key)
      some { s with worker := upd s.worker q (.retiring j) }
    | _ => none
  -- ThreadPoolJobQueue.cpp:86-107
  | .relock q =>
    match s.worker q with
    | .retiring _ => some { s with
        processing := upd s.processing q (s.processing q - 1)
        worker := upd s.worker q .idle }
    | .resched j => some { s with
        processing := upd s.processing q (s.processing q - 1)
        queue := upd s.queue q (s.queue q ++ [j])
        worker := upd s.worker q .idle }
    | _ => none
  -- ThreadPoolJobQueue.cpp:65-71
  | .stop q => some { s with
      stop := upd s.stop q true
      worker := upd s.worker q (if s.worker q = .asleep then .idle else s.worker q) }
  | .finBegin => some { s with fins := s.fins ++ [⟨0, 0, c.queues, s.submitted⟩] }
  | .fin i =>
    match s.fins[i]? with
    | some f => finStep c s i f
    | none => none

/-- Reachable states: any number of any actions. -/
inductive Reach (c : Cfg) : St → Prop where
  | init : Reach c init
  | step {s s' : St} (a : Act) : Reach c s → exec c s a = some s' → Reach c s'

/-- A run of a list of actions (for examples). -/
def runs (c : Cfg) (s : St) : List Act → Option St
  | [] => some s
  | a :: as => (exec c s a).bind (runs c · as)

theorem Reach.runs {c : Cfg} {s s' : St} (h : Reach c s) :
    ∀ {as : List Act}, runs c s as = some s' → Reach c s'
  | [], hr => by simp [Pool.runs] at hr; exact hr ▸ h
  | a :: as, hr => by
    unfold Pool.runs at hr
    cases he : exec c s a with
    | none => simp [he] at hr
    | some s1 => simp only [he, Option.bind_some] at hr; exact (Reach.step a h he).runs hr

end Pool
end Verif.Sched
