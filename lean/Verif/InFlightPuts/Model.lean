/-
Model of cachelib/allocator/nvmcache/InFlightPuts.h (class InFlightPuts, lines 39-188).

What is simplified:
* the map from key view to `unique_ptr<atomic<bool>>` is a function from keys to an optional entry;
  that the key text outlives the token is a documented user obligation (lines 37-38).
* bodies running under `rwMutex_` are atomic steps.  `invalidateToken` holds it shared, which excludes
  all other bodies, and its only write is one atomic store.
* the step "callback returned, entry erased, lock released" and the later `reset()` of the token
  object (lines 122-127) are separate steps, so other threads can run in between.
* ghost data, never read by the code: token identities, the owner of an entry and the event log.
-/
namespace Verif.InFlightPuts

/-- Keys are byte strings (InFlightPuts.h:51). -/
abbrev Key := List UInt8

/-- An element of `keys_` (InFlightPuts.h:178-181): the atomic flag; `owner` is ghost. -/
structure Entry where
  valid : Bool
  owner : Nat
deriving DecidableEq, Repr

/-- A `PutToken` with `puts_ != nullptr` (InFlightPuts.h:142-146); `id` is ghost. -/
structure Token where
  key : Key
  id : Nat
deriving DecidableEq, Repr

/-- A storage slot for a token object: no valid token, a valid token, or a token whose
`executeIfValid` callback has run and which is about to be `reset()` (InFlightPuts.h:122-127). -/
inductive Slot where
  | empty
  | live (t : Token)
  | done (t : Token)
deriving DecidableEq, Repr

/-- Ghost events, in the order in which they happen. -/
inductive Event where
  | acquired (id : Nat) (k : Key)
  | invalidated (k : Key)
  | ran (id : Nat) (k : Key)
  | threw (id : Nat) (k : Key)
  | released (id : Nat) (k : Key)
deriving DecidableEq, Repr

/-- `InFlightPuts` (InFlightPuts.h:177-187), token storage slots and the ghost log (newest first). -/
structure State where
  keys : Key → Option Entry
  slots : Nat → Slot
  nextId : Nat
  log : List Event

/-- Initial state: empty map (InFlightPuts.h:178). -/
def init : State := ⟨fun _ => none, fun _ => .empty, 0, []⟩

/-- element write/erase of the map (InFlightPuts.h:57,70,82,164,173). -/
def updK (m : Key → Option Entry) (k : Key) (v : Option Entry) : Key → Option Entry :=
  fun x => if x = k then v else m x

/-- write of a token object (InFlightPuts.h:102-112,132-136). -/
def updS (m : Nat → Slot) (d : Nat) (v : Slot) : Nat → Slot :=
  fun x => if x = d then v else m x

/-- Outcomes of the callback passed to `tryAcquireToken` (InFlightPuts.h:64): its boolean result, or
an exception. -/
inductive Cb where
  | ret (b : Bool)
  | throws
deriving DecidableEq, Repr

/-- Results (InFlightPuts.h:43, 121, 158). -/
inductive Res where
  | ok
  | tryLockFail
  | tokenExists
  | callbackFailed
  | exception
  | executed
  | notExecuted
  /-- `removeToken`: number of erased elements (InFlightPuts.h:173-174, XDCHECK_EQ(res, 1u)). -/
  | erased (n : Nat)
deriving DecidableEq, Repr

/-- InFlightPuts.h:50-73 `tryAcquireToken`; `lockOk` is the outcome of try_lock, `cb` of `fn()`; the
resulting token is constructed in slot `d`. -/
def tryAcquireToken (s : State) (d : Nat) (k : Key) (lockOk : Bool) (cb : Cb) : State × Res :=
  if lockOk then
    match s.keys k with
    | some _ => (s, .tokenExists)
    | none =>
      let m := updK s.keys k (some ⟨true, s.nextId⟩)
      match cb with
      | .throws => ({ s with keys := m, nextId := s.nextId + 1 }, .exception)
      | .ret true =>
        ({ keys := m, slots := updS s.slots d (.live ⟨k, s.nextId⟩), nextId := s.nextId + 1,
           log := .acquired s.nextId k :: s.log }, .ok)
      | .ret false => ({ s with keys := updK m k none }, .callbackFailed)
  else (s, .tryLockFail)

/-- InFlightPuts.h:78-84 `invalidateToken`. -/
def invalidateToken (s : State) (k : Key) : State × Res :=
  match s.keys k with
  | some e => ({ s with keys := updK s.keys k (some { e with valid := false }),
                        log := .invalidated k :: s.log }, .ok)
  | none => ({ s with log := .invalidated k :: s.log }, .ok)

/-- InFlightPuts.h:121-129 `PutToken::executeIfValid` up to and including the locked section
158-168.  `throws` says whether `fn` throws (then the entry and the token are preserved). -/
def executeIfValid (s : State) (d : Nat) (throws : Bool) : State × Res :=
  match s.slots d with
  | .live t =>
    match s.keys t.key with
    | some e =>
      if e.valid then
        if throws then ({ s with log := .threw t.id t.key :: s.log }, .exception)
        else
          ({ s with keys := updK s.keys t.key none, slots := updS s.slots d (.done t),
                    log := .ran t.id t.key :: s.log }, .executed)
      else (s, .notExecuted)
    | none => (s, .notExecuted)
  | _ => (s, .notExecuted)

/-- InFlightPuts.h:125, 132-136 `reset()` after a successful execution. -/
def reset (s : State) (d : Nat) : State × Res :=
  match s.slots d with
  | .done _ => ({ s with slots := updS s.slots d .empty }, .ok)
  | _ => (s, .ok)

/-- InFlightPuts.h:91-95 `~PutToken` with 171-175 `removeToken`. -/
def destroy (s : State) (d : Nat) : State × Res :=
  match s.slots d with
  | .live t =>
    ({ s with keys := updK s.keys t.key none, slots := updS s.slots d .empty,
              log := .released t.id t.key :: s.log },
     .erased (if (s.keys t.key).isSome then 1 else 0))
  | _ => (s, .ok)

/-- InFlightPuts.h:102-104 move construction. -/
def moveConstruct (s : State) (d src : Nat) : State × Res :=
  ({ s with slots := updS (updS s.slots d (s.slots src)) src .empty }, .ok)

/-- InFlightPuts.h:106-112 move assignment. -/
def moveAssign (s : State) (d src : Nat) : State × Res :=
  if d ≠ src then
    ((moveConstruct (destroy s d).1 d src).1, (destroy s d).2)
  else (s, .ok)

/-- Public operations (InFlightPuts.h:50-129). -/
inductive Op where
  | tryAcquire (d : Nat) (k : Key) (lockOk : Bool) (cb : Cb)
  | invalidate (k : Key)
  | execute (d : Nat) (throws : Bool)
  | reset (d : Nat)
  | destroy (d : Nat)
  | moveConstruct (d src : Nat)
  | moveAssign (d src : Nat)

/-- a token whose owner is in the middle of `executeIfValid` (InFlightPuts.h:121-129). -/
def busy (s : State) (d : Nat) : Bool := match s.slots d with | .done _ => true | _ => false

/-- C++ lifetime and ownership rules: construct only in free storage; a token in the middle of
`executeIfValid` is used by its thread only (InFlightPuts.h:97-112). -/
def Op.legal (s : State) : Op → Prop
  | .tryAcquire d _ _ _ => s.slots d = .empty
  | .invalidate _ => True
  | .execute d _ => busy s d = false
  | .reset _ => True
  | .destroy d => busy s d = false
  | .moveConstruct d src => s.slots d = .empty ∧ d ≠ src ∧ busy s src = false
  | .moveAssign d src => busy s d = false ∧ busy s src = false

/-- One operation (InFlightPuts.h:50-175). -/
def Op.exec (s : State) : Op → State × Res
  | .tryAcquire d k l cb => tryAcquireToken s d k l cb
  | .invalidate k => invalidateToken s k
  | .execute d t => executeIfValid s d t
  | .reset d => InFlightPuts.reset s d
  | .destroy d => InFlightPuts.destroy s d
  | .moveConstruct d src => InFlightPuts.moveConstruct s d src
  | .moveAssign d src => InFlightPuts.moveAssign s d src

end Verif.InFlightPuts
