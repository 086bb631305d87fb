/-
Lookups that have to wait: for an item that is being moved to other memory (CacheAllocator.h: acquire, MoveCtx, movesMap, wakeUpWaiters,
moveForSlabRelease, evictForSlabRelease) and for a lookup in NVM (nvmcache/NvmCache.h: find, GetCtx, onGetComplete, removeFromFillMap).
A transition system for one key, any number of threads.

What is simplified:
* One key: other keys share the shard's map and lock, which are never waited in.
* A lookup in the index and getting the handle, or joining the waiters, are one step: the lock of the bucket is held (ChainedHashTable.h:
  1201, find), and whether the item moves is looked at under the lock of the moves (CacheAllocator.h:3960-3974).  The same for a replacement.
* Marking a moving item for eviction and unlinking it are one step (CacheAllocator.h:5615-5618): lookups in between are misses.
* The bytes of freed memory stay until another item is put there (`scribble`).  The map of moves finds an entry if the memory
  that the key of the entry points to (a StringPiece into the item, 3970) has the key's bytes (F14 compares keys).
* Waking up (3989-3993 and ~MoveCtx) is one step after the erasure from the map: nobody else has the context then.
* When the count overflows, NvmCache also removes the item (NvmCache.h:486); that is left out (`unlink` may come any time).
* The item's bytes and what is in it are its version, `ver`: a move copies it.
-/
namespace Verif.Async

/-- What is excluded.  `oneMover`: at most one thread at a time moves an item of this key.  `noChained`: no move of a chained item
(the parent is marked as moving then).  `noOverflow`: reference counts do not overflow when waiters are woken up. `max`: kAccessRefMask. -/
structure Cfg where
  oneMover : Bool := true
  noChained : Bool := true
  noOverflow : Bool := true
  max : Nat := 3
deriving DecidableEq, Repr

/-- A handle with a wait context (Handle.h:512-515). -/
structure Waiter where
  id : Nat
deriving DecidableEq, Repr

/-- An item: version, references without that of the move, moving (Refcount.h:358-409). -/
structure Item where
  ver : Nat
  refs : Nat
  moving : Bool := false
deriving DecidableEq, Repr

/-- An entry of movesMap (CacheAllocator.h:2508-2511): where its key points to, the waiters. -/
structure Entry where
  keyAt : Nat
  ws : List Waiter
deriving DecidableEq, Repr

/-- A thread that releases a slab, at an item of this key. -/
inductive Mover
  | moving (a : Nat)                 -- marked (5701, 5716)
  | moved (a b : Nat)                -- 4045: `b` is in the index, the thread has a handle to it
  | unmarked (a b : Nat)             -- 5478
  | evicting (a : Nat)               -- 5615-5618
  | chUnmarked                       -- 5530: the parent of a moved chained item, unmarked
  | chWaits (w : Waiter)             -- 5546: it moves again
  | chFound (h : Option Nat)         -- 5534
  | woke (a : Nat)                   -- 5479, 5622: `a` has yet to be freed
deriving DecidableEq, Repr

structure State where
  mem : Nat → Option Item := fun _ => none
  spell : Nat → Bool := fun _ => false
  index : Option Nat := none
  map : List Entry := []
  movers : List Mover := []
  fill : Option (List Waiter) := none
  got : List (Waiter × Option Nat) := []
  lost : List Waiter := []
  handles : List Nat := []
  nextW : Nat := 0
  nextV : Nat := 0

def upd {α : Type} (f : Nat → α) (a : Nat) (x : α) : Nat → α := fun b => if b = a then x else f b

/-- The waiters get their handles, one after the other (MoveCtx::wakeUpWaiters, CacheAllocator.h:2483-2502; GetCtx::wakeUpWaiters,
NvmCache.h:471-490): whether each gets the item, those who are not told, and the references at the end.  `over`: refcountOverflowed. -/
def wakeLoop (max : Nat) : Nat → Bool → List Waiter → List (Waiter × Bool) × List Waiter × Nat
  | refs, _, [] => ([], [], refs)
  | refs, true, w :: ws =>
    let r := wakeLoop max refs true ws
    ((w, false) :: r.1, r.2.1, r.2.2)
  | refs, false, w :: ws =>
    if refs < max then
      let r := wakeLoop max (refs + 1) false ws
      ((w, true) :: r.1, r.2.1, r.2.2)
    else
      let r := wakeLoop max refs true ws
      (r.1, w :: r.2.1, r.2.2)

/-- Waking up with a handle to `h`, or with a null handle. -/
def State.wake (c : Cfg) (s : State) (ws : List Waiter) (h : Option Nat) : Option State :=
  match h with
  | none => some { s with got := s.got ++ ws.map fun w => (w, none) }
  | some b =>
    match s.mem b with
    | none => none
    | some it =>
      let r := wakeLoop c.max it.refs false ws
      if c.noOverflow && r.2.1 != [] then none
      else
        some { s with mem := upd s.mem b (some { it with refs := r.2.2 }), lost := s.lost ++ r.2.1,
                      handles := s.handles ++ (r.1.filter (·.2)).map fun _ => b,
                      got := s.got ++ r.1.map fun p => (p.1, if p.2 then some it.ver else none) }

/-- The entry that a lookup of the key finds. -/
def State.entry (s : State) : Option Entry := s.map.find? fun e => s.spell e.keyAt

/-- wakeUpWaiters (CacheAllocator.h:3979-3993). -/
def State.wakeUp (c : Cfg) (s : State) (h : Option Nat) : Option State :=
  match s.entry with
  | none => some s
  | some e => ({ s with map := s.map.erase e } : State).wake c e.ws h

/-- tryGetHandleWithWaitContextForMovingItem (CacheAllocator.h:3955-3976) for the item at `a`, which moves. -/
def State.join (s : State) (a : Nat) : State :=
  let w : Waiter := { id := s.nextW }
  match s.entry with
  | none => { s with map := s.map ++ [{ keyAt := a, ws := [w] }], nextW := s.nextW + 1 }
  | some e => { s with map := { keyAt := e.keyAt, ws := e.ws ++ [w] } :: s.map.erase e, nextW := s.nextW + 1 }

/-- The handle of the thread itself is released (WriteHandle in MoveCtx::it, 2504). -/
def State.unref (s : State) (b : Nat) : State :=
  match s.mem b with
  | none => s
  | some it => { s with mem := upd s.mem b (some { it with refs := it.refs - 1 }) }

def Mover.owns (a : Nat) : Mover → Bool
  | .moving x => x == a
  | .moved x _ => x == a
  | .unmarked x _ => x == a
  | .evicting x => x == a
  | .woke x => x == a
  | _ => false

/-- It has yet to wake up the waiters. -/
def Mover.active : Mover → Bool
  | .woke _ => false
  | _ => true

inductive Act
  | insert (b : Nat)            -- insertOrReplace of an item at `b` (CacheAllocator.h:3897; ChainedHashTable.h:1186-1220)
  | unlink                      -- remove or eviction
  | find                        -- findInternal: a handle, or waiting for a move (CacheAllocator.h:3719-3741)
  | release (b : Nat)           -- a handle is released (3762-3776)
  | free (a : Nat)              -- the memory goes back to the allocator
  | scribble (a : Nat)          -- and is used for another key
  | mark                        -- 5701, 5716: the item in the cache is marked as moving
  | mvReplace (i b : Nat)       -- 4027-4045: moved to `b`
  | mvUnmark (i : Nat)          -- 5478
  | mvWake (i : Nat)            -- 5479
  | mvFree (i : Nat)            -- 5556, 5643
  | mvEvict (i : Nat)           -- 5614-5618
  | evWake (i : Nat)            -- 5622
  | chUnmark (i : Nat)          -- 5530
  | chFind (i : Nat)            -- 5534
  | chGot (i : Nat)             -- 5546
  | chWake (i : Nat)            -- 5537, 5548
  | nvmFind                     -- NvmCache.h:800-842
  | nvmEnd (b : Option Nat)     -- 1338-1429: an item was inserted at `b`, or a miss; 499-512, 448-453
deriving DecidableEq, Repr

def State.exec (c : Cfg) (s : State) : Act → Option State
  | .insert b =>
    if (s.mem b).isSome then none
    else
      let it : Item := { ver := s.nextV, refs := 1 }
      let link (s : State) : State :=
        { s with mem := upd s.mem b (some it), spell := upd s.spell b true, index := some b,
                 handles := s.handles ++ [b], nextV := s.nextV + 1 }
      match s.index with
      | none => some (link s)
      | some a =>
        match s.mem a with
        | none => none
        | some o =>
          if o.moving then some (link (s.join a))
          else if o.refs < c.max then
            some (link { s with mem := upd s.mem a (some { o with refs := o.refs + 1 }), handles := s.handles ++ [a] })
          else none
  | .unlink =>
    match s.index with
    | some a =>
      match s.mem a with
      | some o => if o.moving then none else some { s with index := none }
      | none => none
    | none => none
  | .find =>
    match s.index with
    | some a =>
      match s.mem a with
      | some o =>
        if o.moving then some (s.join a)
        else if o.refs < c.max then
          some { s with mem := upd s.mem a (some { o with refs := o.refs + 1 }), handles := s.handles ++ [a] }
        else none
      | none => none
    | none => some s
  | .release b =>
    if b ∈ s.handles then some (({ s with handles := s.handles.erase b } : State).unref b) else none
  | .free a =>
    match s.mem a with
    | some o =>
      if o.refs = 0 ∧ o.moving = false ∧ s.index ≠ some a ∧ s.movers.all (fun m => !m.owns a) then
        some { s with mem := upd s.mem a none }
      else none
    | none => none
  | .scribble a => if (s.mem a).isNone then some { s with spell := upd s.spell a false } else none
  | .mark =>
    if c.oneMover && s.movers.any Mover.active then none
    else match s.index with
      | some a =>
        match s.mem a with
        | some o =>
          if o.moving = false ∧ o.refs = 0 then
            some { s with mem := upd s.mem a (some { o with moving := true }), movers := s.movers ++ [.moving a] }
          else none
        | none => none
      | none => none
  | .mvReplace i b =>
    match s.movers[i]? with
    | some (.moving a) =>
      if s.index = some a ∧ (s.mem b).isNone then
        match s.mem a with
        | some o =>
          some { s with mem := upd s.mem b (some { ver := o.ver, refs := 1 }), spell := upd s.spell b true, index := some b,
                        movers := s.movers.set i (.moved a b) }
        | none => none
      else none
    | _ => none
  | .mvUnmark i =>
    match s.movers[i]? with
    | some (.moved a b) =>
      match s.mem a with
      | some o => some { s with mem := upd s.mem a (some { o with moving := false }), movers := s.movers.set i (.unmarked a b) }
      | none => none
    | _ => none
  | .mvWake i =>
    match s.movers[i]? with
    | some (.unmarked a b) => ((({ s with movers := s.movers.set i (.woke a) } : State).wakeUp c (some b))).map (·.unref b)
    | _ => none
  | .mvFree i =>
    match s.movers[i]? with
    | some (.woke a) => some { s with mem := upd s.mem a none, movers := s.movers.eraseIdx i }
    | _ => none
  | .mvEvict i =>
    match s.movers[i]? with
    | some (.moving a) =>
      match s.mem a with
      | some o =>
        let s := { s with mem := upd s.mem a (some { o with moving := false }), movers := s.movers.set i (.evicting a) }
        some (if s.index = some a then { s with index := none } else s)
      | none => none
    | _ => none
  | .evWake i =>
    match s.movers[i]? with
    | some (.evicting a) => ({ s with movers := s.movers.set i (.woke a) } : State).wakeUp c none
    | _ => none
  | .chUnmark i =>
    if c.noChained then none
    else match s.movers[i]? with
      | some (.moving a) =>
        match s.mem a with
        | some o => some { s with mem := upd s.mem a (some { o with moving := false }), movers := s.movers.set i .chUnmarked }
        | none => none
      | _ => none
  | .chFind i =>
    match s.movers[i]? with
    | some .chUnmarked =>
      match s.index with
      | none => some { s with movers := s.movers.set i (.chFound none) }
      | some a =>
        match s.mem a with
        | some o =>
          if o.moving then
            some (({ s with movers := s.movers.set i (.chWaits { id := s.nextW }) } : State).join a)
          else if o.refs < c.max then
            some { s with mem := upd s.mem a (some { o with refs := o.refs + 1 }), movers := s.movers.set i (.chFound (some a)) }
          else none
        | none => none
    | _ => none
  | .chGot i =>
    match s.movers[i]? with
    | some (.chWaits w) => if s.got.any (fun p => p.1 == w) then some { s with movers := s.movers.set i (.chFound none) } else none
    | _ => none
  | .chWake i =>
    match s.movers[i]? with
    | some (.chFound h) =>
      (({ s with movers := s.movers.eraseIdx i } : State).wakeUp c h).map fun t => match h with | some b => t.unref b | none => t
    | _ => none
  | .nvmFind =>
    if s.index = none then
      let w : Waiter := { id := s.nextW }
      match s.fill with
      | none => some { s with fill := some [w], nextW := s.nextW + 1 }
      | some l => some { s with fill := some (l ++ [w]), nextW := s.nextW + 1 }
    else none
  | .nvmEnd b =>
    match s.fill with
    | none => none
    | some l =>
      match b with
      | none => ({ s with fill := none } : State).wake c l none
      | some b =>
        if s.index = none ∧ (s.mem b).isNone then
          let s1 : State := { s with fill := none, mem := upd s.mem b (some { ver := s.nextV, refs := 1 }), spell := upd s.spell b true,
                                     index := some b, nextV := s.nextV + 1 }
          (s1.wake c l (some b)).map (·.unref b)
        else none

def State.runs (c : Cfg) : State → List Act → Option State
  | s, [] => some s
  | s, a :: l => match s.exec c a with | none => none | some s' => s'.runs c l

inductive Reach (c : Cfg) : State → Prop
  | init : Reach c {}
  | step {s s' : State} (a : Act) (h : Reach c s) (he : s.exec c a = some s') : Reach c s'

end Verif.Async
