import Verif.Base.Chain
/-
Model of `cachelib/allocator/memory/AllocationClass.{h,cpp}`, with the slab headers it writes (Slab.h).

A slab is named by its index, an address by its slab and the offset into it (getSlabForMemory, SlabAllocator.h:229-235, cuts
an address there).  Every critical section of lock_ is one operation; the local variables of a slab release that is
pruning the free list live in `AC.prune` (there is at most one per class, which holds startSlabReleaseLock_).

What is simplified:
* The free list (SList of FreeAlloc) is a sequence; that the pointer structure implements one is property C06.
* `canAllocate_` is read without the lock: reading `false` is the operation `allocFast`, and the locked part may run
  whatever the flag says.  The header test of free() and of completeSlabRelease() is made together with the critical section
  that follows (the header of a slab with a live allocation or an open release does not change in between).
* waitUntilAllFreed: the last test of its loop is made together with the critical section that follows.
* ASAN poisoning, sleeping and logging are left out.
-/
namespace Verif.AllocClass
open Verif

/-! Slab.h:87 `kSize = 1 << 22` -/
scoped notation "KS" => (4194304 : Nat)

/-- slab index and offset. -/
abbrev Addr := Nat × Nat

/-- Slab.h:119-239 SlabHeader. -/
structure Hdr where
  pool : Int
  cls : Int
  size : Nat
  marked : Bool
  advised : Bool

/-- Slab.h:141-146 initialize. -/
def Hdr.init (p : Int) : Hdr := ⟨p, -1, 0, false, false⟩
/-- Slab.h:150-154 resetAllocInfo. -/
def Hdr.reset (h : Hdr) : Hdr := { h with pool := -1, cls := -1, size := 0 }
/-- Slab.h:175-179 assignToClass; 191-196 restoreClassAndUnmark is this followed by unmarking. -/
def Hdr.assign (h : Hdr) (c : Int) (n : Nat) : Hdr := { h with cls := c, size := n }
/-- Slab.h:183-187 clearClassAndUnmark. -/
def Hdr.clear (h : Hdr) : Hdr := { h with cls := -1, size := 0, marked := false }

/-- where a slab release stands (AllocationClass.cpp:335-502). -/
inductive Phase where
  /-- before the swap of 410-420 -/
  | take
  /-- at 424 -/
  | loop
  /-- at 448 -/
  | scan
  /-- abort: at 471 -/
  | back
  /-- abort: at 337 -/
  | aborted
  /-- at 486 -/
  | collect
  /-- at 349 -/
  | finish (act : List Addr)

/-- local variables of pruneFreeAllocs (398-408). -/
structure Prune where
  slab : Nat
  freeAllocs : List Addr
  inSlab : List Addr
  notInSlab : List Addr
  phase : Phase

/-- AllocationClass.h:424-494 members. -/
structure AC where
  cls : Int
  pool : Int
  size : Nat
  off : Nat
  cur : Option Nat
  allocated : List Nat
  freeSlabs : List Nat
  freed : List Addr
  can : Bool
  active : Int
  map : Nat → Option (List Bool)
  prune : Option Prune

/-- the class, the headers, and the number of slabs carved so far: valid slabs are those below (isValidSlab). -/
structure CS where
  ac : AC
  hdr : Nat → Hdr
  next : Nat

/-- exceptions; `corrupt` are those that the code says should not happen; `disabled`: not at this point of the code. -/
inductive Err where | invalid | corrupt | disabled
  deriving DecidableEq

/-- AllocationClass.cpp:42-59 constructor. -/
def AC.new (cls pool : Int) (size : Nat) : AC :=
  ⟨cls, pool, size, 0, none, [], [], [], true, 0, fun _ => none, none⟩

/-- AllocationClass.h:98-100 getAllocsPerSlab. -/
def AC.per (c : AC) : Nat := KS / c.size

/-- SlabAllocator.h:187-195 getSlabHeader. -/
def CS.header (s : CS) (sl : Nat) : Option Hdr := if sl < s.next then some (s.hdr sl) else none

/-- AllocationClass.cpp:165-170 addSlabLocked. -/
def addSlab (s : CS) (sl : Nat) : CS :=
  { s with ac := { s.ac with can := true, freeSlabs := s.ac.freeSlabs ++ [sl] },
           hdr := upd s.hdr sl ((s.hdr sl).assign s.ac.cls s.ac.size) }

/-- AllocationClass.cpp:193-196 canAllocateFromCurrentSlabLocked. -/
def AC.canCarve (c : AC) : Bool := c.cur.isSome && decide (c.off + c.size ≤ KS)

/-- AllocationClass.cpp:185-191 allocateFromCurrentSlabLocked; `none`: null slab. -/
def AC.carve (c : AC) : Option (AC × Addr) := c.cur.map fun sl => ({ c with off := c.off + c.size }, (sl, c.off))

/-- AllocationClass.cpp:237-244 setupCurrentSlabLocked; `none`: back() of an empty vector. -/
def AC.setup (c : AC) : Option AC :=
  c.freeSlabs.getLast?.map fun sl =>
    { c with freeSlabs := c.freeSlabs.dropLast, cur := some sl, off := 0, allocated := c.allocated ++ [sl] }

/-- AllocationClass.cpp:205-235 allocateLocked. -/
def AC.allocate (c : AC) : Option (AC × Option Addr) :=
  if c.freed.isEmpty && c.freeSlabs.isEmpty && !c.canCarve then some ({ c with can := false }, none)
  else match c.freed with
    | a :: l => some ({ c with freed := l }, some a)
    | [] =>
      (if c.canCarve then c.carve else c.setup.bind AC.carve).map fun r => (r.1, some r.2)

/-- AllocationClass.cpp:246-255 getSlabForReleaseLocked; `r` is the random number. -/
def AC.pick (c : AC) (r : Nat) : Option Nat :=
  match c.freeSlabs with
  | sl :: _ => some sl
  | [] => c.allocated[r % c.allocated.length]?

/-- `*it = v.back(); v.pop_back()` for the position of `x` (291-294, 306-318). -/
def swapRemove (l : List Nat) (x : Nat) : List Nat :=
  match l.getLast? with
  | none => l
  | some y => (l.set (l.idxOf x) y).dropLast

/-- AllocationClass.cpp:759-772 createSlabReleaseAllocMapLocked and 322-332: the initial state of the slab's
allocations, of which those not yet carved count as free. -/
def AC.initBits (c : AC) (sl : Nat) : List Bool :=
  let bits := List.replicate c.per false
  if c.cur = some sl then bits.mapIdx (fun i b => if c.off / c.size ≤ i then true else b) else bits

/-- AllocationClass.cpp:261-265: a hint that is no valid address. -/
def badHint (s : CS) : Option Addr → Bool
  | some a => decide (¬ a.1 < s.next)
  | none => false

/-- AllocationClass.cpp:272-275: the slab of the hint, or one that is chosen. -/
def relSlab (s : CS) (hint : Option Addr) (r : Nat) : Option Nat :=
  match hint with
  | some a => some a.1
  | none => s.ac.pick r

/-- AllocationClass.cpp:257-333 startSlabRelease, its first critical section; the slab is returned if it was a free one
(then the release is complete). -/
def relStart (s : CS) (hint : Option Addr) (r : Nat) : Except Err (CS × Option Nat) :=
  if s.ac.prune.isSome then .error .disabled
  else if badHint s hint then .error .invalid
  else match relSlab s hint r with
    | none => .error .invalid
    | some sl => match s.header sl with
      | none => .error .invalid
      | some h =>
        if h.cls ≠ s.ac.cls ∨ h.pool ≠ s.ac.pool ∨ h.marked then .error .invalid
        else if sl ∈ s.ac.freeSlabs then
          .ok ({ s with ac := { s.ac with freeSlabs := swapRemove s.ac.freeSlabs sl },
                        hdr := upd s.hdr sl (h.assign (-1) 0) }, some sl)
        else if (s.ac.map sl).isSome then .error .corrupt
        else if sl ∉ s.ac.allocated then .error .corrupt
        else
          .ok ({ s with
                  ac := { s.ac with
                    map := upd s.ac.map sl (some (s.ac.initBits sl))
                    allocated := swapRemove s.ac.allocated sl
                    off := if s.ac.cur = some sl then 0 else s.ac.off
                    cur := if s.ac.cur = some sl then none else s.ac.cur
                    prune := some ⟨sl, [], [], [], .take⟩ }
                  hdr := upd s.hdr sl { h with marked := true } }, none)

/-- AllocationClass.cpp:382-396 partitionFreeAllocs, for at most `n` allocations. -/
def partitionFree (sl : Nat) : Nat → List Addr → List Addr → List Addr → List Addr × List Addr × List Addr
  | 0, f, i, n => (f, i, n)
  | _ + 1, [], i, n => ([], i, n)
  | k + 1, a :: f, i, n => if a.1 = sl then partitionFree sl k f (a :: i) n else partitionFree sl k f i (a :: n)

/-- AllocationClass.h:498 kFreeAllocsPruneLimit -/
def limit : Nat := 4096

/-- AllocationClass.cpp:458 -/
def Prune.scan (p : Prune) : Prune :=
  let r := partitionFree p.slab limit p.freeAllocs p.inSlab p.notInSlab
  { p with freeAllocs := r.1, inSlab := r.2.1, notInSlab := r.2.2 }

/-- AllocationClass.cpp:437-445 -/
def markFreed (size : Nat) (bits : List Bool) (l : List Addr) : List Bool :=
  l.foldl (fun b a => b.set (a.2 / size) true) bits

/-- AllocationClass.cpp:535-552 restoreFreedAllocsLocked. -/
def AC.restore (c : AC) (sl : Nat) (bits : List Bool) : AC :=
  let l := (List.range bits.length).filter (fun i => bits.getD i false)
  { c with freed := l.reverse.map (fun i => (sl, i * c.size)) ++ c.freed, can := c.can || !l.isEmpty }

/-- AllocationClass.cpp:492-498: the allocations that are not freed. -/
def activeOf (size sl : Nat) (bits : List Bool) : List Addr :=
  ((List.range bits.length).filter (fun i => !bits.getD i true)).map (fun i => (sl, i * size))

/-- what a release operation returns. -/
inductive Rel where
  /-- the slab does not belong to the class any more -/
  | released (sl : Nat)
  /-- these allocations must be freed first -/
  | context (sl : Nat) (act : List Addr)
  /-- SlabReleaseAborted was thrown -/
  | thrown (sl : Nat)
  /-- still at work -/
  | none

/-- One more step of startSlabRelease after its first critical section; `abort`: what shouldAbortFn says if asked. -/
def relStep (s : CS) (abort : Bool) : Except Err (CS × Rel) :=
  match s.ac.prune with
  | none => .error .disabled
  | some p => match p.phase with
    | .take => -- 410-420
      .ok ({ s with ac := { s.ac with freed := [], prune := some { { p with freeAllocs := s.ac.freed }.scan with phase := .loop } } }, .none)
    | .loop => -- 424-446
      if abort then .ok ({ s with ac := { s.ac with prune := some { p with phase := .back } } }, .none)
      else match s.ac.map p.slab with
        | none => .error .corrupt
        | some bits =>
          .ok ({ s with
                  ac := { s.ac with
                    freed := p.notInSlab ++ s.ac.freed
                    can := s.ac.can || !p.notInSlab.isEmpty
                    map := upd s.ac.map p.slab (some (markFreed s.ac.size bits p.inSlab))
                    prune := some { p with inSlab := [], notInSlab := [], phase := .scan } } }, .none)
    | .scan => -- 448-458
      if p.freeAllocs.isEmpty then .ok ({ s with ac := { s.ac with prune := some { p with phase := .collect } } }, .none)
      else .ok ({ s with ac := { s.ac with prune := some { p.scan with phase := .loop } } }, .none)
    | .back => -- 471-479
      .ok ({ s with
              ac := { s.ac with
                freed := (p.inSlab ++ (p.notInSlab ++ p.freeAllocs)) ++ s.ac.freed
                prune := some { p with freeAllocs := [], inSlab := [], notInSlab := [], phase := .aborted } } }, .none)
    | .aborted => -- 337-346
      match s.ac.map p.slab with
      | none => .error .corrupt
      | some bits =>
        .ok ({ s with
                ac := { s.ac.restore p.slab bits with
                  map := upd s.ac.map p.slab none
                  allocated := s.ac.allocated ++ [p.slab]
                  prune := none }
                hdr := upd s.hdr p.slab { s.hdr p.slab with marked := false } }, .thrown p.slab)
    | .collect => -- 486-499
      match s.ac.map p.slab with
      | none => .error .corrupt
      | some bits =>
        .ok ({ s with ac := { s.ac with prune := some { p with phase := .finish (activeOf s.ac.size p.slab bits) } } }, .none)
    | .finish act => -- 349-363
      if act.isEmpty then
        .ok ({ s with
                ac := { s.ac with map := upd s.ac.map p.slab none, prune := none }
                hdr := upd s.hdr p.slab (s.hdr p.slab).clear }, .released p.slab)
      else .ok ({ s with ac := { s.ac with active := s.ac.active + 1, prune := none } }, .context p.slab act)

/-- AllocationClass.cpp:554-570 abortSlabRelease of an open release. -/
def abortRelease (s : CS) (sl : Nat) : Except Err CS :=
  match s.ac.map sl with
  | none => .error .corrupt
  | some bits =>
    .ok { s with
          ac := { s.ac.restore sl bits with
            map := upd s.ac.map sl none
            allocated := s.ac.allocated ++ [sl]
            active := s.ac.active - 1 }
          hdr := upd s.hdr sl { (s.hdr sl).assign s.ac.cls s.ac.size with marked := false } }

/-- AllocationClass.cpp:504-521 allFreed. -/
def allFreed (s : CS) (sl : Nat) : Except Err Bool :=
  match s.ac.map sl with
  | none => .error .corrupt
  | some bits => .ok (bits.all id)

/-- AllocationClass.cpp:572-606 completeSlabRelease of an open release; `disabled`: it still waits. -/
def completeRelease (s : CS) (sl : Nat) : Except Err CS :=
  match s.header sl with
  | none => .error .corrupt
  | some h =>
    if h.cls ≠ s.ac.cls ∨ ¬ h.marked then .error .corrupt
    else match allFreed s sl with
      | .error e => .error e
      | .ok false => .error .disabled
      | .ok true => .ok { s with ac := { s.ac with map := upd s.ac.map sl none, active := s.ac.active - 1 },
                                 hdr := upd s.hdr sl (s.hdr sl).clear }

/-- AllocationClass.cpp:608-661 checkSlabInRelease and isAllocFreed; `ctx` is the slab of the context.
processAllocForRelease (663-673) calls back under the lock if this is false. -/
def isAllocFreed (s : CS) (ctx : Nat) (a : Addr) : Except Err Bool :=
  match s.header a.1 with
  | none => .error .invalid
  | some h =>
    if h.cls ≠ s.ac.cls then .error .invalid
    else if ¬ h.marked then .error .invalid
    else if a.1 ≠ ctx then .error .invalid
    else match s.ac.map a.1 with
      | none => .error .corrupt
      | some bits => .ok (bits.getD (a.2 / s.ac.size) false)

/-- AllocationClass.cpp:675-715 free. -/
def free (s : CS) (a : Addr) : Except Err CS :=
  match s.header a.1 with
  | none => .error .invalid
  | some h =>
    if h.cls ≠ s.ac.cls then .error .invalid
    else if h.marked then match s.ac.map a.1 with
      | none => .error .corrupt
      | some bits =>
        if bits.getD (a.2 / s.ac.size) false then .error .invalid
        else .ok { s with ac := { s.ac with map := upd s.ac.map a.1 (some (bits.set (a.2 / s.ac.size) true)) } }
    else .ok { s with ac := { s.ac with freed := a :: s.ac.freed, can := true } }

/-- AllocationClass.cpp:742-756 getStats: slabs, free slabs, freed and active allocations. -/
def AC.stats (c : AC) : Nat × Nat × Nat × Nat :=
  (c.allocated.length, c.freeSlabs.length, c.freed.length,
    c.allocated.length * c.per - c.freed.length - (if c.canCarve then (KS - c.off) / c.size else 0))

/-- AllocationClass.h:161-209 forEachAllocation: the addresses visited; none if the slab is skipped (also if the
release lock is taken). -/
def forEachAlloc (s : CS) (sl : Nat) : List Addr :=
  if s.ac.prune.isSome then [] else
  match s.header sl with
  | none => []
  | some h =>
    if h.cls ≠ s.ac.cls ∨ h.pool ≠ s.ac.pool ∨ h.advised ∨ h.marked then []
    else (List.range s.ac.per).map fun i => (sl, i * s.ac.size)

/-- what saveState keeps (AllocationClassObject); the free list is saved by SList (C06). -/
structure Saved where
  cls : Int
  size : Nat
  cur : Option Nat
  off : Nat
  allocated : List Nat
  freeSlabs : List Nat
  freed : List Addr
  can : Bool

/-- AllocationClass.cpp:717-740 saveState, for a restorable slab allocator. -/
def AC.save (c : AC) : Except Err Saved :=
  if c.active > 0 then .error .invalid
  else .ok ⟨c.cls, c.size, c.cur, c.off, c.allocated, c.freeSlabs, c.freed, c.can⟩

/-- AllocationClass.cpp:61-93 checkState; sizeof(FreeAlloc) = 5 (a compressed pointer, AllocationClass.h:457-462). -/
def AC.check (c : AC) (hd : Option Nat → Option Hdr) : Bool :=
  decide (0 ≤ c.cls) && decide (5 ≤ c.size) && decide (c.size ≤ KS) &&
  !(c.cur.isSome && (hd c.cur).isNone) &&
  (match hd c.cur with | some h => decide (h.cls = c.cls) | none => true) &&
  (match c.cur with | some sl => decide (sl ∈ c.allocated) | none => true)

/-- AllocationClass.cpp:107-142 the restoring constructor. -/
def AC.load (v : Saved) (pool : Int) (hd : Option Nat → Option Hdr) : Except Err AC :=
  let c : AC := ⟨v.cls, pool, v.size, v.off, v.cur, v.allocated, v.freeSlabs, v.freed, v.can, 0, fun _ => none, none⟩
  if c.check hd then .ok c else .error .invalid

end Verif.AllocClass
