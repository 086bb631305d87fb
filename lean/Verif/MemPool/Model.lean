import Verif.AllocClass.Inv
/-
Model of `cachelib/allocator/memory/{SlabAllocator,MemoryPool,MemoryPoolManager}.{h,cpp}`: how slabs move between the
slab allocator, the pools and their allocation classes, and how the limits of the pools are kept.

Any number of threads run at once.  A step of the model is a critical section of one lock or one access to an atomic
counter; what a thread still has to do is in the state: for the holder of a pool's lock_ in `Pool.lk`, for threads that
release or reclaim slabs in `G.toks`.

What is simplified:
* Sizes in bytes that are multiples of Slab::kSize are counted in slabs (`cur`, `adv`).  They are integers that may become
  negative where the code wraps around; the test of allSlabsAllocated then fails as in the code (`over`).
* getSlabLocked: the second read of allSlabsAllocated and the increment after it are one step (others only decrement
  in between, and a resize in between counts as later).  Likewise a failure of makeNewSlab and the decrement after it.
* makeNewSlab, reclaimSlab: taking the slab and initialising its header are one step (nobody else has the slab; a
  header that was never initialised is not modelled).
* adviseSlab: the flag set before madvise and unset after a failure is left out.
* currAllocSize_, memoryPoolSize_, statistics, the names of pools, zeroing, locking of memory are left out.
-/
namespace Verif.MemPool
open Verif AllocClass

/-- SlabReleaseMode (Slab.h:242-246) with the receiver: only kRebalance may have one
(MemoryPool.cpp:497-503, 542-548). -/
inductive Mode where
  | resize
  | advise
  | rebalance (receiver : Option Nat)
  deriving DecidableEq

/-- where the holder of a pool's lock_ is (MemoryPool.cpp:240-352). -/
inductive LSt where
  /-- at no slab at the moment -/
  | ready
  /-- MemoryPool.h:130 done: the advised size that was read -/
  | read (a : Int)
  /-- MemoryPool.cpp:251 done -/
  | need
  deriving DecidableEq

/-- MemoryPool.h:365 lock_; `hand`: the slabs that its holder got and has not yet passed on
(one in allocate, many in provision). -/
inductive Lk where
  | idle
  | held (hand : List Nat) (st : LSt)
  deriving DecidableEq

/-- MemoryPool.h:365-404 members. -/
structure Pool where
  max : Nat
  cur : Int
  free : List Nat
  adv : Int
  sizes : List Nat
  lk : Lk

/-- what a thread outside of lock_ still has to do. -/
inductive Tok where
  /-- releaseSlab (MemoryPool.cpp:401) of a slab that belongs to no class any more -/
  | rel (p sl : Nat) (m : Mode)
  /-- at 431 -/
  | advd (p : Nat)
  /-- at 425, 436 or 454 -/
  | dec (p : Nat)
  /-- at 469 -/
  | recl (p sl : Nat)
  deriving DecidableEq

/-- all of it; `lost`: slabs (with their pool) whose release threw an exception. -/
structure G where
  /-- slabs of the memory (SlabAllocator.cpp:371-373) -/
  total : Nat
  next : Nat
  hdr : Nat → Hdr
  saFree : List Nat
  saAdv : List Nat
  saCan : Bool
  np : Nat
  pools : Nat → Pool
  ac : Nat → Nat → AC
  toks : List Tok
  lost : List (Nat × Nat)

/-- what is known from the history. -/
structure Hist where
  /-- what the clients of each class know -/
  cl : Nat → Nat → Client
  /-- how many slabs were released from the pool's list of free slabs -/
  off : Nat → Nat
  /-- the largest size the pool was ever given -/
  peak : Nat → Nat
  /-- whether the number of advised slabs grew while allSlabsAllocated was computed -/
  raced : Nat → Bool
  /-- whether the pool reclaimed more slabs than it had advised -/
  low : Nat → Bool

abbrev St := G × Hist

/-- a pool that was not created yet -/
def Pool.zero : Pool := ⟨0, 0, [], 0, [], .idle⟩

/-- SlabAllocator.cpp:146-190 and MemoryPoolManager.cpp:28-29: constructors. -/
def G.init (total : Nat) : G :=
  ⟨total, 0, fun _ => ⟨-1, -1, 0, false, false⟩, [], [], true, 0, fun _ => Pool.zero, fun _ _ => AC.new 0 0 0, [], []⟩

def Hist.init : Hist :=
  ⟨fun _ _ => ⟨[], [], [], none, false⟩, fun _ => 0, fun _ => 0, fun _ => false, fun _ => false⟩

/-- what the allocation class `c` of pool `p` sees. -/
def G.cs (g : G) (p c : Nat) : CS := ⟨g.ac p c, g.hdr, g.next⟩

def upd2 {A : Type} (f : Nat → Nat → A) (p c : Nat) (a : A) : Nat → Nat → A := upd f p (upd (f p) c a)

def G.setCls (g : G) (p c : Nat) (s : CS) : G := { g with ac := upd2 g.ac p c s.ac, hdr := s.hdr, next := s.next }
def G.setPool (g : G) (p : Nat) (x : Pool) : G := { g with pools := upd g.pools p x }
def Hist.setCl (h : Hist) (p c : Nat) (x : Client) : Hist := { h with cl := upd2 h.cl p c x }

/-! ### the slab allocator -/

/-- SlabAllocator.cpp:394-440 makeNewSlab, when canAllocate_ was read as true. -/
def makeNewSlab (g : G) (p : Nat) : G × Option Nat :=
  match g.saFree.getLast? with
  | some sl => ({ g with saFree := g.saFree.dropLast, hdr := upd g.hdr sl (Hdr.init p) }, some sl)
  | none =>
    if g.next = g.total then ({ g with saCan := false }, none)
    else ({ g with next := g.next + 1, hdr := upd g.hdr g.next (Hdr.init p) }, some g.next)

/-- SlabAllocator.cpp:442-456 freeSlab. -/
def freeSlab (g : G) (sl : Nat) : G :=
  { g with saFree := g.saFree ++ [sl], saCan := true, hdr := upd g.hdr sl (g.hdr sl).reset }

/-- SlabAllocator.cpp:458-480 adviseSlab, when madvise succeeds. -/
def adviseSlab (g : G) (sl : Nat) : G :=
  { g with saAdv := g.saAdv ++ [sl], hdr := upd g.hdr sl { (g.hdr sl).reset with advised := true } }

/-- SlabAllocator.cpp:482-508 reclaimSlab. -/
def reclaimSlab (g : G) (p : Nat) : G × Option Nat :=
  match g.saAdv.getLast? with
  | none => (g, none)
  | some sl => ({ g with saAdv := g.saAdv.dropLast, hdr := upd g.hdr sl (Hdr.init p) }, some sl)

/-! ### pools -/

/-- MemoryPool.h:129-132 allSlabsAllocated: the advised size `a` was read before; the sum is computed modulo 2^64. -/
def Pool.over (x : Pool) (a : Int) : Bool :=
  decide ((x.cur + a + 1) * 4194304 < 0 ∨ (x.max : Int) < (x.cur + a + 1) * 4194304)

/-- MemoryPool.cpp:253-265 getSlabLocked after its increment; `flag`: canAllocate_ was read as false in makeNewSlab. -/
def takeSlab (g : G) (p : Nat) (hand : List Nat) (flag : Bool) : Option G :=
  let x := g.pools p
  match x.free.getLast? with
  | some sl => some (g.setPool p { x with free := x.free.dropLast, lk := .held (hand ++ [sl]) .ready })
  | none =>
    if flag then
      if g.saCan then none else some (g.setPool p { x with cur := x.cur - 1, lk := .held hand .ready })
    else match makeNewSlab g p with
      | (g', some sl) => some (g'.setPool p { x with lk := .held (hand ++ [sl]) .ready })
      | (g', none) => some (g'.setPool p { x with cur := x.cur - 1, lk := .held hand .ready })

/-- MemoryPool.cpp:194-209 getAllocationClassId: lower_bound in the sorted sizes. -/
def classFor (sizes : List Nat) (n : Nat) : Option Nat :=
  if sizes.getLastD 0 < n ∨ n = 0 then none else some (sizes.findIdx fun k => decide (¬ k < n))

/-! ### the pool manager -/

/-- MemoryPoolManager.cpp:94-96 -/
def G.sum (g : G) : Nat := ((List.range g.np).map fun p => (g.pools p).max).sum

/-- MemoryPoolManager.cpp:89-99 getRemainingSizeLocked: `totalSize - sum` in 64 bits. -/
def G.remaining (g : G) : Nat := (g.total * KS + (2 ^ 64 - g.sum % 2 ^ 64)) % 2 ^ 64

/-- MemoryPool.cpp:147-165: the sizes are accepted (they come from a set: sorted and distinct); 107-109: not empty.
kMinAllocSize is 64 (Slab.h:85). -/
def sizesOK (l : List Nat) : Bool := !l.isEmpty && l.all (fun n => decide (64 ≤ n ∧ n ≤ KS)) && decide (l.Pairwise (· < ·))

/-- MemoryPoolManager.cpp:101-128 createNewPool; kMaxPools is 64 (MemoryPoolManager.h:48). -/
def createPool (g : G) (size : Nat) (sizes : List Nat) : Option G :=
  if g.np = 64 then none
  else if g.remaining < size then none
  else if !sizesOK sizes then none
  else some { g with
    pools := upd g.pools g.np ⟨size, 0, [], 0, sizes, .idle⟩
    ac := upd g.ac g.np fun c => AC.new c g.np (sizes.getD c 0)
    np := g.np + 1 }

/-- MemoryPoolManager.cpp:226-237 growPool. -/
def growPool (g : G) (p bytes : Nat) : Option G :=
  if ¬ p < g.np then none
  else if g.remaining < bytes then none
  else some (g.setPool p { g.pools p with max := (g.pools p).max + bytes })

/-- MemoryPoolManager.cpp:215-224 shrinkPool. -/
def shrinkPool (g : G) (p bytes : Nat) : Option G :=
  if ¬ p < g.np then none
  else if (g.pools p).max < bytes then none
  else some (g.setPool p { g.pools p with max := (g.pools p).max - bytes })

/-- MemoryPoolManager.cpp:200-213 resizePools. -/
def resizePools (g : G) (src dest bytes : Nat) : Option G :=
  if ¬ (src < g.np ∧ dest < g.np) then none
  else if (g.pools src).max < bytes then none
  else
    let g := g.setPool src { g.pools src with max := (g.pools src).max - bytes }
    some (g.setPool dest { g.pools dest with max := (g.pools dest).max + bytes })

/-! ### steps -/

/-- a critical section of an allocation class that adds no slab (AllocationClass/Model.lean). -/
inductive ClsOp where
  | alloc
  | free (a : Addr)
  | relStart (hint : Option Addr) (r : Nat)
  | relStep (abort : Bool)
  | abort (sl : Nat)
  | complete (sl : Nat)

/-- … the class and what its clients know afterwards, and the slab that was released if one was.  The clients free
only what was handed out and end only releases that are open. -/
def runCls (s : CS) (c : Client) : ClsOp → Option (CS × Client × Option Nat)
  | .alloc => s.ac.allocate.map fun r => ({ s with ac := r.1 }, { c with live := r.2.toList ++ c.live }, none)
  | .free a =>
    if a ∈ c.live then
      match AllocClass.free s a with
      | .ok s' => some (s', { c with live := c.live.erase a }, none)
      | .error _ => none
    else none
  | .relStart hint r =>
    match AllocClass.relStart s hint r with
    | .ok (s', o) => some (s', c.afterStart o (relSlab s hint r), o)
    | .error _ => none
  | .relStep ab =>
    match AllocClass.relStep s ab with
    | .ok (s', .released sl) => some (s', c.afterStep ab (.released sl), some sl)
    | .ok (s', o) => some (s', c.afterStep ab o, none)
    | .error _ => none
  | .abort sl =>
    if sl ∈ c.opens then
      match abortRelease s sl with
      | .ok s' => some (s', { c with opens := c.opens.erase sl }, none)
      | .error _ => none
    else none
  | .complete sl =>
    if sl ∈ c.opens then
      match completeRelease s sl with
      | .ok s' => some (s', { c with opens := c.opens.erase sl, slabs := c.slabs.erase sl }, some sl)
      | .error _ => none
    else none

inductive Op where
  /-- a critical section of a class; a slab that it releases is released in the given mode
  (MemoryPool.cpp:510-523, 550-564) -/
  | cls (p c : Nat) (o : ClsOp) (m : Mode)
  /-- MemoryPool.cpp:282, 332: lock_ is taken and left -/
  | lock (p : Nat)
  | unlock (p : Nat)
  /-- MemoryPool.h:130 -/
  | readAdv (p : Nat)
  /-- MemoryPool.h:131, MemoryPool.cpp:243-251 -/
  | check (p : Nat)
  /-- MemoryPool.cpp:253-265 -/
  | take (p : Nat) (flag : Bool)
  /-- MemoryPool.cpp:300 ac.addSlab of provision -/
  | add (p c : Nat)
  /-- MemoryPool.cpp:347 addSlabAndAllocate -/
  | addAlloc (p c : Nat)
  /-- MemoryPool.cpp:277-278 provision gives a slab back -/
  | giveBack (p : Nat)
  /-- MemoryPool.cpp:477-488 releaseFromFreeSlabs -/
  | takeOff (p : Nat)
  /-- the next step of releaseSlab (401-459) of `sl`; `ok`: madvise succeeds -/
  | release (p sl : Nat) (m : Mode) (ok : Bool)
  /-- MemoryPool.cpp:431 -/
  | advInc (p : Nat)
  /-- MemoryPool.cpp:425, 436, 454 -/
  | decr (p : Nat)
  /-- MemoryPool.cpp:464 -/
  | reclaim (p : Nat)
  /-- MemoryPool.cpp:469-471 -/
  | reclaimed (p sl : Nat)
  | create (size : Nat) (sizes : List Nat)
  | grow (p bytes : Nat)
  | shrink (p bytes : Nat)
  | resize (src dest bytes : Nat)

/-- the pool's lock is held and at `ready`: its hand -/
def Pool.handReady (x : Pool) : Option (List Nat) :=
  match x.lk with
  | .held l .ready => some l
  | _ => none

def Pool.advRead (x : Pool) : Option (List Nat × Int) :=
  match x.lk with
  | .held l (.read a) => some (l, a)
  | _ => none

def Pool.needs (x : Pool) : Option (List Nat) :=
  match x.lk with
  | .held l .need => some l
  | _ => none

/-- MemoryPool.cpp:421-458: what releaseSlab does with the slab, and what remains to be done. -/
def releaseSlab (g : G) (h : Hist) (p sl : Nat) (m : Mode) (ok : Bool) : Option St :=
  let x := g.pools p
  let toks := g.toks.erase (.rel p sl m)
  match m with
  | .resize => some ({ freeSlab g sl with toks := .dec p :: toks }, h) -- 423
  | .advise =>
    if ok then some ({ adviseSlab g sl with toks := .advd p :: toks }, h) -- 430
    else if x.lk = .idle then -- 433-434
      some ({ g.setPool p { x with free := x.free ++ [sl] } with toks := .dec p :: toks }, h)
    else none
  | .rebalance (some c) =>
    if c < x.sizes.length then -- 443-444
      some ({ g.setCls p c (addSlab (g.cs p c) sl) with toks := toks },
        h.setCl p c { h.cl p c with slabs := sl :: (h.cl p c).slabs })
    else some ({ g with toks := toks, lost := (p, sl) :: g.lost }, h) -- 443 throws (182-188)
  | .rebalance none =>
    if x.lk = .idle then -- 446-449
      some ({ g.setPool p { x with free := x.free ++ [sl] } with toks := .dec p :: toks }, h)
    else none

/-- One step of some thread; `none`: it cannot be made. -/
def exec (x : St) : Op → Option St
  | .cls p c o m =>
    let g := x.1; let h := x.2
    if p < g.np ∧ c < (g.pools p).sizes.length then
      match runCls (g.cs p c) (h.cl p c) o with
      | some (s, k, none) => some (g.setCls p c s, h.setCl p c k)
      | some (s, k, some sl) => some ({ g.setCls p c s with toks := .rel p sl m :: g.toks }, h.setCl p c k)
      | none => none
    else none
  | .lock p =>
    let g := x.1
    if p < g.np ∧ (g.pools p).lk = .idle then some (g.setPool p { g.pools p with lk := .held [] .ready }, x.2) else none
  | .unlock p =>
    let g := x.1
    if (g.pools p).lk = .held [] .ready then some (g.setPool p { g.pools p with lk := .idle }, x.2) else none
  | .readAdv p =>
    let g := x.1
    match (g.pools p).handReady with
    | some l => some (g.setPool p { g.pools p with lk := .held l (.read (g.pools p).adv) }, x.2)
    | none => none
  | .check p =>
    let g := x.1; let h := x.2
    match (g.pools p).advRead with
    | some (l, a) =>
      if (g.pools p).over a then some (g.setPool p { g.pools p with lk := .held l .ready }, h)
      else some (g.setPool p { g.pools p with cur := (g.pools p).cur + 1, lk := .held l .need },
        { h with raced := upd h.raced p (h.raced p || decide (a < (g.pools p).adv)) })
    | none => none
  | .take p flag =>
    let g := x.1
    match (g.pools p).needs with
    | some l => (takeSlab g p l flag).map fun g => (g, x.2)
    | none => none
  | .add p c =>
    let g := x.1; let h := x.2
    match (g.pools p).handReady with
    | some (sl :: l) =>
      if c < (g.pools p).sizes.length then
        some ((g.setCls p c (addSlab (g.cs p c) sl)).setPool p { g.pools p with lk := .held l .ready },
          h.setCl p c { h.cl p c with slabs := sl :: (h.cl p c).slabs })
      else none
    | _ => none
  | .addAlloc p c =>
    let g := x.1; let h := x.2
    match (g.pools p).handReady with
    | some (sl :: l) =>
      if c < (g.pools p).sizes.length then
        match (addSlab (g.cs p c) sl).ac.allocate with
        | some (ac, r) =>
          some ((g.setCls p c { addSlab (g.cs p c) sl with ac := ac }).setPool p { g.pools p with lk := .held l .ready },
            h.setCl p c { h.cl p c with slabs := sl :: (h.cl p c).slabs, live := r.toList ++ (h.cl p c).live })
        | none => none
      else none
    | _ => none
  | .giveBack p =>
    let g := x.1
    match (g.pools p).handReady with
    | some (sl :: l) =>
      some ((freeSlab g sl).setPool p { g.pools p with cur := (g.pools p).cur - 1, lk := .held l .ready }, x.2)
    | _ => none
  | .takeOff p =>
    let g := x.1; let h := x.2
    if p < g.np ∧ (g.pools p).lk = .idle then
      match (g.pools p).free.getLast? with
      | some sl => some ({ g.setPool p { g.pools p with free := (g.pools p).free.dropLast } with
          toks := .rel p sl .resize :: g.toks }, { h with off := upd h.off p (h.off p + 1) })
      | none => none
    else none
  | .release p sl m ok => if Tok.rel p sl m ∈ x.1.toks then releaseSlab x.1 x.2 p sl m ok else none
  | .advInc p =>
    let g := x.1
    if Tok.advd p ∈ g.toks then
      some ({ g.setPool p { g.pools p with adv := (g.pools p).adv + 1 } with toks := .dec p :: g.toks.erase (.advd p) }, x.2)
    else none
  | .decr p =>
    let g := x.1
    if Tok.dec p ∈ g.toks then
      some ({ g.setPool p { g.pools p with cur := (g.pools p).cur - 1 } with toks := g.toks.erase (.dec p) }, x.2)
    else none
  | .reclaim p =>
    if p < x.1.np then
      match reclaimSlab x.1 p with
      | (g, some sl) => some ({ g with toks := .recl p sl :: g.toks }, x.2)
      | (_, none) => none
    else none
  | .reclaimed p sl =>
    let g := x.1; let h := x.2
    if Tok.recl p sl ∈ g.toks ∧ (g.pools p).lk = .idle then
      some ({ g.setPool p { g.pools p with free := (g.pools p).free ++ [sl], adv := (g.pools p).adv - 1 } with
          toks := g.toks.erase (.recl p sl) },
        { h with low := upd h.low p (h.low p || decide ((g.pools p).adv - 1 < 0)) })
    else none
  | .create size sizes =>
    (createPool x.1 size sizes).map fun g => (g, { x.2 with peak := upd x.2.peak x.1.np size })
  | .grow p bytes =>
    (growPool x.1 p bytes).map fun g => (g, { x.2 with peak := upd x.2.peak p (max (x.2.peak p) (g.pools p).max) })
  | .shrink p bytes => (shrinkPool x.1 p bytes).map fun g => (g, x.2)
  | .resize a b bytes =>
    (resizePools x.1 a b bytes).map fun g => (g, { x.2 with peak := upd x.2.peak b (max (x.2.peak b) (g.pools b).max) })

/-- Histories of an allocator with `total` slabs (whose bytes fit in 64 bits). -/
inductive Reach : St → Prop
  | init (total) : total * KS < 2 ^ 64 → Reach (G.init total, Hist.init)
  | step (x o y) : Reach x → exec x o = some y → Reach y

end Verif.MemPool
