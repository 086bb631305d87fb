import Verif.AllocClass.Model
import Mathlib.Data.List.Perm.Basic
import Mathlib.Data.List.Nodup
/-
What a client of an allocation class knows, the legal histories, and the invariant that every legal history keeps.
-/
namespace Verif.AllocClass
open Verif

/-- What the outside knows of a class from the calls it made and their answers. -/
structure Client where
  /-- slabs given to the class and not taken back -/
  slabs : List Nat
  /-- allocations handed out and not freed -/
  live : List Addr
  /-- slabs for which a release returned a context that is neither completed nor aborted -/
  opens : List Nat
  /-- the slab of the startSlabRelease call that is running -/
  pruning : Option Nat
  /-- whether shouldAbortFn ever stopped a startSlabRelease -/
  aborted : Bool

/-- what the client learns from the first critical section of startSlabRelease: `o` is the slab that it got at once;
otherwise the release of `run` goes on. -/
def Client.afterStart (c : Client) (o run : Option Nat) : Client :=
  match o with
  | some sl => { c with slabs := c.slabs.erase sl }
  | none => { c with pruning := run }

/-- what the client learns from a later one; `ab`: shouldAbortFn said so -/
def Client.afterStep (c : Client) (ab : Bool) (o : Rel) : Client :=
  match o with
  | .none => { c with aborted := c.aborted || ab }
  | .released sl => { c with slabs := c.slabs.erase sl, pruning := none }
  | .context sl _ => { c with opens := sl :: c.opens, pruning := none }
  | .thrown _ => { c with pruning := none }

/-- One critical section of a legal client. -/
inductive Call : CS × Client → CS × Client → Prop
  /-- a slab that the SlabAllocator initialised for the pool is added -/
  | addSlab (s c sl) : sl ∉ c.slabs → sl < s.next → (s.hdr sl).pool = s.ac.pool → (s.hdr sl).marked = false →
      Call (s, c) (addSlab s sl, { c with slabs := sl :: c.slabs })
  /-- AllocationClass.cpp:177-183 addSlabAndAllocate -/
  | addAlloc (s c sl ac r) : sl ∉ c.slabs → sl < s.next → (s.hdr sl).pool = s.ac.pool → (s.hdr sl).marked = false →
      (Verif.AllocClass.addSlab s sl).ac.allocate = some (ac, r) →
      Call (s, c) ({ Verif.AllocClass.addSlab s sl with ac := ac },
        { c with slabs := sl :: c.slabs, live := r.toList ++ c.live })
  /-- allocate(), whatever the unlocked flag said -/
  | alloc (s c ac r) : s.ac.allocate = some (ac, r) →
      Call (s, c) ({ s with ac := ac }, { c with live := r.toList ++ c.live })
  | free (s c a s') : a ∈ c.live → free s a = .ok s' → Call (s, c) (s', { c with live := c.live.erase a })
  | relStart (s c hint r s' o) : relStart s hint r = .ok (s', o) →
      Call (s, c) (s', c.afterStart o (relSlab s hint r))
  | relStep (s c ab s' o) : relStep s ab = .ok (s', o) →
      Call (s, c) (s', c.afterStep ab o)
  | abort (s c sl s') : sl ∈ c.opens → abortRelease s sl = .ok s' →
      Call (s, c) (s', { c with opens := c.opens.erase sl })
  | complete (s c sl s') : sl ∈ c.opens → completeRelease s sl = .ok s' →
      Call (s, c) (s', { c with opens := c.opens.erase sl, slabs := c.slabs.erase sl })

/-- … or others at work. -/
inductive Step : CS × Client → CS × Client → Prop
  | call (x y) : Call x y → Step x y
  /-- others change the headers of slabs that are not of the class, but do not assign them to it -/
  | env (s c hdr next) : (∀ sl ∈ c.slabs, hdr sl = s.hdr sl) →
      (∀ sl, sl ∉ c.slabs → ¬ ((hdr sl).cls = s.ac.cls ∧ (hdr sl).pool = s.ac.pool)) → s.next ≤ next →
      Step (s, c) ({ s with hdr := hdr, next := next }, c)

/-- Legal histories of a class of allocations of `size` bytes. -/
inductive Reach (cls pool : Int) (size : Nat) : CS × Client → Prop
  | init (hdr next) : cls ≠ -1 → 0 < size → size ≤ KS → (∀ sl, ¬ ((hdr sl).cls = cls ∧ (hdr sl).pool = pool)) →
      Reach cls pool size (⟨AC.new cls pool size, hdr, next⟩, ⟨[], [], [], none, false⟩)
  | step (x y) : Reach cls pool size x → Step x y → Reach cls pool size y

/-! ### the invariant -/

/-- a position of the carving grid -/
def chunk (n : Nat) (a : Addr) : Prop := a.2 % n = 0 ∧ a.2 / n < KS / n
instance (n : Nat) (a : Addr) : Decidable (chunk n a) := inferInstanceAs (Decidable (_ ∧ _))

def pc (p : Option Prune) (a : Addr) : Nat :=
  match p with
  | none => 0
  | some p => p.freeAllocs.count a + p.inSlab.count a + p.notInSlab.count a

def unc (size off : Nat) (cur : Option Nat) (a : Addr) : Nat := if cur = some a.1 ∧ chunk size a ∧ off ≤ a.2 then 1 else 0

open Classical in
noncomputable def bit (size : Nat) (map : Nat → Option (List Bool)) (a : Addr) : Nat :=
  if chunk size a ∧ ∃ bits, map a.1 = some bits ∧ bits[a.2 / size]? = some true then 1 else 0

def own (size : Nat) (allocated : List Nat) (map : Nat → Option (List Bool)) (a : Addr) : Nat :=
  if chunk size a ∧ (a.1 ∈ allocated ∨ (map a.1).isSome) then 1 else 0

/-- what holds at the points of a running release -/
def phaseOK (size : Nat) (freed live : List Addr) (p : Prune) : Prop :=
  match p.phase with
  | .take => p.freeAllocs = [] ∧ p.inSlab = [] ∧ p.notInSlab = []
  | .loop => (∀ a ∈ p.inSlab, a.1 = p.slab) ∧ (∀ a ∈ p.notInSlab, a.1 ≠ p.slab) ∧ ∀ a ∈ freed, a.1 ≠ p.slab
  | .scan => p.inSlab = [] ∧ p.notInSlab = [] ∧ ∀ a ∈ freed, a.1 ≠ p.slab
  | .back => True
  | .aborted => p.freeAllocs = [] ∧ p.inSlab = [] ∧ p.notInSlab = []
  | .collect => p.freeAllocs = [] ∧ p.inSlab = [] ∧ p.notInSlab = [] ∧ ∀ a ∈ freed, a.1 ≠ p.slab
  | .finish act => p.freeAllocs = [] ∧ p.inSlab = [] ∧ p.notInSlab = [] ∧ (∀ a ∈ freed, a.1 ≠ p.slab) ∧
      (∀ a ∈ live, a.1 = p.slab → a ∈ act) ∧ act.Nodup ∧ ∀ a ∈ act, a.1 = p.slab ∧ chunk size a

structure Inv (cls pool : Int) (size : Nat) (s : CS) (c : Client) : Prop where
  hcls : s.ac.cls = cls
  hpool : s.ac.pool = pool
  hsize : s.ac.size = size
  size0 : 0 < size
  sizeKS : size ≤ KS
  nodup : (s.ac.freeSlabs ++ s.ac.allocated).Nodup
  slabsNd : c.slabs.Nodup
  slabs : ∀ sl, sl ∈ c.slabs ↔ sl ∈ s.ac.freeSlabs ∨ sl ∈ s.ac.allocated ∨ (s.ac.map sl).isSome
  excl : ∀ sl, (s.ac.map sl).isSome → sl ∉ s.ac.freeSlabs ∧ sl ∉ s.ac.allocated
  hdrs : ∀ sl ∈ c.slabs, sl < s.next ∧ (s.hdr sl).pool = pool ∧ (s.hdr sl).cls = cls ∧ (s.hdr sl).size = size ∧
    (s.hdr sl).marked = (s.ac.map sl).isSome
  clsNe : cls ≠ -1
  foreign : ∀ sl, sl ∉ c.slabs → ¬ ((s.hdr sl).cls = cls ∧ (s.hdr sl).pool = pool)
  bits : ∀ sl l, s.ac.map sl = some l → l.length = KS / size
  cur : ∀ sl, s.ac.cur = some sl → sl ∈ s.ac.allocated
  off : s.ac.off % size = 0
  cnt : ∀ a, c.live.count a + s.ac.freed.count a + pc s.ac.prune a + unc size s.ac.off s.ac.cur a + bit size s.ac.map a =
    own size s.ac.allocated s.ac.map a
  maps : ∀ sl, (s.ac.map sl).isSome ↔ sl ∈ c.opens ∨ c.pruning = some sl
  opensNd : c.opens.Nodup
  pruneNot : ∀ sl, c.pruning = some sl → sl ∉ c.opens
  pruning : c.pruning = s.ac.prune.map (·.slab)
  openFree : ∀ a, a.1 ∈ c.opens → s.ac.freed.count a = 0 ∧ pc s.ac.prune a = 0
  phase : ∀ p, s.ac.prune = some p → phaseOK size s.ac.freed c.live p
  backAb : ∀ p, s.ac.prune = some p → (p.phase = .back ∨ p.phase = .aborted) → c.aborted = true
  active : s.ac.active = c.opens.length
  can : c.aborted = false → s.ac.can = false → s.ac.freed = [] ∧ s.ac.freeSlabs = [] ∧ s.ac.canCarve = false

end Verif.AllocClass
