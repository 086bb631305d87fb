/-
Model of cachelib/allocator/nvmcache/TombStones.h (class TombStones, lines 36-123).

What is simplified:
* `folly::F14NodeMap<std::string, uint64_t>` is a function from keys to an optional node; a node has
  an identity (`id`, a fresh number per emplaced node) because `Guard::key_` is a `StringPiece` into
  the node (line 47: `Guard(it->first, *this)`), and a node erased from the map is freed.
* every method body runs under `mutex_` and is one atomic step; guard objects are owned by one
  thread at a time (they are neither copied nor shared), so any execution of any number of threads
  is a sequence of these steps on the storage slots the guards live in.
* an exception leaving `~Guard` (implicitly noexcept) terminates the program: outcome `none`.
-/
namespace Verif.TombStones

/-- Keys are byte strings (folly::StringPiece, TombStones.h:43). -/
abbrev Key := List UInt8

/-- One element of `keys_` (TombStones.h:122): identity of the node and the `uint64_t` count. -/
structure Node where
  id : Nat
  count : Nat
deriving DecidableEq, Repr

/-- A valid `Guard` object (TombStones.h:96-100): `key_` is a view into node `node` whose text is
`key`; `tombstones_` is non-null.  An empty guard (or raw storage) is `none` in the slot list. -/
structure Guard where
  node : Nat
  key : Key
deriving DecidableEq, Repr

/-- The tombstone map (TombStones.h:122) together with all storage slots guards can live in. -/
structure State where
  keys : Key → Option Node
  nextId : Nat
  slots : List (Option Guard)

/-- Empty tombstones (default construction) with `n` guard slots (TombStones.h:36). -/
def init (n : Nat) : State := ⟨fun _ => none, 0, List.replicate n none⟩

/-- pointwise update of the map (F14NodeMap element write; TombStones.h:45-46,115-116). -/
def upd (m : Key → Option Node) (k : Key) (v : Option Node) : Key → Option Node :=
  fun x => if x = k then v else m x

/-- TombStones.h:43-48 `add`: try_emplace(key, 0), ++count (64-bit), guard pointing to the node.
The guard is constructed in slot `d`. -/
def add (s : State) (d : Nat) (k : Key) : State :=
  match s.keys k with
  | none =>
    { keys := upd s.keys k (some ⟨s.nextId, (0 + 1) % 2 ^ 64⟩), nextId := s.nextId + 1,
      slots := s.slots.set d (some ⟨s.nextId, k⟩) }
  | some nd =>
    { s with keys := upd s.keys k (some ⟨nd.id, (nd.count + 1) % 2 ^ 64⟩),
             slots := s.slots.set d (some ⟨nd.id, k⟩) }

/-- TombStones.h:51-54 `isPresent`. -/
def isPresent (s : State) (k : Key) : Bool := (s.keys k).isSome

/-- TombStones.h:105-118 `remove`: throw if absent or count 0, otherwise decrement and erase at 0. -/
def remove (m : Key → Option Node) (k : Key) : Option (Key → Option Node) :=
  match m k with
  | none => none
  | some nd =>
    if nd.count = 0 then none
    else if nd.count - 1 = 0 then some (upd m k none)
    else some (upd m k (some ⟨nd.id, nd.count - 1⟩))

/-- The guard in slot `d`, if it is valid (`explicit operator bool`, TombStones.h:88). -/
def guardAt (s : State) (d : Nat) : Option Guard := (s.slots[d]?).getD none

/-- TombStones.h:62-67 `~Guard`: remove the key if the guard is valid, then null the pointer. -/
def destroy (s : State) (d : Nat) : Option State :=
  match guardAt s d with
  | none => some s
  | some g =>
    match remove s.keys g.key with
    | none => none
    | some m => some { s with keys := m, slots := s.slots.set d none }

/-- TombStones.h:74-77 move construction of slot `d` from slot `src`. -/
def moveConstruct (s : State) (d src : Nat) : State :=
  { s with slots := (s.slots.set d (guardAt s src)).set src none }

/-- TombStones.h:78-84 move assignment: no-op on self-assignment, else destroy and move. -/
def moveAssign (s : State) (d src : Nat) : Option State :=
  if d ≠ src then
    match destroy s d with
    | none => none
    | some s' => some (moveConstruct s' d src)
  else some s

/-- The operations a client can perform on guards (public API, TombStones.h:43-84). -/
inductive Op where
  | add (d : Nat) (k : Key)
  | destroy (d : Nat)
  | moveConstruct (d src : Nat)
  | moveAssign (d src : Nat)

/-- C++ object-lifetime rules: an object is constructed only in storage that holds no live guard,
and every slot named exists (TombStones.h:47,74). -/
def Op.legal (s : State) : Op → Prop
  | .add d _ => d < s.slots.length ∧ guardAt s d = none
  | .destroy d => d < s.slots.length
  | .moveConstruct d src => d < s.slots.length ∧ src < s.slots.length ∧ d ≠ src ∧ guardAt s d = none
  | .moveAssign d src => d < s.slots.length ∧ src < s.slots.length

/-- Execution of one operation (TombStones.h:43-118); `none` means std::terminate. -/
def Op.exec (s : State) : Op → Option State
  | .add d k => some (TombStones.add s d k)
  | .destroy d => TombStones.destroy s d
  | .moveConstruct d src => some (TombStones.moveConstruct s d src)
  | .moveAssign d src => TombStones.moveAssign s d src

end Verif.TombStones
