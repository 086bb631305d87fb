/-
ChainedHashTable (cachelib/allocator/ChainedHashTable.h): the index from keys to items in RAM, at the
level of single loads and stores, run by any number of threads.

What is simplified:
* Items are addresses (`P`); the key of an item does not change while an operation may look at it.  A
  null pointer is `none`; compress/unCompress of a pointer is the identity (property C13).
* The hasher is an arbitrary function.  Locks are reader/writer locks (common/Mutex.h RWBucketLocks):
  a thread may acquire one exactly when no other thread holds it in a conflicting mode.
* `handleMaker_` may throw where the code handles that, `predicate` may answer anything: both answers
  are parameters of the operation.  Reference counts are property C01.
* Debug checks (XDCHECK) are left out; `numKeys_` is an integer without wrap-around.
* preRemoveCb is taken to have no effect on the index.
-/
namespace Verif.HashTable

/-- address of an item. -/
abbrev P := Nat

/-- Configuration (ChainedHashTable.h:238-330, common/Mutex.h:276-279) and the key stored in each item. -/
structure Cfg (K : Type) where
  hash : K → Nat
  key : P → K
  bucketsPower : Nat
  locksPower : Nat

variable {K : Type}

/-- ChainedHashTable.h:914-919 getBucket, with numBucketsMask_ = numBuckets - 1 (856). -/
def Cfg.bucket (c : Cfg K) (k : K) : Nat := c.hash k &&& (2 ^ c.bucketsPower - 1)

/-- common/Mutex.h:316 getLock(hash). -/
def Cfg.lockOf (c : Cfg K) (b : Nat) : Nat := b &&& (2 ^ c.locksPower - 1)

/-- Operations of the container (ChainedHashTable.h:440-514) and the bucket scan used by iterators
(1335).  `thr`: the handle maker throws; `pred`: answer of the predicate. -/
inductive Op (K : Type) where
  | insert (node : P)
  | insertOrReplace (node : P) (thr : Bool)
  | replaceIf (old node : P) (pred : Bool)
  | remove (node : P)
  | removeIf (node : P) (pred thr : Bool)
  | find (k : K)
  | scan (b : Nat)

/-- What an operation returns: a flag, a handle (`none` is the empty handle), an exception, or the
items of a bucket. -/
inductive Res where
  | flag (b : Bool)
  | handle (h : Option P)
  | threw
  | items (l : List P)

/-- bucket an operation works on (1170, 1191, 1239, 1256, 1280, 1304, 1343). -/
def Cfg.opBucket (c : Cfg K) : Op K → Nat
  | .insert nd => c.bucket (c.key nd)
  | .insertOrReplace nd _ => c.bucket (c.key nd)
  | .replaceIf _ nd _ => c.bucket (c.key nd)
  | .remove nd => c.bucket (c.key nd)
  | .removeIf nd _ _ => c.bucket (c.key nd)
  | .find k => c.bucket k
  | .scan b => b

/-- lockExclusive or lockShared (1171, 1192, 1240, 1257, 1281 / 1305, 1343). -/
def Op.exclusive : Op K → Bool
  | .insert _ => true
  | .insertOrReplace _ _ => true
  | .replaceIf _ _ _ => true
  | .remove _ => true
  | .removeIf _ _ _ => true
  | .find _ => false
  | .scan _ => false

/-- the node an operation may add to the table. -/
def Op.newNode : Op K → Option P
  | .insert nd => some nd
  | .insertOrReplace nd _ => some nd
  | .replaceIf _ nd _ => some nd
  | _ => none

/-- Program points.  All but `idle` carry the operation. -/
inductive PC (K : Type) where
  | idle
  | pre (o : Op K)                                  -- called; insert and insertOrReplace test isAccessible
  | want (o : Op K)                                 -- waiting for the lock of the bucket
  | locked (o : Op K)                               -- lock held, isAccessible test and predicate
  | start (o : Op K)                                -- read the head of the bucket
  | walk (o : Op K) (prev cur : Option P)           -- search loop
  | scanw (o : Op K) (cur : Option P) (got : List P)
  | iHead (o : Op K)                                -- insert at the head: 932, 955
  | iLink (o : Op K) (head : Option P)              -- 933, 956
  | iNext (o : Op K) (head : Option P)              -- 934, 957
  | iMark (o : Op K)                                -- 1175, 1212
  | iCount (o : Op K)                               -- 1176, 1217
  | xLink (o : Op K) (prev : Option P) (c : P)      -- replace: 962-966
  | xNext (o : Op K) (c : P)                        -- 967
  | xDone (o : Op K) (c : P)                        -- handle maker 1201, then 1212; or 1244
  | xOld (o : Op K) (c : P)                         -- 1215
  | zMark (o : Op K)                                -- 1245
  | back (o : Op K) (old : P) (prev cur : Option P) -- 1204: search loop of the second replacement
  | bLink (o : Op K) (old : P) (prev : Option P) (c : P)
  | bNext (o : Op K) (old c : P)
  | uLink (o : Op K) (prev : Option P)              -- 980-988
  | uMark (o : Op K)                                -- 1266, 1291
  | uCount (o : Op K)                               -- 1268, 1292
  | fin (o : Op K) (r : Res)                        -- result known, lock held
  | ret (o : Op K) (r : Res)                        -- lock released

/-- operation of a thread. -/
def PC.op : PC K → Option (Op K)
  | .idle => none
  | .pre o => some o
  | .want o => some o
  | .locked o => some o
  | .start o => some o
  | .walk o _ _ => some o
  | .scanw o _ _ => some o
  | .iHead o => some o
  | .iLink o _ => some o
  | .iNext o _ => some o
  | .iMark o => some o
  | .iCount o => some o
  | .xLink o _ _ => some o
  | .xNext o _ => some o
  | .xDone o _ => some o
  | .xOld o _ => some o
  | .zMark o => some o
  | .back o _ _ _ => some o
  | .bLink o _ _ _ => some o
  | .bNext o _ _ => some o
  | .uLink o _ => some o
  | .uMark o => some o
  | .uCount o => some o
  | .fin o _ => some o
  | .ret o _ => some o

/-- the thread holds the lock of its bucket. -/
def PC.inLock : PC K → Bool
  | .idle => false
  | .pre _ => false
  | .want _ => false
  | .ret _ _ => false
  | _ => true

/-- Memory and threads: hashTable_ (193), the hook of every item (216-235), the accessible flag of every
item (Refcount.h, property C04), numKeys_ (834). -/
structure State (K : Type) (n : Nat) where
  heads : Nat → Option P
  next : P → Option P
  acc : P → Bool
  numKeys : Int
  pc : Fin n → PC K

variable {n : Nat}

/-- An empty table (ChainedHashTable.h:850-876). -/
def init (K : Type) (n : Nat) : State K n :=
  ⟨fun _ => none, fun _ => none, fun _ => false, 0, fun _ => .idle⟩

/-- update of a function at a point. -/
def upd {β : Type} (f : Nat → β) (a : Nat) (v : β) : Nat → β := fun x => if x = a then v else f x

/-- write of one thread's program point. -/
def State.setPc (s : State K n) (t : Fin n) (p : PC K) : State K n :=
  { s with pc := fun x => if x = t then p else s.pc x }

/-- store into the link that precedes: `prev->next` or the bucket head (962-966, 981-988). -/
def State.setLink (s : State K n) (b : Nat) (prev : Option P) (v : Option P) : State K n :=
  match prev with
  | some q => { s with next := upd s.next q v }
  | none => { s with heads := upd s.heads b v }

/-- the key searched for in the loops at 948, 996, 1010. -/
def Cfg.opKey (c : Cfg K) : Op K → Option K
  | .insert nd => some (c.key nd)
  | .insertOrReplace nd _ => some (c.key nd)
  | .replaceIf _ nd _ => some (c.key nd)
  | .remove nd => some (c.key nd)
  | .removeIf nd _ _ => some (c.key nd)
  | .find k => some k
  | .scan _ => none

/-- `conflict p b x`: a thread at `p` holds the lock of bucket `b` in a mode that excludes acquiring it
exclusively (`x`) or shared. -/
def Cfg.conflict (c : Cfg K) (p : PC K) (b : Nat) (x : Bool) : Prop :=
  ∃ o, p.op = some o ∧ p.inLock = true ∧ c.lockOf (c.opBucket o) = c.lockOf b ∧
    (x = true ∨ o.exclusive = true)

/-- Labels: invocation, response, internal. -/
inductive Label (K : Type) (n : Nat) where
  | call (t : Fin n) (o : Op K)
  | ret (t : Fin n) (r : Res)
  | tau

/-- What the caller must respect: a node is not being added by two operations at once; replaceIf gets
two nodes with one key, the new one not in the table (ChainedHashTable.h:455-475); a scan names a
bucket of the table. -/
def Legal (c : Cfg K) (s : State K n) : Op K → Prop
  | .insert nd => ∀ t o, (s.pc t).op = some o → o.newNode ≠ some nd
  | .insertOrReplace nd _ => ∀ t o, (s.pc t).op = some o → o.newNode ≠ some nd
  | .replaceIf old nd _ => (∀ t o, (s.pc t).op = some o → o.newNode ≠ some nd) ∧
      c.key old = c.key nd ∧ s.acc nd = false
  | .scan b => b < 2 ^ c.bucketsPower
  | _ => True

/-- the result when insert / insertOrReplace find the node already accessible (1165-1168, 1187-1189). -/
def resPre : Op K → Option (P × Res)
  | .insert nd => some (nd, .flag false)
  | .insertOrReplace nd _ => some (nd, .handle none)
  | _ => none

/-- the node whose accessibility remove, removeIf and replaceIf test under the lock (1242, 1260, 1284)
and the result if the test or the predicate fails. -/
def resLocked : Op K → Option (P × Res)
  | .replaceIf old _ _ => some (old, .flag false)
  | .remove nd => some (nd, .flag false)
  | .removeIf nd _ _ => some (nd, .handle none)
  | _ => none

/-- answer of the predicate (1242, 1284); remove has none. -/
def predOf : Op K → Bool
  | .replaceIf _ _ p => p
  | .removeIf _ p _ => p
  | _ => true

/-- removeIf's handle maker throws (1288). -/
def throwsEarly : Op K → Bool
  | .removeIf _ _ thr => thr
  | _ => false

/-- Steps of the system: one load, store, test or lock operation each (two loads/stores of memory
covered by the exclusive lock at 967, 982, 987). -/
inductive Step (c : Cfg K) : State K n → Label K n → State K n → Prop
  | call (s : State K n) (t : Fin n) (o : Op K) (hp : s.pc t = .idle) (hl : Legal c s o) :
      Step c s (.call t o) (s.setPc t (.pre o))
  /-- 1165, 1187: already accessible. -/
  | preHit (s : State K n) (t : Fin n) (o : Op K) (nd : P) (r : Res) (hp : s.pc t = .pre o)
      (hr : resPre o = some (nd, r)) (ha : s.acc nd = true) : Step c s .tau (s.setPc t (.ret o r))
  | preGo (s : State K n) (t : Fin n) (o : Op K) (nd : P) (r : Res) (hp : s.pc t = .pre o)
      (hr : resPre o = some (nd, r)) (ha : s.acc nd = false) : Step c s .tau (s.setPc t (.want o))
  | preSkip (s : State K n) (t : Fin n) (o : Op K) (hp : s.pc t = .pre o) (hr : resPre o = none) :
      Step c s .tau (s.setPc t (.want o))
  | lock (s : State K n) (t : Fin n) (o : Op K) (hp : s.pc t = .want o)
      (hf : ∀ x, ¬ c.conflict (s.pc x) (c.opBucket o) o.exclusive) :
      Step c s .tau (s.setPc t (.locked o))
  /-- 1242, 1260, 1284: test under the lock fails, or the predicate does. -/
  | refuse (s : State K n) (t : Fin n) (o : Op K) (nd : P) (r : Res) (hp : s.pc t = .locked o)
      (hr : resLocked o = some (nd, r)) (ha : s.acc nd = false ∨ predOf o = false) :
      Step c s .tau (s.setPc t (.fin o r))
  /-- 1288: handle maker throws before any change. -/
  | early (s : State K n) (t : Fin n) (o : Op K) (nd : P) (r : Res) (hp : s.pc t = .locked o)
      (hr : resLocked o = some (nd, r)) (ha : s.acc nd = true) (hq : predOf o = true)
      (ht : throwsEarly o = true) : Step c s .tau (s.setPc t (.fin o .threw))
  | accept (s : State K n) (t : Fin n) (o : Op K) (nd : P) (r : Res) (hp : s.pc t = .locked o)
      (hr : resLocked o = some (nd, r)) (ha : s.acc nd = true) (hq : predOf o = true)
      (ht : throwsEarly o = false) : Step c s .tau (s.setPc t (.start o))
  | noTest (s : State K n) (t : Fin n) (o : Op K) (hp : s.pc t = .locked o) (hr : resLocked o = none) :
      Step c s .tau (s.setPc t (.start o))
  /-- 944, 995, 1006: read the head of the bucket. -/
  | head (s : State K n) (t : Fin n) (o : Op K) (k : K) (hp : s.pc t = .start o)
      (hk : c.opKey o = some k) :
      Step c s .tau (s.setPc t (.walk o none (s.heads (c.opBucket o))))
  /-- 948-951, 996-998, 1010-1013. -/
  | walk (s : State K n) (t : Fin n) (o : Op K) (k : K) (prev : Option P) (x : P)
      (hp : s.pc t = .walk o prev (some x)) (hk : c.opKey o = some k) (hx : c.key x ≠ k) :
      Step c s .tau (s.setPc t (.walk o (some x) (s.next x)))
  /-- 1306: handle of what the loop found. -/
  | found (s : State K n) (t : Fin n) (k : K) (prev cur : Option P)
      (hp : s.pc t = .walk (.find k) prev cur) (hx : ∀ x, cur = some x → c.key x = k) :
      Step c s .tau (s.setPc t (.fin (.find k) (.handle cur)))
  /-- 926-929. -/
  | dup (s : State K n) (t : Fin n) (nd x : P) (prev : Option P)
      (hp : s.pc t = .walk (.insert nd) prev (some x)) (hx : c.key x = c.key nd) :
      Step c s .tau (s.setPc t (.fin (.insert nd) (.flag false)))
  /-- 931, 954: key not there, insert at the head. -/
  | absent (s : State K n) (t : Fin n) (o : Op K) (nd : P) (prev : Option P)
      (hp : s.pc t = .walk o prev none) (ho : o.newNode = some nd) :
      Step c s .tau (s.setPc t (.iHead o))
  | iHead (s : State K n) (t : Fin n) (o : Op K) (hp : s.pc t = .iHead o) :
      Step c s .tau (s.setPc t (.iLink o (s.heads (c.opBucket o))))
  | iLink (s : State K n) (t : Fin n) (o : Op K) (nd : P) (h : Option P) (hp : s.pc t = .iLink o h)
      (ho : o.newNode = some nd) :
      Step c s .tau { s.setPc t (.iNext o h) with heads := upd s.heads (c.opBucket o) (some nd) }
  | iNext (s : State K n) (t : Fin n) (o : Op K) (nd : P) (h : Option P) (hp : s.pc t = .iNext o h)
      (ho : o.newNode = some nd) :
      Step c s .tau { s.setPc t (.iMark o) with next := upd s.next nd h }
  /-- 1175, 1212. -/
  | iMark (s : State K n) (t : Fin n) (o : Op K) (nd : P) (r : Res) (hp : s.pc t = .iMark o)
      (ho : resPre o = some (nd, r)) :
      Step c s .tau { s.setPc t (.iCount o) with acc := upd s.acc nd true }
  | iCountIns (s : State K n) (t : Fin n) (nd : P) (hp : s.pc t = .iCount (.insert nd)) :
      Step c s .tau { s.setPc t (.fin (.insert nd) (.flag true)) with numKeys := s.numKeys + 1 }
  | iCountRepl (s : State K n) (t : Fin n) (nd : P) (thr : Bool)
      (hp : s.pc t = .iCount (.insertOrReplace nd thr)) :
      Step c s .tau { s.setPc t (.fin (.insertOrReplace nd thr) (.handle none)) with
        numKeys := s.numKeys + 1 }
  /-- 962: the key is there. -/
  | present (s : State K n) (t : Fin n) (o : Op K) (nd x : P) (prev : Option P)
      (hp : s.pc t = .walk o prev (some x)) (ho : o.newNode = some nd) (hi : o ≠ .insert nd)
      (hx : c.key x = c.key nd) : Step c s .tau (s.setPc t (.xLink o prev x))
  | xLink (s : State K n) (t : Fin n) (o : Op K) (nd x : P) (prev : Option P)
      (hp : s.pc t = .xLink o prev x) (ho : o.newNode = some nd) :
      Step c s .tau ((s.setLink (c.opBucket o) prev (some nd)).setPc t (.xNext o x))
  | xNext (s : State K n) (t : Fin n) (o : Op K) (nd x : P) (hp : s.pc t = .xNext o x)
      (ho : o.newNode = some nd) :
      Step c s .tau { s.setPc t (.xDone o x) with next := upd s.next nd (s.next x) }
  /-- 1212: insertOrReplace marks the new node. -/
  | xMark (s : State K n) (t : Fin n) (nd x : P) (hp : s.pc t = .xDone (.insertOrReplace nd false) x) :
      Step c s .tau { s.setPc t (.xOld (.insertOrReplace nd false) x) with acc := upd s.acc nd true }
  /-- 1215. -/
  | xOld (s : State K n) (t : Fin n) (o : Op K) (x : P) (hp : s.pc t = .xOld o x) :
      Step c s .tau { s.setPc t (.fin o (.handle (some x))) with acc := upd s.acc x false }
  /-- 1244: replaceIf unmarks the old node. -/
  | zOld (s : State K n) (t : Fin n) (old nd x : P) (p : Bool)
      (hp : s.pc t = .xDone (.replaceIf old nd p) x) :
      Step c s .tau { s.setPc t (.zMark (.replaceIf old nd p)) with acc := upd s.acc old false }
  /-- 1245. -/
  | zMark (s : State K n) (t : Fin n) (o : Op K) (nd : P) (hp : s.pc t = .zMark o)
      (ho : o.newNode = some nd) :
      Step c s .tau { s.setPc t (.fin o (.flag true)) with acc := upd s.acc nd true }
  /-- 1202-1204: the handle maker threw, the old node is put back. -/
  | backStart (s : State K n) (t : Fin n) (nd x : P)
      (hp : s.pc t = .xDone (.insertOrReplace nd true) x) :
      Step c s .tau (s.setPc t (.back (.insertOrReplace nd true) x none
        (s.heads (c.opBucket (.insertOrReplace nd true : Op K)))))
  | backWalk (s : State K n) (t : Fin n) (o : Op K) (old x : P) (prev : Option P)
      (hp : s.pc t = .back o old prev (some x)) (hx : c.key x ≠ c.key old) :
      Step c s .tau (s.setPc t (.back o old (some x) (s.next x)))
  | backFound (s : State K n) (t : Fin n) (o : Op K) (old x : P) (prev : Option P)
      (hp : s.pc t = .back o old prev (some x)) (hx : c.key x = c.key old) :
      Step c s .tau (s.setPc t (.bLink o old prev x))
  | bLink (s : State K n) (t : Fin n) (o : Op K) (old x : P) (prev : Option P)
      (hp : s.pc t = .bLink o old prev x) :
      Step c s .tau ((s.setLink (c.opBucket o) prev (some old)).setPc t (.bNext o old x))
  | bNext (s : State K n) (t : Fin n) (o : Op K) (old x : P) (hp : s.pc t = .bNext o old x) :
      Step c s .tau { s.setPc t (.fin o .threw) with next := upd s.next old (s.next x) }
  /-- 1010-1016: the loop of findPrevInBucket ends. -/
  | prevFound (s : State K n) (t : Fin n) (o : Op K) (nd : P) (r : Res) (prev cur : Option P)
      (hp : s.pc t = .walk o prev cur) (hr : resLocked o = some (nd, r)) (ho : o.newNode = none)
      (hx : ∀ x, cur = some x → c.key x = c.key nd) : Step c s .tau (s.setPc t (.uLink o prev))
  /-- 981-988. -/
  | uLink (s : State K n) (t : Fin n) (o : Op K) (nd : P) (r : Res) (prev : Option P)
      (hp : s.pc t = .uLink o prev) (hr : resLocked o = some (nd, r)) :
      Step c s .tau ((s.setLink (c.opBucket o) prev (s.next nd)).setPc t (.uMark o))
  /-- 1266, 1291. -/
  | uMark (s : State K n) (t : Fin n) (o : Op K) (nd : P) (r : Res) (hp : s.pc t = .uMark o)
      (hr : resLocked o = some (nd, r)) :
      Step c s .tau { s.setPc t (.uCount o) with acc := upd s.acc nd false }
  | uCountRem (s : State K n) (t : Fin n) (nd : P) (hp : s.pc t = .uCount (.remove nd)) :
      Step c s .tau { s.setPc t (.fin (.remove nd) (.flag true)) with numKeys := s.numKeys - 1 }
  | uCountIf (s : State K n) (t : Fin n) (nd : P) (p thr : Bool)
      (hp : s.pc t = .uCount (.removeIf nd p thr)) :
      Step c s .tau { s.setPc t (.fin (.removeIf nd p thr) (.handle (some nd))) with
        numKeys := s.numKeys - 1 }
  /-- 1024-1029: forEachBucketElem. -/
  | scanHead (s : State K n) (t : Fin n) (b : Nat) (hp : s.pc t = .start (.scan b)) :
      Step c s .tau (s.setPc t (.scanw (.scan b) (s.heads b) []))
  | scanNext (s : State K n) (t : Fin n) (o : Op K) (x : P) (got : List P)
      (hp : s.pc t = .scanw o (some x) got) :
      Step c s .tau (s.setPc t (.scanw o (s.next x) (got ++ [x])))
  | scanEnd (s : State K n) (t : Fin n) (o : Op K) (got : List P) (hp : s.pc t = .scanw o none got) :
      Step c s .tau (s.setPc t (.fin o (.items got)))
  | unlock (s : State K n) (t : Fin n) (o : Op K) (r : Res) (hp : s.pc t = .fin o r) :
      Step c s .tau (s.setPc t (.ret o r))
  | ret (s : State K n) (t : Fin n) (o : Op K) (r : Res) (hp : s.pc t = .ret o r) :
      Step c s (.ret t r) (s.setPc t .idle)

/-- add a label to a trace; internal steps are not observable. -/
def observe (tr : List (Label K n)) : Label K n → List (Label K n)
  | .tau => tr
  | l => tr ++ [l]

/-- Executions from the empty table with their observable trace. -/
inductive Exec (c : Cfg K) : List (Label K n) → State K n → Prop
  | init : Exec c [] (init K n)
  | step {tr : List (Label K n)} {s s' : State K n} {l : Label K n} :
      Exec c tr s → Step c s l s' → Exec c (observe tr l) s'

end Verif.HashTable
