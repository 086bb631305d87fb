/-
Model of starting and stopping a cache on shared memory: CacheAllocator's SharedMemNew / SharedMemAttach constructors and
shutDown (allocator/CacheAllocator.h), ShmManager (shm/ShmManager.{h,cpp}), NvmCacheState (allocator/NvmCacheState.cpp), and what
Driver::persist / recover (navy/driver/Driver.cpp) and the setup (allocator/nvmcache/NavySetup.cpp:478-489) do with the device.
Processes run one after the other or at the same time, in small steps; between any two steps a process may crash, an exception
may be thrown, and the environment may act.

What is simplified:
* The content of a segment, and that of the NVM cache (device and engine state), is a number that every write may change.  What
  the info segment says is the contents of the other segments at the time of saving (that the saved objects give back the same
  state is C45).  Restoring only reads the segments.
* The two segments of FixedSizeIndex are one, and are the only segments of the NVM cache.  Other segments (AccessTimeMap, names
  hashed the old way) are left out.
* A file is written whole or torn; what is torn does not deserialize.  Files that were not synced may be empty after a reboot,
  but do not go back to an older content.  A reboot removes the segments.
* The cache directory exists.  Processes without shared memory (InitMemType::kNone) are left out, and so is a metadata file that is
  deleted while a process holds its lock and made again by another one.
* Device metadata is always written when the NVM cache is shut down (Driver.cpp:264-271 does not report when it could not be).
-/
namespace Verif.WarmRestart

/-- Names of segments: detail::kShmInfoName, kShmCacheName, kShmHashTableName, kShmChainedItemHashTableName
(CacheDetails.h:29-38), FixedSizeIndex.h:115-117. -/
inductive Name | info | cache | ht | cht | idx
deriving DecidableEq, Repr

/-- Contents of a segment: that of a data segment, or what was saved (CacheAllocator.h:6031-6042), or a part of it. -/
inductive Seg | data (v : Nat) | info (c h t : Nat) | torn
deriving DecidableEq, Repr

/-- ShmManager's metadata file (ShmManager.cpp:151-192). -/
inductive Meta | absent | empty | torn | names (posix : Bool) (l : List Name)
deriving DecidableEq, Repr

/-- NvmCacheState's file (NvmCacheState.cpp:158-167): `fmt` stands for format version, encryption and truncation. -/
inductive NvmFile | absent | empty | torn | safe (fmt : Nat)
deriving DecidableEq, Repr

/-- Configuration of a process. -/
structure Cfg where
  attach : Bool      -- SharedMemAttach, otherwise SharedMemNew
  posix : Bool       -- isUsingPosixShm
  nvm : Bool         -- nvmConfig
  fmt : Nat          -- nvm format
  idx : Bool         -- index in shared memory (FixedSizeIndex)
  dropOnNew : Bool   -- dropNvmCacheOnShmNew
deriving DecidableEq, Repr

/-- Where a process is. -/
inductive PC
  | read | lock | trunc                         -- ShmManager::ShmManager
  | attInfo | attCache | attHt | attCht         -- SharedMemAttach
  | mkCache | mkHt | mkCht                      -- SharedMemNew
  | nvmRead | nvmTrunc                          -- NvmCacheState::NvmCacheState
  | nvmInit | nvmClear | workers | rmInfo       -- initCommon, and the end of the constructor
  | run
  | sdNvm | sdMark | sdMark2                    -- saveNvmCache
  | sdInfo | sdFill                             -- saveRamCache
  | half                                        -- shutDown threw an exception
  | sdMeta | sdMeta2 | sdUnlock | sdClean       -- ShmManager::shutDown
deriving DecidableEq, Repr

/-- A process. -/
structure Proc where
  cfg : Cfg
  pc : PC := .read
  names : List Name := []                       -- nameToKey_
  att : List Name := []                         -- segments_
  dropping : Bool := false                      -- dropSegments
  snap : Nat × Nat × Nat := (0, 0, 0)           -- deserialized info
  seen : Nat × Nat × Nat := (0, 0, 0)           -- contents of the segments when they were attached
  fresh : Bool := true                          -- shouldStartFresh
  ready : Bool := true                          -- the engines have memory for their index
deriving DecidableEq, Repr

/-- What happens, for the specification.  Processes are numbered. -/
inductive Ev
  /-- The process gives the segment this content (also when it creates it). -/
  | wrote (p : Nat) (n : Name) (v : Nat)
  /-- The process gives the NVM cache this content. -/
  | wroteNvm (p : Nat) (v : Nat)
  /-- ShmManager::shutDown returned kSuccess; contents of cache, ht, cht. -/
  | clean (p : Nat) (s : Nat × Nat × Nat)
  /-- The NVM cache was marked as safely shut down; contents of the NVM cache and of its index segment. -/
  | nvmSafe (p : Nat) (d : Nat) (i : Option Nat)
  /-- All segments attached: the contents that were saved, and the contents found. -/
  | attached (p : Nat) (saved found : Nat × Nat × Nat)
  /-- The NVM cache was recovered: the contents persisted, and those found. -/
  | nvmRecovered (p : Nat) (saved found : Nat × Option Nat)
  /-- The process begins, or is over. -/
  | start (p : Nat) (c : Cfg)
  | over (p : Nat)
  /-- Something else in the world. -/
  | env
deriving DecidableEq, Repr

/-- What outlives processes, and the processes. -/
structure World where
  md : Meta := .absent
  drop : Bool := false                          -- "ColdRoll"
  ice : Bool := false                           -- "IceRoll"
  segs : Name → Option Seg := fun _ => none
  nvmFile : NvmFile := .absent
  dev : Nat := 0                                -- content of the NVM cache
  navy : Option (Nat × Option Nat) := none      -- metadata on the device, and the content it describes
  lock : Option Nat := none
  proc : Nat → Option Proc := fun _ => none
  next : Nat := 0
  log : List Ev := []                           -- newest first

def World.setProc (w : World) (p : Nat) (x : Option Proc) : World := { w with proc := fun q => if q = p then x else w.proc q }
def World.setSeg (w : World) (n : Name) (x : Option Seg) : World := { w with segs := fun m => if m = n then x else w.segs m }
def World.say (w : World) (e : Ev) : World := { w with log := e :: w.log }

/-- The process goes on with `x`. -/
def World.put (w : World) (p : Nat) (x : Proc) : World := w.setProc p (some x)

/-- The process is over; the kernel releases its lock. -/
def World.gone (w : World) (p : Nat) : World :=
  { w.setProc p none with lock := if w.lock = some p then none else w.lock, log := .over p :: w.log }

/-- ShmManager.cpp:272-281 removeAllSegments. -/
def World.removeAll (w : World) (l : List Name) : World := { w with segs := fun n => if n ∈ l then none else w.segs n }

/-- An exception in the constructor of ShmManager (its destructor does not run; SCOPE_EXIT, 76-86, does). -/
def World.refused (w : World) (p : Nat) (x : Proc) : World := ({ w with drop := if x.dropping then false else w.drop } : World).gone p

/-- An exception after ShmManager was made, or the end of the process without shutDown: ShmManager.h:61-66. -/
def World.unwind (w : World) (p : Nat) (x : Proc) : World := (w.removeAll x.names).gone p

/-- ShmManager.cpp:399-428 removeShm. -/
def Proc.afterRemove (x : Proc) (w : World) (n : Name) : Proc :=
  if n ∈ x.att ∨ w.segs n ≠ none then { x with names := x.names.filter (· ≠ n), att := x.att.filter (· ≠ n) } else x

/-- ShmManager.cpp:300-341 createShm: names and segments of the manager. -/
def Proc.afterCreate (x : Proc) (w : World) (n : Name) : Proc :=
  { x.afterRemove w n with names := n :: (x.afterRemove w n).names, att := n :: (x.afterRemove w n).att }

/-- Contents of a data segment. -/
def World.val (w : World) (n : Name) : Nat := match w.segs n with | some (.data v) => v | _ => 0

/-- createShm of a data segment with content `v`, after which the process is at `pc`. -/
def World.make (w : World) (p : Nat) (x : Proc) (n : Name) (v : Nat) (pc : PC) : World :=
  ((w.setSeg n (some (.data v))).put p { x.afterCreate w n with pc := pc }).say (.wrote p n v)

/-- attachShm (ShmManager.cpp:343-397) of a data segment with content `v` and the check of what is restored (`ok`). -/
def World.canAttach (w : World) (x : Proc) (n : Name) : Option Nat :=
  if n ∈ x.names then (match w.segs n with | some (.data v) => some v | _ => none) else none

/-- Driver::reset (Driver.cpp:253-262) with the new content `v`; FixedSizeIndex.cpp:213-267 makes its segment. -/
def World.resetNvm (w : World) (p : Nat) (x : Proc) (v : Nat) : World :=
  let w := ({ w with dev := v } : World).say (.wroteNvm p v)
  if x.cfg.idx then w.make p { x with ready := true } .idx v .nvmClear else w.put p { x with pc := .nvmClear, ready := true }

/-- NavySetup.cpp:481-489 with Driver.cpp:273-304: reset, or recover (`ok`: what was persisted is accepted). -/
def World.initNvm (w : World) (p : Nat) (x : Proc) (ok : Bool) (v : Nat) : World :=
  if x.fresh ∨ (x.cfg.dropOnNew ∧ ¬ x.cfg.attach) then w.resetNvm p x v
  else
    match w.navy with
    | none =>
      -- Driver.cpp:278-280: no metadata, no reset
      (({ w with dev := v } : World).put p { x with pc := .nvmClear, ready := !x.cfg.idx }).say (.wroteNvm p v)
    | some (d, i) =>
      if ok = false then w.resetNvm p x v
      else if x.cfg.idx then
        match i, w.canAttach x .idx with
        | some j, some u =>
          (({ w with navy := none } : World).put p { x with pc := .nvmClear, att := .idx :: x.att }).say
            (.nvmRecovered p (d, some j) (w.dev, some u))
        | _, _ => w.resetNvm p x v
      else
        match i with
        | some _ => w.resetNvm p x v
        | none => (({ w with navy := none } : World).put p { x with pc := .nvmClear }).say (.nvmRecovered p (d, none) (w.dev, none))

/-- The next step of a process.  `ok` = false: what is tested or done here fails.  `v`: content of what is created. -/
def World.go (w : World) (p : Nat) (x : Proc) (ok : Bool) (v : Nat) : World :=
  match x.pc with
  -- ShmManager.cpp:73-104
  | .read =>
    match w.md with
    | .absent =>
      if w.lock = none then
        ({ w with md := .empty, lock := some p, drop := false } : World).put p
          { x with names := [], pc := if x.cfg.attach then .attInfo else .mkCache }
      else ({ w with md := .empty } : World).refused p { x with dropping := w.drop }
    | .empty => w.put p { x with names := [], dropping := w.drop, pc := .lock }
    | .torn =>
      if w.drop then w.put p { x with names := [], dropping := true, pc := .lock } else w.refused p x
    | .names posix l =>
      if w.drop then w.put p { x with names := [], dropping := true, pc := .lock }
      else if posix ≠ x.cfg.posix then w.refused p x
      else w.put p { x with names := l, pc := .lock }
  -- ShmManager.cpp:107, ShmManager.h:190-195
  | .lock => if w.lock = none then ({ w with lock := some p } : World).put p { x with pc := .trunc } else w.refused p x
  -- ShmManager.cpp:111, 76-86
  | .trunc =>
    ({ w with md := .empty, drop := if x.dropping then false else w.drop } : World).put p
      { x with pc := if x.cfg.attach then .attInfo else .mkCache }
  -- CacheAllocator.h:3091-3096, 2776-2778
  | .attInfo =>
    if .info ∈ x.names ∧ ok then
      match w.segs .info with
      | some (.info c h t) => w.put p { x with snap := (c, h, t), att := .info :: x.att, pc := .attCache }
      | _ => w.unwind p x
    else w.unwind p x
  -- CacheAllocator.h:2876-2885, 2782-2786
  | .attCache =>
    match ok, w.canAttach x .cache with
    | true, some u => w.put p { x with seen := (u, 0, 0), att := .cache :: x.att, pc := .attHt }
    | _, _ => w.unwind p x
  -- CacheAllocator.h:2787-2788, 3074-3081
  | .attHt =>
    match ok, w.canAttach x .ht with
    | true, some u => w.put p { x with seen := (x.seen.1, u, 0), att := .ht :: x.att, pc := .attCht }
    | _, _ => w.unwind p x
  -- CacheAllocator.h:2789-2792
  | .attCht =>
    match ok, w.canAttach x .cht with
    | true, some u =>
      (w.put p { x with seen := (x.seen.1, x.seen.2.1, u), att := .cht :: x.att, pc := .nvmRead }).say
        (.attached p x.snap (x.seen.1, x.seen.2.1, u))
    | _, _ => w.unwind p x
  -- CacheAllocator.h:2863-2872, 3062-3073
  | .mkCache => w.make p x .cache v .mkHt
  | .mkHt => w.make p x .ht v .mkCht
  | .mkCht => w.make p x .cht v .nvmRead
  -- NvmCacheState.cpp:101-141
  | .nvmRead => w.put p { x with fresh := w.ice || decide (w.nvmFile ≠ .safe x.cfg.fmt), pc := .nvmTrunc }
  -- NvmCacheState.cpp:96-97
  | .nvmTrunc => ({ w with nvmFile := .empty } : World).put p { x with pc := if x.cfg.nvm then .nvmInit else .workers }
  -- CacheAllocator.h:2940-2966
  | .nvmInit => w.initNvm p x ok v
  -- CacheAllocator.h:2973-2975, NvmCacheState.cpp:149-156
  | .nvmClear => ({ w with ice := false, nvmFile := .empty } : World).put p { x with pc := .workers }
  -- CacheAllocator.h:2929-2931
  | .workers => w.put p { x with pc := .rmInfo }
  -- CacheAllocator.h:2741, 2756
  | .rmInfo => (w.setSeg .info none).put p { x.afterRemove w .info with pc := .run }
  -- CacheAllocator.h:5961-5980, 6009-6019
  | .run => w.put p { x with pc := if x.cfg.nvm then .sdNvm else .sdInfo }
  -- NvmCache.h:1706-1727, Driver.cpp:264-271
  | .sdNvm =>
    if ok then
      ({ w with navy := some (w.dev, if x.cfg.idx then some (w.val .idx) else none) } : World).put p { x with pc := .sdMark }
    else ({ w with navy := none } : World).put p { x with pc := .sdInfo }
  -- NvmCacheState.cpp:158-167
  | .sdMark => ({ w with nvmFile := .torn } : World).put p { x with pc := .sdMark2 }
  | .sdMark2 =>
    (({ w with nvmFile := .safe x.cfg.fmt } : World).put p { x with pc := .sdInfo }).say
      (.nvmSafe p w.dev (if x.cfg.idx then some (w.val .idx) else none))
  -- CacheAllocator.h:6033 (may throw), 6037-6038
  | .sdInfo =>
    if ok then (w.setSeg .info (some .torn)).put p { x.afterCreate w .info with pc := .sdFill } else w.put p { x with pc := .half }
  -- CacheAllocator.h:6039-6041
  | .sdFill => (w.setSeg .info (some (.info (w.val .cache) (w.val .ht) (w.val .cht)))).put p { x with pc := .sdMeta }
  | .half => w
  -- ShmManager.cpp:152-161, 184-187
  | .sdMeta =>
    if w.md = .absent then (w.removeAll x.names).put p { x with names := [], pc := .sdUnlock }
    else ({ w with md := .torn } : World).put p { x with pc := .sdMeta2 }
  -- ShmManager.cpp:171-179, 187-191
  | .sdMeta2 =>
    if w.md = .absent then w.put p { x with pc := .sdUnlock }
    else if ok then
      (({ w with md := .names x.cfg.posix (x.names.filter (· ∈ x.att)) } : World).put p { x with pc := .sdUnlock }).say
        (.clean p (w.val .cache, w.val .ht, w.val .cht))
    else w.put p { x with pc := .sdUnlock }
  -- ShmManager.cpp:196-197
  | .sdUnlock => ({ w with lock := none } : World).put p { x with pc := .sdClean }
  -- ShmManager.cpp:201-205, 283-298
  | .sdClean => (w.removeAll (x.names.filter (· ∉ x.att))).gone p

/-- What can happen. -/
inductive Act
  | start (c : Cfg)
  | go (p : Nat) (ok : Bool) (v : Nat)
  /-- The process dies. -/
  | crash (p : Nat)
  /-- An exception, or the end of the process without shutDown. -/
  | fail (p : Nat)
  /-- The cache is used: a segment, or the NVM cache (with its index) gets a new content. -/
  | touch (p : Nat) (n : Name) (v : Nat)
  | touchNvm (p : Nat) (v : Nat) (i : Nat)
  /-- Someone creates the file "ColdRoll", "IceRoll", or removes the metadata file. -/
  | setDrop | setIce | delMeta
  /-- Reboot; files that were not synced may be empty (`false`). -/
  | reboot (md nvm : Bool)
deriving Repr

/-- The segments are in use: workers run (2929) or may have been left running by a failed shutDown. -/
def PC.usesRam : PC → Bool
  | .rmInfo | .run | .sdNvm | .half => true
  | _ => false

/-- The NVM cache is in use. -/
def PC.usesNvm : PC → Bool
  | .nvmClear | .workers | .rmInfo | .run | .sdNvm => true
  | _ => false

/-- A step of the world; `none`: not possible. -/
def World.exec (w : World) : Act → Option World
  | .start c => some (({ w with next := w.next + 1 } : World).put w.next { cfg := c } |>.say (.start w.next c))
  | .go p ok v => match w.proc p with | some x => some (w.go p x ok v) | none => none
  | .crash p => match w.proc p with | some _ => some (w.gone p) | none => none
  | .fail p =>
    match w.proc p with
    | some x =>
      match x.pc with
      | .read | .lock | .trunc => some (w.refused p x)
      | .sdUnlock | .sdClean => none
      | _ => some (w.unwind p x)
    | none => none
  | .touch p n v =>
    match w.proc p with
    | some x => if x.pc.usesRam ∧ (n = .cache ∨ n = .ht ∨ n = .cht) then some ((w.setSeg n (some (.data v))).say (.wrote p n v)) else none
    | none => none
  | .touchNvm p v i =>
    match w.proc p with
    | some x =>
      if x.pc.usesNvm ∧ x.cfg.nvm ∧ x.ready then
        some ((({ w with dev := v } : World).setSeg .idx (if x.cfg.idx then some (.data i) else w.segs .idx)).say (.wroteNvm p v))
      else none
    | none => none
  | .setDrop => some (({ w with drop := true } : World).say .env)
  | .setIce => some (({ w with ice := true } : World).say .env)
  | .delMeta => some (({ w with md := .absent } : World).say .env)
  | .reboot k1 k2 =>
    some (({ w with
      segs := fun _ => none, proc := fun _ => none, lock := none,
      md := if k1 ∨ w.md = .absent then w.md else .empty,
      nvmFile := if k2 ∨ w.nvmFile = .absent then w.nvmFile else .empty } : World).say .env)

/-- Histories, in which nobody removes the metadata file. -/
inductive Reach : World → Prop
  | init : Reach {}
  | step {w w' : World} (a : Act) : Reach w → a ≠ .delMeta → w.exec a = some w' → Reach w'

/-- Histories in which a process starts only when the others are over. -/
inductive Serial : World → Prop
  | init : Serial {}
  | step {w w' : World} (a : Act) : Serial w → (∀ c, a = .start c → ∀ q, w.proc q = none) → w.exec a = some w' → Serial w'

/-- A run of several steps. -/
def World.runs (w : World) : List Act → Option World
  | [] => some w
  | a :: as => match w.exec a with | some w' => w'.runs as | none => none

end Verif.WarmRestart
