# Formal model of facebook/CacheLib in Lean 4: design

## Trusted base

* Lean 4.33.0's kernel. No axioms of our own; `#print axioms` of every property theorem lists at
  most `propext`, `Classical.choice`, `Quot.sound`. No compiled-code tactics.
* The reading of the C++ source. The code is not compiled or run here. Each model definition cites the file
  and lines it models; simplifications are in that comment.
* Atomic steps. C++ atomics (`__atomic_*`, `std::atomic`) and critical sections of one mutex are modelled as
  single atomic steps of a sequentially consistent transition system; a CAS loop is modelled by its successful
  (or predicate-rejected) iteration, failed iterations having no effect. Weak-memory effects, deadlocks, liveness,
  timing and the OS are not modelled.
* Hash functions, checksums, clocks, random sources and the device are parameters: theorems
  quantify over all of them (any assumption, e.g. "the checksum detects this corruption", is an explicit
  hypothesis of the theorem).

## Structure

`lean/Verif/<Component>/Model.lean` (the code), `Lemmas.lean` (helpers) and `Props.lean` (specification,
property theorems, and an `example` per theorem that its hypotheses are met by a concrete non-trivial case).

## Per property: what is modelled and how it is proved

| Id | Model | Proof method |
|----|-------|--------------|
| C01-C04 | 32-bit word of RefcountWithFlags as `BitVec 32`, each member function as a total function to `Except`; ghost state counting handles, owner of exclusive right | invariant by induction over operation lists; bit-level lemmas |
| C05 | heap of `prev/next` fields, head, tail, size; each DList function statement by statement | representation predicate relating heap to a `List`; refinement per operation; lifted to histories |
| C06 | same for SList | same |
| C07-C08 | HashTable: buckets of singly linked chains, single loads/stores of any number of threads under reader/writer bucket locks, hash parameter; Iterator, LockGroupIterator | forward simulation to an atomic map; induction over reads |
| C09 | MMLru::Container on top of a list model, insertion point, tail size | invariant + refinement |
| C10 | MM2Q::Container: five lists, flags, rebalance, recordAccess, replace, setConfig, eviction through the iterator, save/restore | refinement to three sequences with tail lengths |
| C11 | CountMinSketch table, hash parameter, saturating counters | invariant; negative theorem for per-key reset |
| C12 | Bloom filter bit table | invariant over histories |
| C13 | CompressedPtr4B/5B bit packing and SlabAllocator compress/unCompress arithmetic | algebraic round trip |
| C14-C16 | AllocationClass / SlabAllocator / MemoryPool / MemoryPoolManager state machines | invariants over operation lists |
| C17 | byte-level KAllocation | round trip |
| C18 | class-id search, generateAllocSizes | decision logic |
| C19 | expiration (Ttl/Model.lean): util::isExpired with its per-thread cached time, allocate's times, updateExpiryTime/extendTTL, all lookups (RAM, NVM and fill, findFast, getSampleItem), findToWrite's invalidation, replacement, removal, eviction to NVM, NVM loss, slab-release move, Reaper. One call is one step; NVM is a map that may lose items. Not modelled: 64-bit time_t overflow, chained items' own times | invariant: every stored copy (RAM or NVM) carries the deadline that a fold over the user's calls (Spec.due) gives the key; hits are never past it (any clock); no false expiry when the clock is not set back; exactness of reap/update/extend/allocate; limits as theorems |
| C20 | chained items (ChainedItem/Model.lean): allocateChainedItem, addChainedItem, popChainedItem, replaceChainedItem, transferChainAndReplace, releaseBackToAllocator, eviction and slab release of parents and children, with next pointers, keys, reference counts, flags and the chained-item index. One call is one step (the calls hold the chained-item lock; the protocol that makes the parent exclusive is C43); the index is a map (C07), pointers are addresses (C05/C06). Caller obligations, which the code checks only in debug builds, are preconditions: the child was allocated for this parent, its handle is the only one, the old parent of a transfer has a chain | invariant over all runs relating the pointers to a list per parent; every call refined to a list operation; frees exact; no leak |
| C21-C23 | byte-level BucketStorage; Bucket; BigHash with failing device | refinement to list, then to map |
| C24 | EnginePair over abstract engines that may fail or ask for retry | refinement |
| C25 | SparseMapIndex (all operations, iteration, persist/recover) and FixedSizeIndex without combined entries (fill bits in bytes, slots, moving, counters, size rounding with exact powers) | refinement to a map in every history; FixedSizeIndex refines a map that may forget one of four colliding keys; read and write locality per mutex |
| C26-C27 | Region, RegionManager, Allocator and BlockCache as one transition system: inserts, lookups, removes, flushes (with failures), reclaims with reinsertion of any number of threads; atomic index (C25) | inductive invariants over all interleavings; value of a key defined on the log of updates; concrete runs for the violations with faults |
| C47 | 32/64-bit address, alignment and size arithmetic | direct |
| C28-C30 | TombStones, InFlightPuts, and the NvmCache protocol as a transition system | invariant over interleavings |
| C31 | NvmItem layout | round trip |
| C32, C48 | JobQueue, ThreadPoolExecutor, (Ordered)ThreadPoolJobScheduler, NavyRequestScheduler, NavyRequestDispatcher as transition systems: workers, condition variable, sentinel list, outstanding limit and baton, finish() | inductive invariants over all interleavings; quiescent states have completed everything; witnesses where NavyRequestScheduler::finish returns early |
| C33 | FifoPolicy, SegmentedFifo, LruPolicy | refinement to list |
| C34 | furcHash over an arbitrary bit stream | direct proof; witness for the give-up case |
| C35 | Cohort 64-bit word with readers in flight | invariant over interleavings |
| C36 | CCacheFixedLruBucket / CCacheVariableLruBucket (header array, offsets, bytes, header indices); CCache table with purge and resize (COPY and DELETE passes) | bucket = explicit LRU list for all op sequences; table: invariant over all histories, results and callbacks against a map; resizing relies on C34. Not modelled: requests concurrent with a resize, lock timeouts |
| C37-C39 | datatype on bytes: Buffer (slot headers inside the data), BufferManager (chain of buffers, expansion, compaction, iteration), HashTable (robin hood), BinaryIndex, Map, RangeMap, FixedSizeArray; the cache is an environment that grants or refuses allocations and gives memory with arbitrary contents; items live for ever. Not modelled: MapView/ReadOnlyMap, TypedHandle, values of variable size are byte strings | representation predicate per layer, refinement of every call to a map/sorted map/array specification, induction over call sequences |
| C40 | RecordIO on bytes: DeviceMetaDataWriter (blocks, splitting, flush, destructor, failing and torn writes) and DeviceMetaDataReader; folly's header layout is transcribed, its two hash functions are parameters. Not modelled: FileRecordWriter/Reader and the in-memory ones | writer and reader run in step (simulation relation), all device contents and failures |
| C41 | GenericPieces, GenericPiecesBase, RequestRange with 64-bit wrap-around. Not modelled: the cachebench adapters that use them | direct; sums of piece sizes by induction |
| C49 | escapeCacheKey, createPieceHeaderKey, createPieceKey, getBaseKey on character strings | a left-to-right reading of lone separators tells base keys from piece keys; numbers read from the right |
| C50 | small-step model of the constructors, ShmManager, NvmCacheState, Driver persist/recover and shutDown, for any number of processes, with crashes, exceptions, torn files, reboots and drop files between any two steps; content of a segment or of the NVM cache is a number | invariant over serial histories: whenever files say that something is saved, the segments and the device are as the last clean shutdown left them; claims on the event log; lock ownership over all interleavings |
| C51 | NavyDevice: Device::write/read (alignment, splitting, encryption), FileDevice with RAID0 over any number of files, synchronous and asynchronous IO with errors, short transfers and resubmission, any number of concurrent calls; the queue depth of AsyncIoContext; NVMe commands and handles of FdpNvme. Not modelled: io_uring itself, IO of more than 2^64 bytes, MemoryDevice as a separate class | invariant: where no call is writing, each byte of the device (or its cipher block) is what the last successful write left in the place that the RAID map gives it; the RAID map is a bijection into the files; claims on the log of returned calls |
| C52 | Destructor: one key; insertOrReplace, remove, invalidateNvm, reference counts, eviction (candidate, token, mark, put, release), moves, fills, the engine's queue, evictCB, itemRemoved_, as a transition system with any number of steps. Assumed by the positive theorems (hence `_partial`): writes of a key do not overlap, moves keep NvmEvicted, no reaper, the engine drops and calls back in one step, removing from the engine does not fail, removed items are not inserted again | invariant: for each inserted value exactly one of RAM, an outstanding handle, an evicting thread, NVM or its queue is to call the destructor, or it has been called; consistency of flags, marks, tombstones, tokens and the queue. For each assumption an execution of the code without it in which an item is destroyed twice or never (violated_*) |
| C53 | Async: one key; lookups, inserts, slab-release threads (mark, replace, unmark, wake up, free; evict), the map of moves keyed by a pointer into the item's memory, the NVM fill map, reference counts, as a transition system with any number of threads. Ctx: the wait context of one handle with the micro-steps of set. Assumed: no chained item is moved, reference counts do not overflow while waking up; for `C53_current_partial` at most one move of the key's items at a time. For each of these an execution without it that breaks the claim (violated_*) | invariant: counting movers and references per address, entries of the map belong to a busy mover; every waiter in exactly one place (permutation of 0..n-1); progress by giving the mover's next steps; values by the execution's prefix |
| C54 | MMLfu: MMTinyLFU::Container over MultiDList (C09) and the count-min sketch (C22): flags, hooks, counters with window and growth, the two-list iterator, save/restore; recordAccess split at the lock. Ratio and counter product are arbitrary functions (doubles); `Fits`: the table is smaller than 2^32 | refinement: a simulation relation with two abstract queues, a log of uses and decays; the iterator is the merge of the two reversed queues; sketch estimates from C22's never-under theorem |
| C55 | MMWLfu: MMWTinyLFU::Container with three lists, flags tiny/probation/accessed, protection and demotion in recordAccess, the three-list iterator, save/restore; shares the counters and list lemmas of C54. Same assumptions as C54; the percentage of protected items is not negative | as C54, with three abstract queues; the flags never say two queues at once |
| C56 | Persist: saveCache as a function from a host (segments, state file, Navy files) to bytes, with arbitrary padding; restoreCache as a parser with state, exceptions and faults (accesses outside a buffer), for readers that throw at the end and for readers that return an empty buffer. Thrift encodings and CRC are parameters with round-trip laws; file and shm calls do not fail; page rounding of segment sizes is left out | the stream of a saved image as a relation (Spec.stream, Blocks); locality of every parser (prefix lemma) by composition; preservation of 'made of checksummed pieces' for arbitrary streams. Partial: Navy files of 4 GB and more, for which the claim is false |
| C57 | Consist: one ValueHistory with its ring buffer as a state, the six calls as functions (they hold one mutex throughout); thread ids, times and the event stream are left out, indices do not overflow | records of the log related to the history of calls; the backward scan is an interval condition (loop invariant); that condition is equivalent to the existence of a schedule with effect points (explicit construction). Histories of at most 480 events: beyond, the log drops records and the claim is false |
| C58 | Worker: a labelled transition system of any number of callers and worker threads; every region under the lock is one step, waits give up the lock, notify_one picks any waiting thread, spurious wake-ups and time-outs at any time; intervals, exceptions, thread names and calls of stop from work() are left out | inductive invariants over all schedules (Inv for arbitrary calls, Inv2/K/F for calls of stop that do not overlap), lifted to traces of calls, returns and runs of work; progress by a rank that some thread can always lower and none can raise |
| C59 | NvmIndex/Overflow*: the model of C25 with combined entry blocks; a block is a map with the capacity of the code (that the bytes implement this map is C60), the key retrieval is an arbitrary function given anew at every insertion, using a block that is not there is an undefined result; operations are atomic | ledger invariant (every plain record or block entry is the current record of its owner, one place per key) for all histories; retention and exactness by the same invariant; capacity by the distinct keys of a block |
| C60 | Ceb: the buffer as bytes, every access checked against its size (outside is an undefined result), positions and counters of 16 bits, the F14 maps as functions; padding bytes and alignment are left out | representation invariant between bytes and an abstract map (keys ever stored in order, contents), preserved by every call with frame lemmas for loads and stores; refinement of results by induction over the calls; link to the block of C59 |
| C61 | Atm: a labelled transition system; the change of a map under its mutex is one step, the update of size_ a later one with the shard still locked, persist one step per shard and pass; iteration orders arbitrary; segments as values (thrift, ShmManager exceptions and statistics are left out) | inductive invariant relating shards, pending updates, size_ and the progress of persist to the history of calls; results stated on histories; recover by specifications of its loops |
| C62 | HotHash: both levels as functions on indices, 32-bit counters wrap, the 64-bit product of the hash wraps, sizes do not; the maintenance loop runs with fuel, so that its end is a theorem; single-threaded as the class | inductive invariant: recorded hashes lie at most 4 cells from their record and are warm, counts are bounded by the bumps; termination by a potential (distance of the recorded hashes) with the window of the last moves; completeness by following one hash |
| C63 | Latch: a labelled transition system over any number of threads; each critical section is one step, the condition variable a set of sleeping threads that may wake without cause | inductive invariant counting calls begun, calls returned and notifications due; no lost wake-up from the invariant on sleeping threads, termination by a measure |
| C64 | Reuse: the decision of ReuseTimeReinsertionPolicy as functions on the accesses reported by the tracker model of C44 (64-bit products, the 32-bit int of the reuse time); index lookup and expiry are inputs, statistics left out | the loop over the buckets against first-hit searches; combined with C44's theorem on tracked accesses |
| C65 | Advise: getTargetSlabsToAdvise and calcNumSlabsToAdviseReclaim as functions on the list of pools (slabs in use, slabs given up), the arithmetic of MemoryMonitor::adviseAwaySlabs and reclaimSlabs; Nat for uint64 (products do not overflow), the release of slabs itself is not part of this model | induction over the pools with the sum of remainders; the specification defines fair targets and a good plan without reference to the loops |
| C66 | Rate: RateLimiter (setWindowSize, addValue, throttle) on unbounded integers | induction over the history: the list is its last w + 1 samples, the rate compares the newest sample with the one w + 1 before |
| C67 | Bytes: bytesEqual step by step, loads of 8, 4, 2 and 1 bytes as little-endian integers that fail outside the buffer, memcmp by its specification; equality of Key and HashedKey | loads are injective; each step leaves the same question about a shorter rest |
| C42 | RebalanceStrategy (pickVictimAndReceiver, pickVictimForResizing, filters, hold-off, records), LruTailAge, HitsPerSlab, MarginalHits, FreeMem, Random, Manual, PoolResize strategies, both fall-back strategies, PoolRebalancer::pickVictimByFreeAlloc, MarginalHitsOptimizeStrategy; comparisons of doubles and weights are arbitrary functions, random numbers and the value of a dereferenced end iterator are inputs. Not modelled: the collection of statistics, configuration changes between calls, locks | per-strategy specification of the filters and arg-max, then the wrapper; induction over rounds for hold-off; counterexamples as existence theorems |
| C43 | CacheAllocator for regular items as a transition system: allocate, find, handle copy/release, insert, insertOrReplace, remove, removeIfExpired, replaceIfAccessible, eviction, slab release (move or evict) with its waiters; one step = one atomic operation on the reference word (the functions of C01-C04) or one critical section. Not modelled: NVM, chained items (C20), callbacks, statistics, the nascent flag | invariant with per-thread observers (owned references, exclusive right, private memory, locks) summed over the threads; witnesses that both obligations of the environment are needed |
| C44 | ApproxSplitSet and DropSet (robin-hood table with overflow area, rebuild, rotation of splits), AccessTimeMap (shards, eviction with any iteration order, persist, recover), AccessTracker over the models of CountMinSketch and BloomFilter | robin-hood invariant (clusters ordered by bucket, no duplicates, exact size) for all histories, counting argument for what is forgotten; map invariant; window invariant of the buckets. Not modelled: races inside AccessTracker (an access recorded between the exchange and the reset of the bucket is lost) |
| C45 | saveState/persist and the restoring code of the lists (DList, SList, MultiDList, MMLru, MM2Q), AllocationClass, the whole memory allocator (MemPool/Restart.lean: SlabAllocator, MemoryPool, MemoryPoolManager, MemoryAllocator with their checkState), the RAM index (HashTable/Restart.lean), the NVM indices, RegionManager with FIFO/LRU policy (Restart/RegionMgr.lean), Bloom filters, BigHash, the block cache as a whole (BlockCache/Restart.lean) and its shutdown order (BlockCache/Shutdown.lean). Not modelled: thrift encoding, the shared memory itself, statistics | round trips for every reachable state at rest; for the indices and the block cache linearizability/lookups over any number of restarts; refusal of other sizes, hashers, configurations |
| C46 | MultiDList over the DList model; iterator as a position | refinement to a family of sequences |

## Findings

Behaviour of the code that differs from what a reader of the API may expect. Those marked (proved) have a theorem
exhibiting a concrete witness in the model.

* compressAlt/unCompressAlt (SlabAllocator.cpp:605-655, benchmark only) are wrong above 4 GiB (proved).
* SlabAllocator::adviseSlab does not decrement memoryPoolSize_ while reclaimSlab increments it.
* EnginePair: insert Rejected and the other engine's remove Retry: the retried job reports Ok
  (`acknowledged_but_stale`, proved). A DeviceError on insert skips removing from the other engine. Engine.h:65 says
  remove must not return Retry, BlockCache::remove (623-624) does. Engine.h:49 says that a failed insert leaves the
  previous item; BigHash disables the bucket instead.
* CountMinSketch: resetCount can make the count of a colliding key too small; width*depth >= 2^32 is accepted and gives a
  table that is too small (both proved).
* BloomFilter::recover does not compare the number of hashes or the seeds (proved).
* BigHash: 2^32 buckets are truncated to 0 in ValidBucketChecker; disableBucket never increments
  numDisabledBuckets_; Bucket::getRandomAlloc passes the key as a C string (proved); BucketStorage::slotSize sums in 32 bits.
* CacheAllocator::allocate: creationTime + ttlSecs wraps at 32 bits (CacheAllocator.h:3108-3109).
* getKeyCheckedNoAsan is called with the size of the slab allocation (CacheAllocator.h:1675).
* InFlightPuts::tryAcquireToken: a throwing callback leaks the entry (`acquire_throw_leaks`, proved).
* NvmCache: races in which a stale value is served or a removed one comes back (`violated_*`, proved); they are the reason
  why C28 is only partial.
* ChainedHashTable: two concurrent insertOrReplace of the same node, both passing the unlocked isAccessible test, leave
  the node in the index but not marked accessible (excluded by `Legal`); the Iterator's move constructor drops throttler_
  (1428-1436); if handleMaker_(nullptr) threw, `*oldNode` at 1204 would be a null dereference.
* MMLru: save and restore lose mmReconfigureIntervalSecs and make the current refresh time the default
  (`MMLru.restore_stops_reconfigure`, proved); `size >> spec` with a spec of 64 or more is undefined.
* MM2Q: replace and removal do not clear the Hot, Cold and Tail flags; a replacing node with stale flags would be
  attributed to a queue it is not in (`MM2Q.stale_flags_misplace`, proved); it is safe only because callers construct
  the new item afresh. The saved configuration omits tailSize, tryLockUpdate and the interval: a restored container is
  consistent only after the setConfig of CacheAllocator.h:6059-6067. hotQueueStat of an empty hot queue reports the age of
  the warm tail, because rbegin(type) falls through to other queues.
* MultiDList: `--` of the iterator skips lists with exactly one node (`goBackward_skips_singleton`, proved), and from rend
  it indexes out of bounds.
* AllocationClass: an aborted free-list pruning (startSlabRelease with shouldAbort, AllocationClass.cpp:344-375) returns
  free allocations without setting canAllocate_, so a later allocate can report "full" although free memory exists
  (`AllocClass.aborted_release_loses_memory`, proved). activeReleases_ is still 0 while the free list is pruned, so
  saveState does not notice a release in that phase.
* MemoryPool: releasing a slab from the pool's list of free slabs (MemoryPool.cpp:477-488) ends in the same code as a release
  from a class and decrements currSlabAllocSize_ (425), although slabs on that list are not counted in it: the pool can then
  obtain one slab more than its size allows (`MemPool.free_list_release_breaks_limit`, proved).
* MemoryPool::allSlabsAllocated (MemoryPool.h:129-132) reads two counters without a lock: a slab advised away in between is
  counted in neither (`MemPool.advise_race_breaks_limit`, proved).
* MemoryPool::reclaimSlabsAndGrow reclaims slabs that another pool advised; curSlabsAdvised_ then wraps below zero and the
  limit is lost (`MemPool.reclaim_foreign_breaks_limit`, proved).
* MemoryPool::releaseSlab with an invalid receiver throws after the slab has left its class: the slab is in no list any
  more (`G.lost` in the model) and stays counted in currSlabAllocSize_.
* SlabAllocator::makeNewSlab: between carving (nextSlabAllocation_) and initialising the header another thread can see a
  valid slab with an uninitialised header (not modelled).
* generateAllocSizes: the largest size is maxSize rounded up to 8 and can exceed maxSize, the documentation says that all sizes
  fit within maxSize; minSize is not aligned, and 0 divides by zero.
* furcHash: if the number of shards is a power of two and the search for the next number gives up after kMaxTries, the key moves
  to shard 0, an old shard (`FurcHash.gave_up_moves`, proved for a stream of ones): the comment "0 is legal value in all cases"
  is true of the range but not of consistency.
* BlockCache, given-up flush (RegionManager.cpp:342-348, 161-195): the region is reset without blocking or awaiting readers, and
  its buffer is detached before the sequence number is incremented. A lookup that read the index before the clean-up can read
  the device instead, where the region was not written, and return a value that was overwritten before it began
  (`BlockCache.Faults.stale_after_giveUp`, proved); the region can be free, and reused, while a reader has it open, whose close
  then takes the counter below zero (`reset_while_open`, `resetRun_wraps`, proved).
* BlockCache, reclaim: an exception in checkExpired/shouldReinsert (BlockCache.cpp:1181-1186), a failed read of the region
  (RegionManager.cpp:390-398) or a bad header (BlockCache.cpp:681-699) leaves index entries pointing into a region that is then
  reused; a lookup through one can return an old value from a recycled buffer (`stale_after_exception`, proved).
* BlockCache::validate (122) admits a cache of exactly align * 2^32 bytes; the address of the end of its last slot wraps to 0 and
  decodes to a region that does not exist (`BlockCache.Address.last_address_wraps`, proved). serializedSize sums in 32 bits
  (`serializedSize_wraps`, proved).
- C25, FixedSizeIndex: `originalBucketId` (FixedSizeIndex.h:639-643) is wrong when there are fewer than 98 buckets per mutex (the largest slot offset is 97): it wraps below zero or lands in another shard, and moving a record then reads and writes outside the table. The default is 64 (NavyConfig.h:192) and `validate` accepts it (`small_shards_break`).
- C25, FixedSizeIndex: when the number of buckets per mutex does not divide the number of buckets, the last shard leaves the table: `reset` and insertions write past `ht_` (`ragged_shards_break`). When it is not a multiple of four, one byte of fill information is written under two mutexes (`odd_shards_share`; the comment at FixedSizeIndex.h:204 asks for a multiple of 8, nothing checks it).
- C25, FixedSizeIndex: `insert` into a full bucket reports the evicted record of another key as the old record of the inserted key, and `insertIfNotExists` reports another key's record as found and inserts nothing (last example of FixedLocal.lean).
- C25, PackedItemRecord: sizes above about 55 000 units round to 1.196^62 > 65535, which does not fit the uint16_t returned (`rounded_overflows`).
- C25, SparseMapIndex: recovering into an index with fewer bucket maps reads the first records only and silently drops the rest (`recover_fewer_loses`).
- C48, NavyRequestScheduler::finish (NavyRequestScheduler.cpp:144-151) drains every dispatcher once: a request spooled behind another of its shard is handed to a dispatcher that may already have been found idle, and finish returns before it ran (`Sched.Navy.finish_misses_spooled`, proved). ThreadPoolJobScheduler::finish repeats until nothing was enqueued and does not have the problem. NavyThread::drain does not count a submitter that has linked the first request but not yet called addTaskRemote (NavyRequestDispatcher.cpp:136-147): a second thread whose submission has returned can call finish and miss its own request (`finish_misses_racing`, proved).
- C32, after `stopped_` (or a stopped JobQueue) the next pending request of a shard is thrown away and the shard stays spooled for ever: later requests of the shard never run (`lost`/`dropped` in the models).
- C36, CCacheVariableLruBucket::updateVal (CCacheVariableLruBucket.h:518-587): storing a value that is too large over an existing smaller one deletes the entry without a removal callback, invokes the replace callback and returns FOUND (`CCache.var_oversize_update`, proved). (CCache.h:1094-1099 checks only against the descriptor's maximum; a size above 255 bytes does not fit the size byte.)
- C36, CCache::resize (791-865) reads the old chunk count before it takes resizeLock_: two concurrent resizes work with a stale count (read from the code, not modelled). A set during a resize writes both locations in two separate critical sections, so two concurrent sets of one key can leave different values (not modelled). Resizing to 0 drops everything without callbacks (visible in `Spec.Behaves`). If furcHash gives up (C34) the destination can be a bucket that still holds old copies, and a spurious eviction callback is possible: hence the hypothesis `Place.Ok`.
- C37, Map::compact (Map.h:719-740): with numEntries = capacity - 1 (19 entries in a default map) HashTable::insertOrReplace throws although every key exists; the storage has already been moved, so the map is corrupted (the header allows the runtime_error; example in Datatype/Examples.lean). For the same reason insertOrReplace of an existing key first expands the index, and may throw.
- C37/C38: numEntries = 0 makes capacity_ - 1 wrap and the first insertion writes out of bounds; numBytes = 0 makes wastedBytesPct divide by zero. Both are excluded by hypotheses (`0 < numEntries`, `0 < numBytes`).
- C37/C38, BufferManager: allocate rejects sizes >= the maximum, expand only those > it: for exactly the maximum a 1 MB buffer is added (and the index cloned) before the bad_alloc. A last slot of size zero is skipped by the buffer iterator (Buffer.cpp:120-128; entries always contain a key, so it is unreachable from Map).
- C38: rangeLookup and rangeLookupApproximate do not check key1 <= key2; the two iterators are then out of order and walking from one to the other leaves the index. RangeMap::create documents OutOfMemory but catches it (509-518) and returns a null container. BinaryIndex::computeStorageSize truncates to 32 bits.
- C39: FixedSizeArray::computeStorageSize truncates to 32 bits (`FA.computeStorageSize_wraps`, proved), so the constructor's size check can be passed by an item that is far too small; copyFrom writes one element past the end before its iterator throws (example in FixedArrayProps); operator= (210-213) has no return statement and calls resetToWriteHandle on an lvalue.
- MapView::Iterator::getAsBufferAddr (MapView.h:90-93) counts from the end although MapView's buffers_ is already reversed: with more than one buffer it names another buffer (read from the code, not modelled).
- C40, DeviceMetaDataWriter's destructor writes the last block only if offset_ + blockSize_ < metadataSize_ (RecordIO.cpp:77, `<`): when the stream ends in the last block, accepted records are silently lost (`RecordIO.last_block_is_lost`, proved).
- C40, DeviceMetaDataReader::isEnd looks at the next block of the device, not at the position in the current one: it can say "end" while records remain, and be wrong either way in the middle of a block (`isEnd_too_early`, proved). BigHash/Driver call it only on a fresh reader.
- C40, after a crash in the middle of persisting, a reader can return the new stream's first records followed by an older stream's later ones (`crash_mixes_streams`, proved): nothing in a header ties a record to its stream; Driver::recover zeroes the first block only.
- C40, `auto dataOffset = 0` (109) is an int: records of 2 GB or more overflow it. If the metadata size is not a multiple of the block size, flushBuffer can write past the metadata area.
- C41, resetFromRequestRange on an object that already served a bounded range keeps the old end when the new range is open or ends beyond the object, and keeps the old start when the new range is absent (`Pieces.reset_keeps_end`, proved): too little is fetched, or the XCHECK aborts. A start beyond the object aborts the process, or fetches a piece without any requested byte (`start_beyond_end`). A RequestRange built from a pair is not validated.
- C49, getBaseKey does not undo escapeCacheKey: for a name that contains a separator (or ends with its first two characters) it returns a proper prefix (`getBaseKey_wrong`, proved). "|@|" is not escaped; keys made with different group sizes can collide (`groups_collide`, proved). The comment at GenericPiecesBase.h:145 says the piece size is in the key; it is not.
- C50, the metadata file of ShmManager is read before its lock is taken (ShmManager.cpp:102, 107): with concurrent starts a process can attach with metadata that no longer describe the cache (`stale_attach`, proved as a history). shutDown releases the lock (197) before it removes segments that were not attached by name (201), so it can remove a segment that the next process has just made (`removes_anothers_segment`). A metadata file that does not deserialize, or was written with the other kind of shared memory, makes every start fail, SharedMemNew too, until someone creates the ColdRoll file or deletes it (`torn_refuses_all`, `posix_refuses_all`). If saveRamCache throws after the NVM cache was marked safe, the RAM cache can still change and the next start recovers the older NVM cache (`stale_nvm`). Driver::recover returns without a reset when there is no device metadata (Driver.cpp:275-280); FixedSizeIndex has no memory then (read, not reached in the model).
- C43, wait contexts of moving items are found by key (movesMap_), not by item: a lookup that waits for the move of a new item with the same key can be woken by an earlier move and be given the old, already removed item (`CacheProto.exStale`), or a null handle although the key is in the cache (`exMiss`). Both need two slab releases at the same time.
- C43, MoveCtx (CacheAllocator.h:2483-2502): a waiter for whom the clone of the handle throws RefcountOverflow is never set; its handle blocks for ever (`lost` in the model).
- C43, two concurrent insertOrReplace of one handle (with a remove in between) make an item replace itself: the index keeps a pointer to memory that is then freed (`exTwice`). Nothing in the API documentation forbids it.
- C43, markMovingForSlabRelease inspects memory that was handed out but not yet constructed; if the bytes at the place of the reference word say "linked", the item is marked as moving while it is being constructed and freed under its owner (`exDirty`). The code relies on recycled memory of the class having drained reference words.
- C43, while an item is marked for eviction and still in the index, find reports a miss but insert of the same key fails. A handle that is re-inserted while a remove of the same handle is running can end up accessible but not in an eviction list: it is never evicted and a slab release of its slab waits for ever. Handle::clone copies the nascent flag (Handle.h:251-258): if a nascent clone of an inserted item is released last, removeCb and the destructor are skipped (read from the code).
- C20, addChainedItem checks only that the child is a chained item: a child allocated for another parent goes into that parent's chain while this parent is marked as having children, and a child that is added twice makes the chain a cycle (3293 is an XDCHECK). transferChainAndReplace with an old parent without chain dereferences null in release builds (3358 only XDCHECK). replaceInChainLocked whose old item is not in the chain appends the new one at its end.
- C20, a handle of a linked child (viewAsWritableChainedAllocs, or one cloned before addChainedItem) does not keep the child: releasing the parent frees it (3673 is an XDCHECK).
- C20, moveRegularItem moves the chain (4034) before it knows whether the item is still in the cache (4045): if it was removed or replaced meanwhile, the children are freed together with the new, never visible item, and the destructor/remove callback of the old item sees no children.
- C19, util::isExpired (Time.h:56-72) caches the time per thread: after the clock is set back, a thread with a newer cached time reports items as expired that are not, another thread finds them (`Ttl.false_expiry_after_clock_set_back`, proved).
- C19, allocate adds creation time and ttl in 32 bits: a sum of 2^32 means "never expires", larger ones an immediate expiry (`Ttl.allocate_wraps`, proved). extendTTL cuts a signed 64-bit sum to 32 bits, gives an item without TTL an expiry time and can shorten a TTL.
- moveRegularItem (CacheAllocator.h:4011-4013) copies kNvmClean but not kNvmEvicted: an item whose NVM copy was evicted is, after a slab release moved it, taken to have an NVM copy: when it is evicted it is neither written to NVM again nor is its destructor called (3608-3613).
- C42, pickVictimByFreeMem (RebalanceStrategy.cpp:103-134) filters the evicting classes out but then checks `victims.empty()` (114), not the filtered set: if every candidate evicted since the last round, `*it` dereferences the end of an empty std::set. Where that reads as 0 (libstdc++ keeps the element count there) class 0 is chosen even if it has no more than minSlabs slabs (`Rebalance.violated_min_slabs`, proved); otherwise `at` throws (`violated_no_fault`). The default threshold (3 slabs) turns the search on.
- C42, the rebalancing by allocation failures guards with the slab count recorded at the last round (RebalanceStrategy.cpp:291), not the current one; initPoolState does not record allocation failures, so the second round takes all earlier failures for new ones; in that path a class on hold-off is counted down twice per round, and hold-off ends at the first eviction (`limit_holdoff_evicting`).
- C42, AllocationSizeStrategy with minSlabsForResizing = 0 can return a class without slabs (`limit_allocation_size`). getMarginalHits (RebalanceInfo.h:142-145) wraps if the tail-hit counter went down. A smoothed rank outside [0, n-1] (moving-average parameter outside [0, 1]) can make the optimizer find nobody.
- C44, ApproxSplitSet: a key whose low 32 bits are 0 (kEmptyKey) is reported as already seen although it was never inserted (`splitset_zero_key_violated`). insert rebuilds a table by copying only positions below capacity_ (ApproxSplitSet.h:69), so keys in the overflow area of probeLimit_ positions are forgotten (`splitset_rehash_forgets_violated`). The rebuilt table gets a new creation time, so trackingWindowDurationSecs reports a shorter window than that of the keys still tracked (`splitset_window_violated`). With numEntries < numSplits up to numSplits keys are tracked (`splitset_few_entries_violated`). numSplits = 0 divides by zero before the argument check.
- C44, AccessTracker: periods without any call are not cleared, so old accesses are reported as recent (`tracker_skipped_period_violated`); with numBuckets <= 2 the border test (AccessTracker.h:251) is always true and nothing is ever rotated (`tracker_two_buckets_violated`); a first call in the last period of a round, or a pause of numBuckets-1 periods, counts accesses of two different periods as one (`tracker_start_violated`, `tracker_pause_violated`); getRotatedAccessCounts uses the current bucket without rotating, so right after a period change it reports the oldest bucket as the current one (`tracker_rotated_counts_limit`). The move constructor (105-110) does not move itemCounts_: recording afterwards writes outside an empty vector.
- C44, AccessTimeMap: maxSize + numShards - 1 wraps for limits close to 2^64 and the map becomes unbounded (`timemap_huge_limit_violated`).
- C45, MemoryPool: after a slab was released from the free list of a pool, the state saved at shutdown is refused at the next start: checkState (MemoryPool.cpp:98-105) finds more allocated bytes than slab bytes and throws, so the cache starts cold (`MemPool.restore_refused`, proved).
- C45, block cache shutdown with two or more reclaim workers and reinsertion: the workers are drained one after the other, a later one can put records into a region whose flush was already waited for; the index is then persisted with entries whose data was never written (`Shutdown.two_workers_unsafe`), and after the restart a lookup returns data of an older use of the region (`stale_after_restart`) (proved).
- C45, ChainedHashTable accepts any hasher if the saved magic id is 0 (ChainedHashTable.h:1103): a user hasher whose getMagicId is 0 can be exchanged unnoticed, and entries are not found (`HashTable.zero_magic_lost`, proved). locksPower is not compared, which is right (`linearizable_restarts` allows it to change).
- C45, FixedSizeIndex with handleOverflow: the combined entry blocks live in the memory of the process; after a restart the records that point to them match nothing and their keys are lost.
- C51, FDP devices with the default deviceMaxWriteSize = 0: `min(maxDeviceWriteSize, maxIOSize)` (Device.cpp:1289) is 0, which means unlimited, so writes larger than the device's maximum transfer are not split and prepFdpUringCmdSqe throws (`fdp_default_not_split`, proved). If the device reports no maximum, the number of blocks overflows its 16-bit field above 65536 blocks (`prep_overflow`).
- C51, the documented contract of DeviceEncryptor (decrypt is the inverse of encrypt with the same salt) is not enough: reads decrypt parts of what was written with another salt (`contract_not_enough`, proved); the encryptor has to work block by block with salt + offset. write(BufferView) with an encryptor pads the last block with uninitialised memory (`view_pads`).
- C51, sizes of 4 GiB and more are cut to 32 bits: a read or write of exactly 4 GiB transfers nothing and returns success (`huge_read_reads_nothing`, `huge_write_writes_nothing`, proved).
- C51, IOOp::resubmitted_ is a uint8_t, compared with a limit of 10000 (Device.cpp:93, 292, 869): EAGAIN is retried for ever (`eagain_forever`, proved).
- FdpNvme.cpp nvmeIOMgmtRecv: `op_specific & 0xff << 16` parses as `op_specific & (0xff << 16)` (read from the code, not modelled).
- C52, the reaper (removeIfExpired, CacheAllocator.h:5648-5664) removes an expired item from RAM without marking it in itemRemoved_ and without removing it from NVM: if NVM has a copy (NvmClean), the destructor is called when the handle is released and again when NVM drops the copy (`violated_reap`, proved).
- C52, moveRegularItem copies NvmClean but not NvmEvicted (CacheAllocator.h:4011-4013): an item that NVM evicted and that is then moved is never destroyed when evicted (`violated_move`); if it is removed, a stale mark in itemRemoved_ swallows the destructor of the next item of that key (`violated_move_remove`).
- C52, a remove that overlaps with getting a writable handle leaves the NVM copy, a lookup brings the removed item back, and it is destroyed twice (`violated_overlap`). Engine callbacks that come after a newer item of the same key went through NVM are taken for that item (`violated_late_callback`); a remove that fails with a checksum error leaves a mark (`violated_failed_remove`); inserting a removed item again keeps NvmClean (`violated_reinsert`).
- C53, wakeUpWaiters (CacheAllocator.h:2493-2500, NvmCache.h:481-488): the waiter for which the reference count overflows is never set, in contradiction to the comment; its wait() never returns (`violated_completes_on_overflow`, `forgotten_forever`, proved). The same overflow in ItemWaitContext::set leaves threads blocked (`violated_overflow_in_set`).
- C53, two slab-release threads with items of the same key: the first wakes up, with the old value, a lookup that began after the value was replaced and that waits for the second (`violated_current_with_two_movers`).
- C53, movesMap is keyed by a StringPiece into the item (CacheAllocator.h:3970). After a chained item is moved the parent is unmarked (5530) before wakeUpWaiters; if it is freed and its memory reused in between, the entry is not found and its waiters hang (`violated_completes_after_chained_move`).
- C53, ItemWaitContext: a second onReady/toSemiFuture drops the first callback (`violated_second_callback`); release() can return before the callback is invoked, in contradiction to the comment at Handle.h:391, so that set clones an item without references (`violated_callback_before_release`).
- C54, CountMinSketch table size is a 32-bit product: with the default configuration a TinyLFU container that grows to 52,428,800 items makes a table of size 0 and counts outside it (`violated_counters_fit`). Growth forgets all counts (`violated_growth_keeps_counts`).
- C54, MMTinyLFU::saveState saves the refresh time in use as the default and does not save tryLockUpdate (`violated_save_keeps_config`); a configured refresh time above 900 s is lowered by the first reconfiguration (`violated_refresh_minimum`); after removals tiny is over its share until the next adds (`violated_tiny_share`).
- C55, MMWTinyLFU::recordAccess: if the protected share of the items is below one item, an access that should protect an item makes it the last of probation, i.e. the first candidate for eviction (`violated_hit_protects`); with the default share this happens to a container's only item (`violated_single_item_protected`). After removals the protected items are over their share (`violated_protected_share`). Saving loses configuration as in C54 (`violated_save_keeps_config`).
- C56, PersistenceManager.cpp:237 keeps 32 bits of the Navy file size: a saved cache with Navy files of 4 GB cannot be restored; it throws, or, if the first checksum byte happens to be 31, succeeds with empty Navy files (`violated_large_navy_files`, for all such images).
- C56, an empty NvmCacheState file is not restored, an old one stays (307-309, `violated_empty_state_file`); the length of a block is used by validate() before it is checked, so that a damaged length reads outside the buffer (`violated_damaged_length`); the state file has no checksum (`violated_state_file_unchecked`); the first read is not checked for length (173-174, `violated_short_first_read`).
- C57, ValueHistory::cleanupIfFull: once the log of a key is full, a possible value can be reported as inconsistent (`violated_false_alarm_after_cleanup`; the code asks this in a TODO), and an operation that spans 480 other events throws out_of_range at its end (`violated_exception_long_operation`). Each lookup is checked alone: new-then-old reads during a set pass (`violated_atomic_complete`).
- C58, PeriodicWorker::stop: two overlapping calls can both wait for ever although the worker has ended, in every continuation (`violated_overlapping_stop_hangs`): the second sets shouldStopWork_ after the worker has reset it for the first; with a time limit, the second returns false although the worker has ended, and start() then starts nothing (`violated_overlapping_stop_false`). start() returns true when the worker already runs, its comment says false.
- C59, FixedSizeIndex: combinedEntries_ is not persisted, but that buckets are combined is. After a restart the entries of the blocks are lost and the next insertion into such a bucket dereferences the end iterator (`violated_restart`). A full block drops the new entry, but the entry is counted (`violated_full`: 144 insertions, size 144, the last not found).
- C60, CombinedEntryBlock: a block constructed from flash data finds nothing, getIndexEntry only looks at the map in memory (CombinedEntryBlock.cpp:82-97, a TODO; `violated_flash_block_finds_entries`); the space of removed keys is not reused until clear() (`violated_removed_keys_free_room`); a buffer shorter than 12 bytes is written past its end (`violated_small_buffer`).
- C61, AccessTimeMap: persist during calls of set can omit a hash that was there all the time (`violated_persist_omits_untouched_hash`); hashes are dropped although the map holds fewer than maxSize (`violated_dropped_below_limit`; the limit is per shard); recover of a map that is not empty counts hashes twice (`violated_recover_counts_twice`).
- C62, HotHashDetector: l2HashFunction does not separate the hashes, two hashes share a counter of the second level exactly if they share one of the first (`levels_collide`), so a hash can be hot after its first bump, not after T*M hits as the header says (`violated_hot_after_one_bump`). fixL2Holes scans from distance 1 and never covers a hole at the record itself: isHotHash then says true and bumpHash 0 for the same hash (`violated_hole_not_covered`), and the hash is recorded twice (`violated_recorded_twice`). Hash 0 is reported though never bumped (`violated_zero`, documented).
- C63, CountDownLatch::count_down notifies after it has released the lock: wait can return, and its caller destroy the latch, while cv_ is still to be notified (`violated_destroy_after_wait`).
- C64, ReuseTimeReinsertionPolicy: a false positive of an old Bloom filter makes a key accessed once, just now, look rarely reused, and the item is rejected (`violated_false_positive_rejects`); the reuse time is kept in an int (`violated_int_reuse_time`, windows of 2^31 ticks).
- C65, MemoryMonitor::adviseAwaySlabs computes the room left from the slabs already given up, not from those already asked for: when releases abort or lag, the number asked for passes maxLimitPercent (`violated_limit`). reclaimSlabs throws from the periodic worker when reclaiming lags behind (`violated_reclaim`).
- C66, RateLimiter: after exactly w + 1 samples the rise over w steps is divided by w + 1 (`violated_first_window`); a falling value is granted in full with too few samples, against the comment (`violated_insufficient_samples`); the first sample after the window shrinks is compared with the oldest value of the long window and divided by the short one (`violated_shrink`).
