{"id": "C01", "title": "A held handle pins its item", "statement": "While at least one handle to an item is outstanding, eviction can not be started on the item (marking it for eviction or for moving fails), so its memory is never recycled or freed; memory is released only by the decrement that observes zero references, no container membership and no exclusive owner.", "quantifier": "every interleaving of reference increments/decrements, link/unlink, make-accessible/inaccessible, mark-for-eviction, mark-moving and their undo operations, by any number of threads, from a fresh item", "why_tests_cant": "a schedule that frees a pinned item needs a specific race between several atomics; tests sample a handful of schedules", "anchors": ["cachelib/allocator/Refcount.h: RefcountWithFlags::incRef, decRef, markForEviction, markMoving, unmarkMoving, isDrained", "cachelib/allocator/CacheAllocator.h: releaseBackToAllocator"]}
{"id": "C02", "title": "Reference counts are exact and never wrap", "statement": "The reported access reference count of an item equals the number of successful increments minus decrements; an increment at the maximum raises an overflow error and a decrement at zero raises an underflow error, in both cases leaving the item untouched; no reference operation ever disturbs the item's flags or container-membership bits.", "quantifier": "all 2^32 values of the packed word and all operation histories", "why_tests_cant": "the packed 32-bit word has 2^32 states and carries between bit fields show only at boundary values", "anchors": ["cachelib/allocator/Refcount.h: RefcountWithFlags::incRef, decRef, getAccessRef"]}
{"id": "C03", "title": "Eviction and moving are mutually exclusive", "statement": "At most one owner at a time can hold the exclusive (evicting or moving) right on an item; while it is held no new reference can be obtained, and the caller is told whether the item is being moved (retry later) or evicted (treat as miss).", "quantifier": "every interleaving of mark/unmark/increment operations", "why_tests_cant": "needs all schedules of competing CAS loops", "anchors": ["cachelib/allocator/Refcount.h: markForEviction, markMoving, unmarkForEviction, unmarkMoving, markForEvictionWhenMoving, incRef"]}
{"id": "C04", "title": "Item flags are independent", "statement": "Setting or clearing one item flag (chained, has-chained, nvm-clean, nvm-evicted, removed-by-replacement, container bits) changes exactly that flag and neither other flags nor the reference count.", "quantifier": "all words and all flags", "why_tests_cant": "2^32 words times all flags", "anchors": ["cachelib/allocator/Refcount.h: setFlag, unSetFlag, isFlagSet, markInMMContainer, markAccessible"]}
{"id": "C05", "title": "Intrusive doubly linked list behaves like a sequence", "statement": "Link-at-head, link-at-tail, insert-before, remove, replace and move-to-head on the eviction list have exactly the effect of the corresponding operation on an abstract sequence; forward and backward traversals visit exactly the members, each once, in (reverse) order, and the reported size is the number of members.", "quantifier": "all lists and all legal operation sequences, any number of nodes", "why_tests_cant": "pointer corruption shows only for particular neighbour configurations deep into a history", "anchors": ["cachelib/allocator/datastruct/DList.h: DList"]}
{"id": "C06", "title": "Intrusive singly linked list behaves like a stack with splice", "statement": "Insert, pop, iterator-remove and splice on the free list have exactly the effect of push, pop, delete-at-position and append on an abstract sequence; popping an empty list raises an error and changes nothing.", "quantifier": "all lists and all operation sequences", "why_tests_cant": "tail/size bookkeeping errors appear only after particular histories", "anchors": ["cachelib/allocator/datastruct/SList.h: SList"]}
{"id": "C07", "title": "The RAM index is a linearizable map", "statement": "Under any interleaving of threads, the operations insert-if-absent, insert-or-replace, conditional replace, conditional remove, remove, find and bucket scan behave as if each took effect on one map at one instant between its call and return: a lookup returns the item last stored for that key and not since removed, or nothing; insert-if-absent fails exactly when the key is present; an exception of the handle maker leaves the map unchanged; at rest the number of keys is exact and an item is marked accessible exactly when it is indexed; two keys with equal hashes never shadow one another; the table never gets stuck.", "quantifier": "all keys, hash functions, bucket and lock counts, numbers of threads and schedules of single loads and stores", "why_tests_cant": "depends on hash collisions and chain positions; tests fix one hash function", "anchors": ["cachelib/allocator/ChainedHashTable.h: ChainedHashTable::Impl, Container"]}
{"id": "C08", "title": "Iterating the RAM index visits every key once", "statement": "A full iteration ends and visits each key at most once; it visits every item that is in the index throughout the iteration, and only items that were in the index at some instant of it (so over a quiescent cache: every item exactly once), whatever other threads do meanwhile. The lock groups of the group iterator partition the buckets, and an item of a group is delivered once.", "quantifier": "all tables, bucket and lock counts, concurrent modifications", "why_tests_cant": "depends on empty buckets at the borders and chain lengths", "anchors": ["cachelib/allocator/ChainedHashTable.h: Iterator, getBucketElems"]}
{"id": "C09", "title": "LRU container: membership, order and insertion point", "statement": "An item is reported as a member of the LRU exactly when it is on the list once; adding an already present item or removing an absent one fails without effect; with no insertion point configured the eviction order is exactly least recently added/promoted first; the insertion-point pointer always denotes a list member, and the tail section it delimits has the accounted size.", "quantifier": "all operation sequences, list sizes and insertion-point specs", "why_tests_cant": "insertion-point bookkeeping breaks only for particular orders of removals around the insertion point", "anchors": ["cachelib/allocator/MMLru.h: MMLru::Container"]}
{"id": "C10", "title": "2Q container keeps every item in exactly one queue", "statement": "Under any sequence of add, access, remove, replace and rebalance, an item in a 2Q container lies in exactly one of hot, warm, cold (or warm/cold tail) queues, consistent with its flags; the sizes add up; eviction candidates come from cold first.", "quantifier": "all operation sequences and configurations", "why_tests_cant": "state space is flags x queues x history", "anchors": ["cachelib/allocator/MM2Q.h: MM2Q::Container"]}
{"id": "C11", "title": "Frequency sketch never under-counts", "statement": "For any history of increments the estimate of a key is at least min(true count, counter maximum), and after decay it is at least the decayed true count as long as no per-key reset is done.", "quantifier": "all keys, hash functions, table shapes, histories", "why_tests_cant": "collisions of unknown keys decide the answer", "anchors": ["cachelib/common/CountMinSketch.h: CountMinSketchBase"]}
{"id": "C12", "title": "Bloom filter has no false negatives", "statement": "A key added to a sub-filter and not cleared since is always reported as possibly present, across any interleaving of sets and clears on other sub-filters and across persist and recover.", "quantifier": "all keys, hash functions, filter shapes, histories", "why_tests_cant": "bit overlaps between neighbouring sub-filters are data dependent", "anchors": ["cachelib/common/BloomFilter.cpp: BloomFilter::set, couldExist, clear, reset, serializeBits, deserializeBits"]}
{"id": "C13", "title": "Compressed pointers are faithful", "statement": "Compressing the address of any allocation and decompressing it returns the same address; distinct allocations never compress to the same value, and no allocation compresses to the null value.", "quantifier": "every slab index, allocation size, allocation index, both 4- and 5-byte layouts, single and dual tier", "why_tests_cant": "2^32..2^40 values", "anchors": ["cachelib/allocator/memory/CompressedPtr.h: CompressedPtr4B, CompressedPtr5B", "cachelib/allocator/memory/SlabAllocator.h: compress, unCompress"]}
{"id": "C14", "title": "The allocator never hands out overlapping memory", "statement": "Two live allocations, of any classes of any pools, never overlap; every allocation lies inside one slab owned by its pool and class and has at least the requested size; a freed allocation may be handed out again only after it was freed; free finds the pool and class the memory came from; every slab is at exactly one place (slab allocator, advised, pool, class, or a thread moving it).", "quantifier": "all sequences of allocate, free, slab add, slab release, for all size classes", "why_tests_cant": "overlap requires particular interleavings of carving, free lists and slab release", "anchors": ["cachelib/allocator/memory/AllocationClass.cpp: allocate, free, addSlabAndAllocate, startSlabRelease, completeSlabRelease", "cachelib/allocator/memory/SlabAllocator.cpp"]}
{"id": "C15", "title": "Pool limits are respected", "statement": "The slabs in the classes of a pool never exceed the largest size the pool was ever given, and a new slab is granted only if it fits in the present size, for every interleaving of pool creation, growth, shrink, resize, allocation, provisioning, release, advising and reclaiming, except for what the history shows to be excess: one slab for each slab released from the pool's list of free slabs, and reclaiming more slabs than the pool had advised. Counting kept and advised slabs too, the bound holds if no slab is advised away while the limit is being checked. The sum of configured pool sizes never exceeds the memory of the cache, the reported remaining size never wraps, and a pool below its limit is refused a slab only if no slab is left.", "quantifier": "all operation sequences, any number of threads", "why_tests_cant": "needs all interleavings of resize and allocation", "anchors": ["cachelib/allocator/memory/MemoryPool.cpp", "cachelib/allocator/memory/MemoryPoolManager.cpp: createNewPool, resizePools, growPool, shrinkPool"]}
{"id": "C16", "title": "Slab release is complete and safe", "statement": "Once a slab release is reported complete no live allocation remains in the slab and none is ever handed out from it to its previous class; aborting the release restores exactly the previously free allocations.", "quantifier": "all histories of allocate/free/process during the release", "why_tests_cant": "concurrent frees during the release", "anchors": ["cachelib/allocator/memory/AllocationClass.cpp: startSlabRelease, processAllocForRelease, allFreed, completeSlabRelease, abortSlabRelease"]}
{"id": "C17", "title": "Key and value of an item do not interfere", "statement": "For any key and value size accepted by allocate, the key read back equals the key given, the writable value area has the requested size and is disjoint from key and header; keys that are empty or too long and values too large are rejected.", "quantifier": "all key lengths 1..2^24-1, both header forms, and all value sizes", "why_tests_cant": "boundary at 255 bytes and huge range", "anchors": ["cachelib/allocator/KAllocation.h: KAllocation"]}
{"id": "C18", "title": "Smallest fitting size class is used", "statement": "An allocation request is served from the smallest configured size class that fits, and is rejected exactly if it is zero-sized or larger than the largest class; generated class sizes are aligned, strictly increasing and within slab size.", "quantifier": "all class tables and request sizes", "why_tests_cant": "domain is all uint32 sizes and factors", "anchors": ["cachelib/allocator/memory/MemoryPool.cpp: getAllocationClassId", "cachelib/allocator/memory/MemoryAllocator.cpp: generateAllocSizes"]}
{"id": "C19", "title": "Expired items are never returned", "statement": "A find never returns an item whose expiry time has passed, an item without TTL never expires, and updating or extending the expiry has exactly the stated effect.", "quantifier": "all times and expiry values", "why_tests_cant": "time arithmetic and all find paths", "anchors": ["cachelib/allocator/CacheItem.h: isExpired, updateExpiryTime, extendTTL", "cachelib/allocator/CacheAllocator.h: findFastImpl, findImpl"]}
{"id": "C20", "title": "Chained items behave as a LIFO list tied to the parent", "statement": "add, pop, replace and transfer of chained items produce exactly the sequence expected (last added first), the parent is marked as having chained items exactly when the chain is non-empty, and every chained item belongs to exactly one parent.", "quantifier": "all sequences of chain operations over any number of parents", "why_tests_cant": "order errors appear only for particular sequences", "anchors": ["cachelib/allocator/CacheAllocator.h: addChainedItem, popChainedItem, replaceChainedItemLocked, transferChainLocked", "cachelib/allocator/CacheItem.h: CacheChainedItem"]}
{"id": "C21", "title": "Small-object bucket storage is a byte-exact FIFO", "statement": "The bytes of a flash bucket always decode to the list of entries produced by the corresponding abstract appends and deletions in order; used space never exceeds the bucket capacity; removal keeps all other entries byte-identical.", "quantifier": "all sizes, contents and operation sequences", "why_tests_cant": "memmove ranges depend on all entry sizes", "anchors": ["cachelib/navy/bighash/BucketStorage.cpp: BucketStorage"]}
{"id": "C22", "title": "Small-object bucket insert/find/remove", "statement": "After an insert into a bucket the inserted value is found; any value found for a key is the last value inserted for it; entries are evicted only for space, expired ones first and then strictly oldest first; each entry that leaves is reported exactly once to the destructor callback with the right event.", "quantifier": "all keys, sizes, expiry predicates and histories", "why_tests_cant": "depends on all size combinations", "anchors": ["cachelib/navy/bighash/Bucket.cpp: Bucket"]}
{"id": "C23", "title": "Small-object flash engine never returns a wrong or stale value", "statement": "A lookup in the small-object engine returns the value of the latest successful insert of exactly that key or reports not-found/device error - never another key's value, never an older value, never a removed value - with device read/write failures and restarts at any point; the approximate membership filter never hides a present key except after a failed write.", "quantifier": "all histories with failures at any operation", "why_tests_cant": "failure injection at every operation of every history", "anchors": ["cachelib/navy/bighash/BigHash.cpp: insert, lookup, remove, couldExist, readBucket, writeBucket"]}
{"id": "C24", "title": "Two-engine routing keeps one copy per key", "statement": "With small and large flash engines combined, after a successful insert the lookup returns the new value regardless of which engine previously held the key, after a successful remove the key is not found, and couldExist never denies a key that a lookup would find.", "quantifier": "all histories, sizes, engine failures and retry interleavings", "why_tests_cant": "retries and engine failures at each point", "anchors": ["cachelib/navy/engine/EnginePair.cpp: insertInternal, lookupInternal, lookupSync, removeHashedKeyInternal"]}
{"id": "C25", "title": "Flash index behaves as a map on key hashes", "statement": "Insert, lookup, replace-if-match, remove and remove-if-match on the large-object index act as on a map from hash to (address, size); conditional operations succeed exactly if the stored address matches.", "quantifier": "all hashes, all histories", "why_tests_cant": "bucket partition and sub-hash collisions", "anchors": ["cachelib/navy/block_cache/SparseMapIndex.cpp", "cachelib/navy/block_cache/FixedSizeIndex.cpp"]}
{"id": "C26", "title": "Region slots never overlap and stay in bounds", "statement": "All slots handed out from a flash region between two resets are disjoint, within the region, in increasing order; a region is reset only when no reader or writer holds it open.", "quantifier": "all sizes and interleavings of open, close, flush, reclaim", "why_tests_cant": "races of readers, writers, flush and reclaim", "anchors": ["cachelib/navy/block_cache/Region.cpp: Region", "cachelib/navy/block_cache/Allocator.cpp: Allocator"]}
{"id": "C27", "title": "Large-object flash engine never returns another key's or overwritten value", "statement": "A lookup in the large-object engine returns the value last inserted for exactly that key, or not found, even with hash collisions, region reclaim, reinsertion and removal.", "quantifier": "all histories of insert, lookup, remove, reclaim", "why_tests_cant": "interleavings of reclaim and reinsertion", "anchors": ["cachelib/navy/block_cache/BlockCache.cpp: insert, lookup, remove, onRegionReclaim, reinsertOrRemoveItem"]}
{"id": "C28", "title": "Deletes are not undone by in-flight flash writes or reads", "statement": "Once a remove (or overwrite) of a key has returned, no concurrently running flash write or flash lookup for the same key that began earlier can make the removed value visible again.", "quantifier": "every interleaving of concurrent puts, gets, removes on one key", "why_tests_cant": "resurrection requires particular three-way races", "anchors": ["cachelib/allocator/nvmcache/TombStones.h", "cachelib/allocator/nvmcache/InFlightPuts.h", "cachelib/allocator/nvmcache/NvmCache.h: put, find, remove, onGetComplete"]}
{"id": "C29", "title": "Delete markers are reference counted exactly", "statement": "A key is reported as being deleted exactly while at least one delete guard for it is alive; releasing guards in any order never raises an error nor leaks an entry.", "quantifier": "all interleavings and orders of guard creation/destruction on all keys", "why_tests_cant": "all orders", "anchors": ["cachelib/allocator/nvmcache/TombStones.h: TombStones"]}
{"id": "C30", "title": "In-flight write tokens", "statement": "At most one valid write token exists per key; the write callback runs at most once per token and only if the token was not invalidated since its creation; the token disappears afterwards.", "quantifier": "all interleavings of acquire, invalidate, execute, destroy on all keys", "why_tests_cant": "all orders", "anchors": ["cachelib/allocator/nvmcache/InFlightPuts.h: InFlightPuts"]}
{"id": "C31", "title": "Items serialized to flash round-trip", "statement": "Packing any list of blobs (item and its chained items) into the flash record and reading blob i back yields exactly the original bytes and original size, the total size is exact, and an over-long payload is rejected.", "quantifier": "all blob lists", "why_tests_cant": "sizes and counts unbounded", "anchors": ["cachelib/allocator/nvmcache/NvmItem.cpp: NvmItem"]}
{"id": "C32", "title": "Per-key ordering of flash requests", "statement": "Requests for the same key are executed one at a time in submission order, whatever the worker timing, retries and rescheduling; every accepted request eventually is executed exactly once when drained.", "quantifier": "all schedules and reschedule patterns", "why_tests_cant": "schedules unbounded", "anchors": ["cachelib/navy/scheduler/ThreadPoolJobScheduler.cpp: OrderedThreadPoolJobScheduler", "cachelib/navy/scheduler/NavyRequestDispatcher.cpp"]}
{"id": "C33", "title": "Region eviction policies", "statement": "FIFO evicts regions in tracking order; segmented FIFO keeps every tracked region in exactly one segment; LRU evicts the least recently touched region; each tracked region is evicted exactly once per tracking.", "quantifier": "all track/touch/evict sequences", "why_tests_cant": "orders unbounded", "anchors": ["cachelib/navy/block_cache/FifoPolicy.cpp", "cachelib/navy/block_cache/LruPolicy.cpp"]}
{"id": "C34", "title": "Consistent hashing moves only to the new shard", "statement": "Results are always in range. Growing the number of shards by one leaves every key on its shard or moves it to the new shard, except that a key whose search for an in-range shard gives up after the maximal number of tries (possible only when the old number of shards is a power of two) may move to shard 0. Repeated growth moves a key only to added shards. The internal cache of hash words is never indexed beyond its size for up to 2^23 shards.", "quantifier": "all keys, all shard counts up to 2^23", "why_tests_cant": "all keys times all counts", "anchors": ["cachelib/common/FurcHash.cpp: furcHash"]}
{"id": "C35", "title": "Reader cohorts drain before reuse", "statement": "When a cohort switch returns, every reader that obtained its token before the switch has released it, while new readers are never blocked.", "quantifier": "every interleaving of any number of readers and one switcher", "why_tests_cant": "schedules", "anchors": ["cachelib/common/Cohort.h: Cohort"]}
{"id": "C36", "title": "Compact cache buckets are exact LRU maps", "statement": "A compact-cache bucket behaves as a bounded key/value map with LRU replacement: a set is found until deleted or evicted, a hit returns the last value set, evictions take the least recently used entries, the callback is invoked once per evicted/replaced/deleted entry.", "quantifier": "all operation sequences, entry sizes, bucket capacities", "why_tests_cant": "byte-level moves depend on sizes", "anchors": ["cachelib/compact_cache/CCacheFixedLruBucket.h", "cachelib/compact_cache/CCacheVariableLruBucket.h"]}
{"id": "C37", "title": "Structured map data type", "statement": "The cache-resident Map type behaves as a map: insert fails if present, insertOrReplace overwrites, find returns the last value, erase removes, size is exact; compaction preserves all contents.", "quantifier": "all operation sequences, hash functions and sizes", "why_tests_cant": "layout dependent", "anchors": ["cachelib/datatype/Map.h: Map", "cachelib/datatype/Buffer.cpp: detail::Buffer"]}
{"id": "C38", "title": "Range map is sorted", "statement": "RangeMap iteration is in strictly increasing key order, contains exactly the inserted and not removed keys and range lookups return exactly the keys within bounds.", "quantifier": "all operation sequences", "why_tests_cant": "layout dependent", "anchors": ["cachelib/datatype/RangeMap.h: RangeMap, BinaryIndex"]}
{"id": "C39", "title": "Fixed size array", "statement": "FixedSizeArray element reads return the last write at that index, out-of-range access is rejected and the computed storage is sufficient and wrap-free.", "quantifier": "all sizes and indices", "why_tests_cant": "all sizes", "anchors": ["cachelib/datatype/FixedSizeArray.h: FixedSizeArray"]}
{"id": "C40", "title": "Persistent record streams round-trip", "statement": "Any sequence of records written to a device metadata stream reads back identically and in order; a corrupted or truncated record is detected and not returned as data.", "quantifier": "all record sequences and sizes", "why_tests_cant": "sizes across block boundaries", "anchors": ["cachelib/navy/serialization/RecordIO.cpp"]}
{"id": "C41", "title": "Piecewise caching covers the request exactly", "statement": "A byte range request is turned into pieces that cover exactly what is needed: every requested byte is in exactly one of the pieces fetched, every fetched piece contains a requested byte, the reported sizes and offsets are exactly those of these pieces, and fetching them one by one the remaining byte count is exact. Without a (valid) range the whole object is fetched.", "quantifier": "all sizes, ranges and piece sizes", "why_tests_cant": "arithmetic over all 64-bit ranges", "anchors": ["cachelib/common/piecewise/GenericPiecesBase.cpp", "cachelib/common/piecewise/GenericPieces.cpp"]}
{"id": "C42", "title": "Victim selection never picks invalid donors", "statement": "Rebalancing never selects the same class as victim and receiver, nor a victim with fewer slabs than required by its strategy.", "quantifier": "all statistics inputs", "why_tests_cant": "inputs unbounded", "anchors": ["cachelib/allocator/RebalanceStrategy.cpp", "cachelib/allocator/LruTailAgeStrategy.cpp", "cachelib/allocator/HitsPerSlabStrategy.cpp"]}
{"id": "C43", "title": "Concurrent find, insert, evict and free never expose freed memory", "statement": "In the full protocol of index lookup, handle release, insertion, removal and eviction under their locks, an item whose memory is on the free list has no handle, is not in the index and not in the eviction list; a handle obtained by find is for the requested key.", "quantifier": "every interleaving of any number of threads at atomic-step granularity", "why_tests_cant": "schedules unbounded", "anchors": ["cachelib/allocator/CacheAllocator.h: findInternal, acquire, tryAcquire, insertImpl, insertOrReplace, removeImpl, findEviction, unlinkItemForEviction, releaseBackToAllocator"]}
{"id": "C44", "title": "Bounded access trackers", "statement": "ApproxSplitSet: no history of insert/reset reads or writes outside a table; at most numSplits*max(1, numEntries/numSplits) keys are tracked; insert answers true only for keys inserted since the last reset (up to the low 32 bits; a key whose low 32 bits are 0 is the exception); for other keys numKeysTracked is exactly the number of keys for which insert answers true, an insertion makes no other key be reported, forgets nothing when numKeysTracked grows, and otherwise, unless a table is rebuilt, forgets one key or (when full) keys of the oldest split only. AccessTimeMap: get/getAndRemove answer nothing or the time of the last set not followed by a removal, exactly that without a limit; a set is seen at once and forgets at most one other key of a full shard; limits per shard and in total; size() is exact; a restart keeps every answer. AccessTracker (calls one at a time): with at least three buckets and a call in every period, feature i is the estimate of a fresh sketch fed with exactly the accesses of period current-i: never below the true count, 0 for a period without accesses.", "quantifier": "all histories of calls, keys, times, iteration orders of the hash tables, configurations", "why_tests_cant": "histories unbounded", "anchors": ["cachelib/allocator/nvmcache/AccessTimeMap.h", "cachelib/common/ApproxSplitSet.h", "cachelib/common/AccessTracker.h"]}
{"id": "C45", "title": "Cache state survives a clean restart", "statement": "After a clean shutdown (no operation, slab release or iterator in progress), restoring the saved state of the lists, the RAM and NVM indices, the memory allocator, the Bloom filters and the region manager is accepted and yields a state in which every operation gives the same results as before; a different size, configuration or hasher is refused. Known exceptions, proved: a pool from whose free list a slab was released is refused at the next start, and a block cache with several reclaim workers and reinsertion can persist entries whose data was never written.", "quantifier": "all reachable states at rest, all operation histories, any number of restarts", "why_tests_cant": "the saved state ranges over all histories of the allocator, lists and indices; a test restarts from a few of them", "anchors": ["cachelib/allocator/datastruct/DList.h: saveState", "cachelib/allocator/datastruct/SList.h: saveState", "cachelib/allocator/memory/AllocationClass.cpp: saveState", "cachelib/navy/block_cache/RegionManager.cpp: persist, recover", "cachelib/allocator/ChainedHashTable.h: saveState", "cachelib/allocator/memory/MemoryPool.cpp: saveState, checkState", "cachelib/navy/block_cache/FixedSizeIndex.cpp: recover"]}
{"id": "C46", "title": "A multi-list is several lists over the same nodes, iterated from the last list", "statement": "Operations on one list of a multi-list act on that list as on a single list and leave all others as they are; the size is the sum; the reverse iterator sees every node exactly once, from the tail of the last list to the head of the first; saving and restoring gives the same lists.", "quantifier": "all numbers of lists and all sequences of legal list operations", "why_tests_cant": "the lists share the hooks of the nodes; histories are unbounded", "anchors": ["cachelib/allocator/datastruct/MultiDList.h: MultiDList, Iterator"]}
{"id": "C47", "title": "Addresses and sizes stored in the flash index decode to the slot they were made from", "statement": "For every region and aligned slot end of an accepted configuration, the 32-bit address put into the index decodes to the same region and offset, different slots get different addresses, the size hint is never smaller than the slot, and the slot is never smaller than the entry.", "quantifier": "all device, cache and region sizes accepted by validation, all regions, offsets and sizes", "why_tests_cant": "boundary arithmetic over 64-bit ranges", "anchors": ["cachelib/navy/block_cache/BlockCache.h: encodeRelAddress, decodeRelAddress, encodeSizeHint", "cachelib/navy/block_cache/RegionManager.h: toAbsolute, toRelative", "cachelib/navy/block_cache/BlockCache.cpp: validate, calcAllocAlignSize, serializedSize"]}
{"id": "C48", "title": "finish() waits for everything submitted before it", "statement": "When a job scheduler's finish() returns, every request submitted before the call was made has completed, even if other threads or the requests themselves submit more meanwhile.", "quantifier": "all schedules, any number of concurrent submitters and finish() callers", "why_tests_cant": "depends on the interleaving of completions, hand-overs between queues and the order in which queues are visited", "anchors": ["cachelib/navy/scheduler/ThreadPoolJobScheduler.cpp: ThreadPoolJobScheduler::finish", "cachelib/navy/scheduler/NavyRequestScheduler.cpp: NavyRequestScheduler::finish", "cachelib/navy/common/NavyThread.h: drain"]}
{"id": "C49", "title": "Different objects and pieces never share a cache key", "statement": "For one grouping setting, the keys derived for the metadata, header and body pieces of any two objects are equal only for the same object, version and piece, whatever characters the object names contain; the base key is recovered from any piece key of a name without separators.", "quantifier": "all object names, versions, piece numbers and group sizes", "why_tests_cant": "injectivity over all strings and numbers", "anchors": ["cachelib/common/piecewise/GenericPiecesBase.cpp: escapeCacheKey, createPieceHeaderKey, createPieceKey, getBaseKey", "cachelib/cachebench/workload/PieceWiseCache.cpp: PieceWiseReqWrapper"]}
{"id": "C50", "title": "A warm start finds exactly what a clean shutdown left, whatever crashes lie between", "statement": "When a start attaches to a cache in shared memory, the RAM cache it finds is the one its metadata describe, the one the last clean shutdown left, and has not been written since; when it recovers the NVM cache, that is what the last safe shutdown persisted, unchanged since, and was left by the same process as the RAM cache it attached to. After a clean shutdown the next attaching start (same kind of shared memory, no drop file) succeeds and finds both. No two processes work on the cache at once.", "quantifier": "all sequences of processes, configurations, contents, crash and exception points, torn or unsynced files, reboots, drop files and deletions of the metadata file; for mutual exclusion all interleavings of concurrent starts", "why_tests_cant": "crash points between any two steps of start and shutdown, over unbounded histories of processes", "anchors": ["cachelib/allocator/CacheAllocator.h: SharedMemNew/SharedMemAttach constructors, initCommon, shutDown, saveNvmCache, saveRamCache", "cachelib/shm/ShmManager.cpp: ShmManager, initFromFile, writeActiveSegmentsToFile, shutDown, createShm, attachShm, removeShm", "cachelib/allocator/NvmCacheState.cpp: restoreState, clearPrevState, markSafeShutDown", "cachelib/navy/driver/Driver.cpp: persist, recover, reset"]}
{"id": "C51", "title": "The flash device is one array of bytes, whatever the RAID layout, splitting and IO order", "statement": "A read from the Navy device that succeeds returns, for every byte, what the last write of that byte wrote, if that write succeeded; no IO goes outside the files; a call fails only if a file or the encryptor reported an error; the order in which the files are given does not matter. The asynchronous IO queue never exceeds its depth, never forgets a waiting fiber and never blocks its completion handler. NVMe commands with data placement are about exactly the bytes and the placement asked for.", "quantifier": "all numbers of files, stripe sizes, alignments, IO size limits, block-wise encryptors, sequences of concurrent calls on disjoint ranges, orders and interleavings of completions, short transfers, errors and resubmissions", "why_tests_cant": "every split of every range over the files, and every order of completions with failures and retries", "anchors": ["cachelib/navy/common/Device.cpp: Device::write, writeInternal, read, readInternal, IOReq, IOOp::done, SyncIoContext, AsyncIoContext, FileDevice, createFileDevice", "cachelib/navy/common/Device.h: Device, DeviceEncryptor", "cachelib/navy/common/FdpNvme.cpp: prepFdpUringCmdSqe, prepWriteUringCmdSqe, allocateFdpHandle", "cachelib/navy/common/Utils.h: powTwoAlign"]}
{"id": "C52", "title": "The destructor of every inserted item is called exactly once", "statement": "With an item destructor and an NVM cache, the destructor is called exactly once for each item that was inserted, by RAM or by NVM: never twice, never while the item is in the cache or a handle to it is held, never for a copy that a lookup can still load, and it has been called once the item can be found nowhere any more.", "quantifier": "all interleavings of inserts, replacements, removes, writable handles, evictions to NVM, NVM fills, NVM evictions, failed NVM inserts and removes by others, for a key", "why_tests_cant": "RAM and NVM decide separately, from flags and marks, who is to call; every interleaving of their steps has to agree", "anchors": ["cachelib/allocator/CacheAllocator.h: insertOrReplace, removeImpl, invalidateNvm, releaseBackToAllocator, moveRegularItem, removeIfExpired", "cachelib/allocator/nvmcache/NvmCache.h: put, evictCB, onGetComplete, remove, itemRemoved_", "cachelib/allocator/Refcount.h: kNvmClean, kNvmEvicted"]}
{"id": "C53", "title": "A lookup that has to wait always completes, exactly once, with a current value", "statement": "A lookup that finds its item being moved by a slab release, or that goes to NVM, gets a handle that is not ready. That handle becomes ready exactly once: no waiter is forgotten or told twice, the thread that moves (or evicts) finds all of them and can always wake them up, the memory of the key they are filed under is not freed before. A value returned was the key's value at some time since the call; each returned handle has its own reference, and nothing is freed that a handle points to. A callback or future attached to the handle is invoked once with the item, or handed back.", "quantifier": "all interleavings of lookups, inserts, removes, releases, frees, any number of slab-release threads with moves and evictions, and NVM lookups of a key; all interleavings of the threads that fulfill, attach callbacks, wait, release and destroy a handle", "why_tests_cant": "the windows between replacing, unmarking, waking up and freeing are a few instructions, with any number of threads in them", "anchors": ["cachelib/allocator/CacheAllocator.h: MoveCtx, acquire, tryGetHandleWithWaitContextForMovingItem, wakeUpWaiters, moveForSlabRelease, moveRegularItem, evictForSlabRelease, unmarkMovingAndWakeUpWaiters", "cachelib/allocator/nvmcache/NvmCache.h: GetCtx, find, onGetComplete, removeFromFillMap", "cachelib/allocator/Handle.h: ItemWaitContext, ReadHandleImpl::toSemiFuture, release, wait"]}
{"id": "C54", "title": "TinyLFU eviction keeps every item, admits by frequency, and evicts in the documented order", "statement": "With TinyLFU as the eviction policy, every item of the container is in exactly one of the two queues and is reported so; add, remove, replace, evict and reconfigure answer truthfully and never lose or duplicate an item or dereference null. A newcomer displaces the least recently used item of the main queue only if it is estimated to be used more often (or as often, if configured so); the estimate is never below the true number of uses, halved at each end of a window. The eviction iterator shows every item exactly once, each queue from its least recently used on, a newcomer after those main items it beats; evicting while walking shows the same order. An access moves its item to the front once per refresh time. Saving and restoring keeps queues, times and use.", "quantifier": "all histories of operations with any items, keys (hashes), times and accepted configurations, any number of items as long as the counters fit in a 32-bit table; all walks of the iterator with any evictions", "why_tests_cant": "the order depends on the whole history of uses, decays and growths; tests use a handful of items and one configuration", "anchors": ["cachelib/allocator/MMTinyLFU.h: Container::add, maybePromoteTailLocked, maybeGrowAccessCountersLocked, updateFrequenciesLocked, recordAccess, remove, replace, LockedIterator, saveState", "cachelib/common/CountMinSketch.h", "cachelib/allocator/datastruct/MultiDList.h"]}
{"id": "C55", "title": "W-TinyLFU eviction keeps every item, protects only frequent items within their share, and evicts protected items last", "statement": "With W-TinyLFU as the eviction policy, every item of the container is in exactly one of three queues (newcomers, probation, protected) and is reported so; add, remove, replace, evict and reconfigure answer truthfully and never lose or duplicate an item or dereference null. A newcomer displaces the least recently used item on probation only if it is estimated to be used more often (or as often, if configured so). Only an access to an item on probation whose estimate is above the limit protects it, and the protected items never become more than they were or than their share. The eviction iterator shows every item exactly once: newcomers and items on probation merged by frequency, then the protected ones, each queue from its least recently used on; evicting while walking shows the same order. Saving and restoring keeps queues, times and use.", "quantifier": "all histories of operations with any items, keys (hashes), times and accepted configurations, any number of items as long as the counters fit in a 32-bit table; all walks of the iterator with any evictions", "why_tests_cant": "which queue an item is in depends on the whole history of uses, decays, protections and demotions", "anchors": ["cachelib/allocator/MMWTinyLFU.h: Container::add, maybePromoteTailLocked, recordAccess, remove, replace, LockedIterator::getIter, saveState", "cachelib/common/CountMinSketch.h", "cachelib/allocator/datastruct/MultiDList.h"]}
{"id": "C56", "title": "A cache image streamed to another host restores exactly, and nothing else is taken for one", "statement": "restoreCache of what saveCache wrote gives back exactly the four shared memory segments, the state file and the flash files, on any host whose manager has the same cache name, persistence version and number of flash files; it uses exactly the bytes written. A stream that was cut off anywhere throws and leaves nothing to attach to (or, in the first nine bytes, the host as it was). The image of a cache with another name or persistence version is refused. Data that does not have the checksum in front of it is never restored: a damaged block of a segment or of a flash file makes the restore throw, and whatever the stream, what a successful restore wrote is made of pieces stored after their own checksum. A restore that fails leaves no segment.", "quantifier": "all contents and sizes of segments and files, all contents of uninitialised padding, all cut points, all arbitrary streams (for the checksum claim), all previous states of the host", "why_tests_cant": "the repository's tests use a few small images and cut or damage the stream at chosen calls; sizes above 4 GB are never tried", "anchors": ["cachelib/persistence/PersistenceManager.cpp: saveCache, restoreCache, saveShm, saveDataInBlocks, restoreDataFromBlocks, restoreFile, deserializeAndValidateVersions", "cachelib/persistence/PersistenceManager.h: PersistenceStreamReader", "cachelib/common/Utils.h: getAlignedSize"]}
{"id": "C57", "title": "CacheBench's consistency check reports exactly the lookups that no schedule explains", "statement": "For the operations on one key of which CacheBench logs the begins and ends (at most the 480 events the log holds): a lookup that found v is reported as inconsistent exactly when there is no way to choose, for every operation, one moment between its begin and its end at which it took effect (all completed sets, deletes and misses did, open ones may have) such that the key held v at some moment of the lookup. So a cache whose operations are atomic is never reported, a value overwritten or deleted before the lookup began always is, and no call throws.", "quantifier": "all interleavings of begins and ends of any number of concurrent gets, sets and deletes, all values, all results of the gets, up to the capacity of the log", "why_tests_cant": "the tests check a dozen histories written by hand; the claim is an equivalence with the existence of a schedule, over all interleavings", "anchors": ["cachelib/cachebench/consistency/ValueHistory.cpp: beginGet, beginSet, beginDelete, endGet, endSet, endDelete, isConsistent, findInOrderSetBegin, cleanupIfFull", "cachelib/cachebench/consistency/RingBuffer.h: RingBuffer"]}
{"id": "C58", "title": "Background workers stop when told to, work alone, and do not miss a wake-up", "statement": "PeriodicWorker (the base of the pool rebalancers, resizers, optimizers, memory monitors, reaper and background movers): runs of work() of one worker never overlap. After a stop() that returned true no work is done by a thread started before that call, and if calls of stop() do not overlap every such thread has ended, so that the object may be destroyed. A stop() without time limit never returns false; one that returns false leaves a running worker that is not told to stop. A stop() that does not overlap with another always returns, provided that work() does, after at most a fixed number of steps and without waiting for the interval. After wakeUp() a worker begins to work without waiting for the interval, unless it was told to stop.", "quantifier": "all schedules of any number of threads calling start, stop (with or without time limit) and wakeUp, all choices of the thread that notify_one wakes, all spurious wake-ups and time-outs; overlapping calls of stop where stated", "why_tests_cant": "lost wake-ups, dead locks and work after stop depend on the schedule; a test sees a few", "anchors": ["cachelib/common/PeriodicWorker.cpp: loop, start, stop", "cachelib/common/PeriodicWorker.h: wakeUp"]}
{"id": "C59", "title": "The flash index with overflow blocks neither crashes, nor reports stale addresses, nor evicts to make room", "statement": "FixedSizeIndex with overflow handling, within the lifetime of a process: every operation is defined (no access to a block that is not there), whatever the reading back of keys answers. An address reported by lookup, peek or remove is the last one given to a hash with the same bucket and the same 8 bits; a replaced or removed address never is. As long as keys can be read back, an insertion into a full bucket evicts nothing: every other key's record stays found. An inserted record is found unless a block it may be in already holds 140 other keys. With at most 140 hashes in use, no two of the same bucket and 8 bits, all operations of any history give exactly the results of a map.", "quantifier": "all configurations with at least 98 buckets per mutex that divide the table, all histories of insert, insertIfNotExists, replaceIfMatch, lookup, peek, remove, removeIfMatch and reset with addresses that are not in use, all answers of the key retrieval that do not lie", "why_tests_cant": "which bucket overflows, which record is moved or converted and what the key retrieval answers depend on the whole history", "anchors": ["cachelib/navy/block_cache/FixedSizeIndex.h: decideBucketSlotOffset, checkBucketSlotOffset, checkCombinedIndexEntry, createCombinedIndexBlock, insertCombinedIndexEntry, ExclusiveLockedBucket", "cachelib/navy/block_cache/FixedSizeIndex.cpp: insert, insertIfNotExists, replaceIfMatch, lookup, peek, remove, removeIfMatch, reset", "cachelib/navy/block_cache/CombinedEntryBlock.cpp: addIndexEntry, removeIndexEntry"]}
{"id": "C60", "title": "A combined entry block is a map of bounded capacity, kept inside its buffer", "statement": "CombinedEntryBlock on a writable buffer of any size from 12 to 65535 bytes with any previous contents: no sequence of calls accesses memory outside of the buffer, and each call returns what a map with room for (size - 12) / 29 different keys since the last clear would: an added key is found with the last record given to it, a removed one is not found, adding reports ok, updated or full correctly, the numbers of stored and of valid entries and the number of keys per bucket are exact. The buffer alone describes the contents (count, keys, removed flags, buckets, records). At the default size it is the block the flash index (C59) relies on.", "quantifier": "all buffer sizes from 12 to 65535, all previous buffer contents, all sequences of calls of any length with arguments that fit their types", "why_tests_cant": "entry infos grow from the front and records from the back of the same bytes with 16-bit positions: that they never meet, and that counts and bytes agree, depends on the whole sequence of additions, updates and removals", "anchors": ["cachelib/navy/block_cache/CombinedEntryBlock.h: CombinedEntryBlock, EntryPosInfo, increaseKeysForBid, decreaseKeysForBid, initHeader", "cachelib/navy/block_cache/CombinedEntryBlock.cpp: addIndexEntry, getIndexEntry, removeIndexEntry, peekIndexEntry, clear"]}
{"id": "C61", "title": "The map of access times reports only current times, keeps its limit, counts exactly and survives a restart", "statement": "AccessTimeMap under any interleaving of set, get, getAndRemove, remove, size and persist by any number of threads: get and getAndRemove return the time last given to the hash and not removed since, or nothing; nothing instead of a time only if the map is limited and another hash of the same shard was given a time since; if the hashes in use fit the limit shard by shard, or there is no limit, every result is exact. No call erases the end of a map. size() stays below maxSize + numShards, never wraps, and differs from the number of hashes that have a time by at most the number of calls in progress. persist never writes past the segment it created, saves at most one time per hash, each current at some moment during the call, and everything if nothing changes meanwhile. recover, into a map with any number of shards and any limit, restores only what was saved, within the limit, everything if it fits, and only once.", "quantifier": "all numbers of shards, limits, hashes and times, all schedules of any number of threads, all iteration orders of the hash maps, all configurations before and after a restart", "why_tests_cant": "size_ is updated apart from the maps, persist locks one shard at a time and twice, victims depend on the iteration order of a hash map: which results occur depends on the schedule", "anchors": ["cachelib/allocator/nvmcache/AccessTimeMap.h: AccessTimeMap, set, get, getAndRemove, remove, size, persist, recover, computeMaxEntriesPerShard, getShard"]}
{"id": "C62", "title": "The hot hash detector terminates, reports only bumped hashes, reports a hash bumped often enough, and cools down", "statement": "HotHashDetector with any power of two as number of buckets, a positive hotnessMultiplier and any initial threshold (even 0): any sequence of bumpHash and doMaintenance calls ends, divides by nothing that is 0 and fails no assertion; a maintenance takes at most 31 loop iterations per bucket. bumpHash answers at most 255; an answer other than 0, or isHotHash for a hash other than 0, implies that this very hash was bumped before and that hashes of its record were bumped at least hotnessMultiplier times. A new detector whose maintenance is not due earlier reports a hash other than 0 after threshold times multiplier bumps of it. Whatever happened before, after m + 1 maintenances in a row with multiplier at most 2^m nothing is reported. Two hashes share a counter of the second level exactly if they share one of the first.", "quantifier": "all configurations with a power of two of buckets, all thresholds, all hashes, all sequences of calls of any length", "why_tests_cant": "the maintenance loop runs until no hash moved in the last five steps and an assertion guards the distance of every hash from its record: both depend on the whole history of recorded, moved and removed hashes", "anchors": ["cachelib/common/hothash/HotHashDetector.h: HotHashDetector, l1HashFunction, l2HashFunction, calcMaintenanceInterval", "cachelib/common/hothash/HotHashDetector.cpp: bumpHash, isHotHash, doMaintenance, fixL2Holes"]}
{"id": "C63", "title": "A count-down latch releases exactly after its count and loses no wake-up", "statement": "CountDownLatch of any count n under any interleaving of wait, count_down, arrive_and_wait and try_wait by any number of threads, with wake-ups without cause: wait or arrive_and_wait returns, and count_down or try_wait answers true, only after count_down or arrive_and_wait were called at least n times. try_wait answers false only before n such calls have returned, count_down only if at least one call besides it is missing. Once n such calls were made, an execution that cannot go on has returned from every call, and without new calls and causeless wake-ups at most n * (threads + 1) + 3 * threads steps are possible: nobody waits for ever.", "quantifier": "all counts, all numbers of threads, all schedules and causeless wake-ups", "why_tests_cant": "the notification is sent after the lock is released, and waiters may check, sleep and wake at any point in between: a lost wake-up shows only under one schedule", "anchors": ["cachelib/common/CountDownLatch.h: CountDownLatch", "cachelib/common/CountDownLatch.cpp: wait, count_down, arrive_and_wait, try_wait"]}
{"id": "C64", "title": "The reuse time policy reinserts exactly the items whose last two tracked accesses are recent enough", "statement": "ReuseTimeReinsertionPolicy with any number of buckets and bucket size (window below 2^31 ticks) and any threshold: shouldReinsert never fails a check and answers true exactly if the key is in the index, the item is not expired, the last tracked access is at most the threshold ago, counted in whole buckets, and so is the access before it from the last one, if there is one. After any timely history of lookups, an item whose key was looked up in two tracked periods i < j before now, with (i + 1) and (j - i) buckets at most the threshold, is reinserted, whatever false positives the Bloom filters give.", "quantifier": "all configurations, thresholds and access vectors; all timely histories of lookups, all Bloom filter hash functions", "why_tests_cant": "tracked accesses contain false positives that depend on all other keys; that they cannot turn two recent accesses into a rejection has to hold for every such vector", "anchors": ["cachelib/navy/block_cache/ReuseTimeReinsertionPolicy.cpp: shouldReinsert, getReuseTime, getPrevAccessBuckets", "cachelib/common/AccessTracker.h: AccessTrackerBase"]}
{"id": "C65", "title": "Memory to be given up is divided among the pools exactly and in proportion to their use", "statement": "calcNumSlabsToAdviseReclaim(n) for any set of pools with at least one slab in use never fails its check and returns a plan after which exactly n slabs have been given up in all: if fewer have been so far it only gives up, otherwise it only takes back. There are targets for the pools that add up to n, each less than one slab off the pool's share of n in proportion to its slabs in use, and the plan moves every pool only towards its target and never past it; so no pool is asked for more slabs than it uses (n up to those in use) or to take back more than it gave up. With no slab in use nothing is planned. The memory monitor raises n by at most one step, and not beyond the configured share of all slabs if all slabs asked for earlier were given up; lowering n never throws if as many were asked for as were given up.", "quantifier": "all numbers of pools, slabs in use and given up per pool, all n; all limits and steps", "why_tests_cant": "integer rounding has to distribute every remainder over every list of pools without failing the check of the sum; tests try a few pool sizes", "anchors": ["cachelib/allocator/memory/MemoryPoolManager.cpp: calcNumSlabsToAdviseReclaim, getTargetSlabsToAdvise", "cachelib/allocator/MemoryMonitor.cpp: adviseAwaySlabs, reclaimSlabs, updateNumSlabsToAdvise"]}
{"id": "C66", "title": "The memory monitor's rate limiter takes the mean rise over its window off every request", "statement": "RateLimiter with window w > 0: once more than w + 1 samples have been added, throttle(d) for d >= 0 is d minus the mean change per sample over the last w + 1 samples in the watched direction (rounded towards zero; no brake when the value moves the other way), and never below 0. So nothing is granted if the value rose by at least d per sample, and all of d if it did not rise. Before w + 1 samples have been added, d is granted if the value has moved the other way by at least w + 1 in all, and nothing otherwise. A window of 0 turns the limiter off. For every history, also with changing windows, throttle(d) is between 0 and d and monotone in d.", "quantifier": "all histories of samples, windows, directions and requests", "why_tests_cant": "the rate depends on an arbitrarily long history through the list of values; tests check two short sequences", "anchors": ["cachelib/allocator/MemoryMonitor.h: RateLimiter", "cachelib/allocator/MemoryMonitor.cpp: RateLimiter::addValue, RateLimiter::throttle"]}
{"id": "C67", "title": "Two keys compare equal exactly if their bytes are equal, and the comparison reads nothing else", "statement": "bytesEqual(a, b, len) for any len and any buffers of at least len readable bytes returns whether the first len bytes agree, and reads no byte beyond them. Key::operator== returns true exactly for keys with the same bytes, HashedKey::operator== exactly for the same bytes and hash, so for hashes from one function exactly for the same bytes.", "quantifier": "all lengths and contents", "why_tests_cant": "the comparison in steps of 8, 4, 2 and 1 bytes has to be right for every length and every position of a difference", "anchors": ["cachelib/common/BytesEqual.h: bytesEqual", "cachelib/allocator/KAllocation.h: KAllocation::Key", "cachelib/common/Hash.h: HashedKey"]}
