{
 "claims": [
  {
   "property": "C01",
   "status": "proved",
   "theorems": [
    "Verif.Refcount.handle_blocks_eviction",
    "Verif.Refcount.freed_iff_unreferenced",
    "Verif.Refcount.pinned_not_freed_by_others"
   ],
   "note": "Refcount.h; all interleavings of atomic steps; caller obligations (XDCHECKs) are the Legal predicate"
  },
  {
   "property": "C02",
   "status": "proved",
   "theorems": [
    "Verif.Refcount.access_count_exact",
    "Verif.Refcount.errors_exact",
    "Verif.Refcount.inc_dec_word",
    "Verif.Refcount.casLoop_linearizes"
   ],
   "note": "all 2^32 words, all histories"
  },
  {
   "property": "C03",
   "status": "proved",
   "theorems": [
    "Verif.Refcount.exclusive_excludes",
    "Verif.Refcount.exclusive_granted_iff"
   ],
   "note": ""
  },
  {
   "property": "C04",
   "status": "proved",
   "theorems": [
    "Verif.Refcount.flag_independent",
    "Verif.Refcount.flags_track_history"
   ],
   "note": ""
  },
  {
   "property": "C05",
   "status": "proved",
   "theorems": [
    "Verif.DList.dlist_refines_sequence",
    "Verif.DList.iterator_steps",
    "Verif.DList.disjoint_list_unaffected",
    "Verif.DList.removed_node_clean",
    "Verif.DList.save_restore"
   ],
   "note": "DList.h statement by statement"
  },
  {
   "property": "C06",
   "status": "proved",
   "theorems": [
    "Verif.SList.slist_refines",
    "Verif.SList.slist_errors_exact",
    "Verif.SList.foreign_iterator_rejected",
    "Verif.SList.remove_returns_next"
   ],
   "note": "SList.h statement by statement, several lists sharing one heap"
  },
  {
   "property": "C07",
   "status": "proved",
   "theorems": [
    "Verif.HashTable.linearizable",
    "Verif.HashTable.quiescent",
    "Verif.HashTable.no_deadlock"
   ],
   "note": "Any number of threads, any keys, any hash function, bucket and lock counts; single loads and stores under bucket reader/writer locks. Excluded (see Legal): adding one node by two operations at once."
  },
  {
   "property": "C08",
   "status": "proved",
   "theorems": [
    "Verif.HashTable.iteration",
    "Verif.HashTable.iterate_once",
    "Verif.HashTable.iterate_all",
    "Verif.HashTable.iterate_sound",
    "Verif.HashTable.lock_group",
    "Verif.HashTable.lock_group_nodup",
    "Verif.HashTable.group_once",
    "Verif.HashTable.AExec.keys"
   ],
   "note": "Iterator and LockGroupIterator over arbitrary answers of bucket reads, each read atomic by C07."
  },
  {
   "property": "C09",
   "status": "proved",
   "theorems": [
    "Verif.MMLru.lru_refines",
    "Verif.MMLru.insertion_point",
    "Verif.MMLru.lru_order",
    "Verif.MMLru.recordAccess_spec",
    "Verif.MMLru.evict_order",
    "Verif.MMLru.save_restore"
   ],
   "note": "All histories of critical sections incl. unlocked markAccessed and late promotion, all insertion point specs and reconfigurations. restore_stops_reconfigure records that the reconfigure interval is lost by save/restore."
  },
  {
   "property": "C10",
   "status": "proved",
   "theorems": [
    "Verif.MM2Q.two_q_refines",
    "Verif.MM2Q.queue_bounds",
    "Verif.MM2Q.hot100_single_queue",
    "Verif.MM2Q.checkLruSizes_spec",
    "Verif.MM2Q.recordAccess_spec",
    "Verif.MM2Q.evict_order",
    "Verif.MM2Q.save_restore",
    "Verif.MM2Q.restore_three",
    "Verif.MM2Q.stale_flags_misplace"
   ],
   "note": "MM2Q::Container refines three recency sequences with tails; critical sections atomic; size_t arithmetic does not overflow"
  },
  {
   "property": "C11",
   "status": "proved",
   "theorems": [
    "Verif.Sketch.sketch_never_undercounts",
    "Verif.Sketch.index_in_bounds",
    "Verif.Sketch.resetCount_no_underflow",
    "Verif.Sketch.resetCount_spec",
    "Verif.Sketch.reset_undercounts",
    "Verif.Sketch.index_out_of_bounds"
   ],
   "note": "floating-point decay is a monotone parameter; width*depth < 2^32 (negative theorem: constructor does not check it); negative theorem for per-key reset"
  },
  {
   "property": "C12",
   "status": "proved",
   "theorems": [
    "Verif.Bloom.no_false_negatives",
    "Verif.Bloom.recover_persist",
    "Verif.Bloom.cleared_denies",
    "Verif.Bloom.make_refuses",
    "Verif.Bloom.recover_hash_count_false_negative"
   ],
   "note": "byte-level; negative theorem: recover does not check the number of hashes"
  },
  {
   "property": "C13",
   "status": "proved",
   "theorems": [
    "Verif.CPtr.roundtrip4",
    "Verif.CPtr.roundtrip5",
    "Verif.CPtr.null_roundtrip",
    "Verif.CPtr.compress_injective",
    "Verif.CPtr.outside_rejected",
    "Verif.CPtr.save_restore_ptr",
    "Verif.CPtr.tier_independent4",
    "Verif.CPtr.tier_independent5",
    "Verif.CPtr.slab_index_bound"
   ],
   "note": "Compressed pointers of 4 and 5 bytes, all tiers; alt (benchmark) variant separately shown partial + counterexample."
  },
  {
   "property": "C14",
   "status": "proved",
   "theorems": [
    "Verif.AllocClass.live_disjoint",
    "Verif.AllocClass.alloc_fresh",
    "Verif.AllocClass.alloc_free_total",
    "Verif.AllocClass.alloc_none_full",
    "Verif.AllocClass.fast_none_full",
    "Verif.AllocClass.stats_active",
    "Verif.AllocClass.aborted_release_loses_memory",
    "Verif.MemPool.class_reach",
    "Verif.MemPool.classes_apart",
    "Verif.MemPool.live_apart",
    "Verif.MemPool.free_routes",
    "Verif.MemPool.alloc_apart",
    "Verif.MemPool.slab_one_place"
   ],
   "note": "Per class (AllocClass) and for the whole allocator (MemPool): slab allocator, pools, classes and their movements, any number of threads cut at critical sections and atomic accesses"
  },
  {
   "property": "C15",
   "status": "proved",
   "theorems": [
    "Verif.MemPool.sizes_within",
    "Verif.MemPool.pool_limit",
    "Verif.MemPool.class_limit",
    "Verif.MemPool.grant_within",
    "Verif.MemPool.counter_exact",
    "Verif.MemPool.advised_exact",
    "Verif.MemPool.refused_exhausted",
    "Verif.MemPool.free_list_release_breaks_limit",
    "Verif.MemPool.advise_race_breaks_limit",
    "Verif.MemPool.reclaim_foreign_breaks_limit"
   ],
   "note": "The three *_breaks_limit theorems exhibit the histories excluded in the statement"
  },
  {
   "property": "C16",
   "status": "proved",
   "theorems": [
    "Verif.AllocClass.context_covers",
    "Verif.AllocClass.complete_spec",
    "Verif.AllocClass.released_empty",
    "Verif.AllocClass.abort_restores",
    "Verif.AllocClass.never_corrupt",
    "Verif.AllocClass.freed_iff",
    "Verif.AllocClass.forEach_covers",
    "Verif.AllocClass.release_ends"
   ],
   "note": "All interleavings of class critical sections (allocate, free, start/step/abort/complete of release, processAllocForRelease)"
  },
  {
   "property": "C17",
   "status": "proved",
   "theorems": [
    "Verif.KAlloc.accept_iff",
    "Verif.KAlloc.isKeyValid_agrees",
    "Verif.KAlloc.item_layout",
    "Verif.KAlloc.value_history",
    "Verif.KAlloc.changeKey_spec",
    "Verif.KAlloc.checked_in_bounds",
    "Verif.KAlloc.checked_exact",
    "Verif.KAlloc.chained_layout",
    "Verif.KAlloc.bytesEqual_iff",
    "Verif.KAlloc.keyEq_iff"
   ],
   "note": "Byte-level model of KAllocation, item and chained item layout, key comparison."
  },
  {
   "property": "C18",
   "status": "proved",
   "theorems": [
    "Verif.MemPool.classFor_none",
    "Verif.MemPool.classFor_some",
    "Verif.MemPool.generate_spec",
    "Verif.MemPool.generate_accepted",
    "Verif.MemPool.optimal_spec",
    "Verif.MemPool.even_spec"
   ],
   "note": "size*factor is an arbitrary function that does not decrease and fits in 32 bits; also the two other generators of sizes"
  },
  {
   "property": "C19",
   "status": "proved",
   "theorems": [
    "Verif.Ttl.find_not_expired",
    "Verif.Ttl.findFast_not_expired",
    "Verif.Ttl.sample_not_expired",
    "Verif.Ttl.find_expired_only_if_past",
    "Verif.Ttl.find_hit_if_not_past",
    "Verif.Ttl.no_ttl_never_expires",
    "Verif.Ttl.reap_exact",
    "Verif.Ttl.evict_writes_unexpired",
    "Verif.Ttl.update_exact",
    "Verif.Ttl.updateExpiryTime_exact",
    "Verif.Ttl.extendTTL_exact",
    "Verif.Ttl.allocate_exact",
    "Verif.Ttl.move_keeps_times",
    "Verif.Ttl.false_expiry_after_clock_set_back",
    "Verif.Ttl.allocate_wraps"
   ],
   "note": "Deadlines are a fold over the user's calls (Spec.due); every copy in RAM or NVM carries that deadline in every history. Hits are never past the deadline, whatever the clock does; no false expiry when the clock is not set back (counter-example otherwise)."
  },
  {
   "property": "C20",
   "status": "proved",
   "theorems": [
    "Verif.ChainedItem.C20_no_fault",
    "Verif.ChainedItem.C20_view_wf",
    "Verif.ChainedItem.C20_iteration_ends",
    "Verif.ChainedItem.C20_no_leak",
    "Verif.ChainedItem.C20_add",
    "Verif.ChainedItem.C20_add_not_chained",
    "Verif.ChainedItem.C20_pop",
    "Verif.ChainedItem.C20_add_pop",
    "Verif.ChainedItem.C20_replace",
    "Verif.ChainedItem.C20_replace_throws",
    "Verif.ChainedItem.C20_transfer",
    "Verif.ChainedItem.C20_drop",
    "Verif.ChainedItem.C20_evict",
    "Verif.ChainedItem.C20_move_child",
    "Verif.ChainedItem.C20_move_parent"
   ],
   "note": "All runs of chain operations, handle operations, evictions and slab releases; calls are atomic (chained-item lock), concurrency of the parent's exclusive mark is C43."
  },
  {
   "property": "C21",
   "status": "proved",
   "theorems": [
    "Verif.BigHash.new_spec",
    "Verif.BigHash.getFirst_spec",
    "Verif.BigHash.getNext_spec",
    "Verif.BigHash.view_spec",
    "Verif.BigHash.allocate_spec",
    "Verif.BigHash.removeMany_spec",
    "Verif.BigHash.remove_spec",
    "Verif.BigHash.removeUntil_spec",
    "Verif.BigHash.space_exact"
   ],
   "note": "byte-level BucketStorage; capacity < 2^32; allocation size < 2^32-4 (slotSize is a 32-bit sum)"
  },
  {
   "property": "C22",
   "status": "proved",
   "theorems": [
    "Verif.BigHash.find_spec",
    "Verif.BigHash.bremove_spec",
    "Verif.BigHash.binsert_spec",
    "Verif.BigHash.bhashes_spec",
    "Verif.BigHash.bucket_history",
    "Verif.BigHash.bucket_insert_find",
    "Verif.BigHash.brandom_wrong_key"
   ],
   "note": "entry must fit an empty bucket (the engine checks this); negative theorem: getRandomAlloc returns a wrong key"
  },
  {
   "property": "C23",
   "status": "proved",
   "theorems": [
    "Verif.BigHash.lookup_never_wrong",
    "Verif.BigHash.couldExist_no_false_negative",
    "Verif.BigHash.live_is_found",
    "Verif.BigHash.found_after_insert",
    "Verif.BigHash.insert_total",
    "Verif.BigHash.restart_recovers"
   ],
   "note": "BigHash engine: trace semantics with arbitrary device failures, damage, restart, reset. Buckets damaged undetectably (checksum collision) excluded; each operation atomic (holds bucket mutex)."
  },
  {
   "property": "C24",
   "status": "proved",
   "theorems": [
    "Verif.EnginePair.lookup_allowed",
    "Verif.EnginePair.lookupSync_allowed",
    "Verif.EnginePair.after_insert_only_new",
    "Verif.EnginePair.after_remove_nothing",
    "Verif.EnginePair.couldExist_sound",
    "Verif.EnginePair.found_after_insert",
    "Verif.EnginePair.bighash_cfg",
    "Verif.EnginePair.ack_stored_no_retry",
    "Verif.EnginePair.acknowledged_but_stale"
   ],
   "note": "For any two engines meeting Contract (proved for BigHash and NoopEngine); requests of one key serialised (C32). Proved flaw: rejected insert + retried removal is acknowledged Ok (acknowledged_but_stale)."
  },
  {
   "property": "C25",
   "status": "proved",
   "theorems": [
    "Verif.NvmIndex.Sparse.sparse_is_map",
    "Verif.NvmIndex.Sparse.keyOf_eq_iff",
    "Verif.NvmIndex.Sparse.entries_exact",
    "Verif.NvmIndex.Sparse.entries_all",
    "Verif.NvmIndex.Sparse.entries_once",
    "Verif.NvmIndex.Sparse.size_exact",
    "Verif.NvmIndex.Sparse.recover_persist",
    "Verif.NvmIndex.Sparse.recover_more_fails",
    "Verif.NvmIndex.Sparse.recover_fewer_loses",
    "Verif.NvmIndex.Fixed.fixed_is_map",
    "Verif.NvmIndex.Fixed.keyOf_eq",
    "Verif.NvmIndex.Fixed.rounded_bounds",
    "Verif.NvmIndex.Fixed.rounded_overflows",
    "Verif.NvmIndex.Fixed.size_exact",
    "Verif.NvmIndex.Fixed.writes_own_shard",
    "Verif.NvmIndex.Fixed.reads_own_shard",
    "Verif.NvmIndex.Fixed.buckets_in_table",
    "Verif.NvmIndex.Fixed.small_shards_break",
    "Verif.NvmIndex.Fixed.ragged_shards_break",
    "Verif.NvmIndex.Fixed.odd_shards_share"
   ],
   "note": "SparseMapIndex is a map in every history, its iteration and size are exact, and it recovers what it persisted. FixedSizeIndex (handleOverflow off, at least 98 buckets per mutex dividing the table) is such a map that may forget a record only for an insertion that finds four other keys of its shard in its way; operations stay inside the shard they lock. *_break/_share/_overflows/_loses are findings."
  },
  {
   "property": "C26",
   "status": "proved",
   "theorems": [
    "Verif.BlockCache.slots_disjoint",
    "Verif.BlockCache.writers_disjoint",
    "Verif.BlockCache.reset_exclusive",
    "Verif.BlockCache.clean_fresh",
    "Verif.BlockCache.counters_exact",
    "Verif.BlockCache.buffers_attached",
    "Verif.BlockCache.flush_complete"
   ],
   "note": "All interleavings of inserts, lookups, removes, flushes and reclaims of Region/RegionManager/Allocator/BlockCache. slots_disjoint holds whatever fails; the others as long as no flush is given up and no reclaim fails. Faults.reset_while_open: with a given-up flush the claim is false of the code (finding)."
  },
  {
   "property": "C27",
   "status": "proved",
   "theorems": [
    "Verif.BlockCache.lookup_linearizable",
    "Verif.BlockCache.lookup_last_or_concurrent",
    "Verif.BlockCache.lookup_quiet"
   ],
   "note": "All interleavings, hash collisions, reclaim, reinsertion, removal; without faults (as C26). Faults.stale_after_giveUp and stale_after_exception show that with faults the code violates it (findings)."
  },
  {
   "property": "C28",
   "status": "partial",
   "theorems": [
    "Verif.NvmSync.find_after_write_partial",
    "Verif.NvmSync.ram_after_write_partial",
    "Verif.NvmSync.flash_after_write_partial",
    "Verif.NvmSync.joined_find_partial",
    "Verif.NvmSync.violated_evict_window",
    "Verif.NvmSync.violated_disable",
    "Verif.NvmSync.violated_overlap",
    "Verif.NvmSync.violated_join",
    "Verif.NvmSync.wrote_example"
   ],
   "note": "The full property is false of the code (see the four violated_* theorems, each an execution of the model). Proved for every number of threads and every interleaving when writes of the key do not overlap, the engine's eviction callback is atomic with the eviction, flash removes do not fail, and the find did not join a lookup already completed."
  },
  {
   "property": "C29",
   "status": "proved",
   "theorems": [
    "Verif.TombStones.isPresent_iff_alive",
    "Verif.TombStones.never_throws",
    "Verif.TombStones.no_leak",
    "Verif.TombStones.count_exact",
    "Verif.TombStones.guard_key_not_dangling",
    "Verif.TombStones.add_present",
    "Verif.TombStones.destroy_other"
   ],
   "note": "TombStones.h completely; guards in any number (<2^64) of slots, all legal C++ operation sequences"
  },
  {
   "property": "C30",
   "status": "proved",
   "theorems": [
    "Verif.InFlightPuts.one_token_per_key",
    "Verif.InFlightPuts.runs_ok",
    "Verif.InFlightPuts.execute_iff_valid",
    "Verif.InFlightPuts.execute_disappears",
    "Verif.InFlightPuts.destroy_disappears",
    "Verif.InFlightPuts.acquire_iff_free",
    "Verif.InFlightPuts.acquire_fail_noop",
    "Verif.InFlightPuts.destroy_finds_entry",
    "Verif.InFlightPuts.no_leak",
    "Verif.InFlightPuts.throw_preserves",
    "Verif.InFlightPuts.acquire_throw_leaks"
   ],
   "note": "InFlightPuts.h completely; histories in which no acquisition callback throws (acquire_throw_leaks shows why)"
  },
  {
   "property": "C31",
   "status": "proved",
   "theorems": [
    "Verif.NvmItem.reject_iff",
    "Verif.NvmItem.roundtrip",
    "Verif.NvmItem.construct1_eq",
    "Verif.NvmItem.flash_copy",
    "Verif.NvmItem.expired_iff"
   ],
   "note": "Byte-level; zero-blob records (never built) have no total size claim."
  },
  {
   "property": "C32",
   "status": "proved",
   "theorems": [
    "Verif.Sched.Pool.key_order",
    "Verif.Sched.Pool.one_at_a_time",
    "Verif.Sched.Pool.runs_after_earlier",
    "Verif.Sched.Pool.executed_once",
    "Verif.Sched.Pool.no_stuck",
    "Verif.Sched.Navy.key_order",
    "Verif.Sched.Navy.one_at_a_time",
    "Verif.Sched.Navy.runs_after_earlier",
    "Verif.Sched.Navy.executed_once",
    "Verif.Sched.Navy.dispatch_fifo",
    "Verif.Sched.Navy.outstanding_bounded",
    "Verif.Sched.Navy.no_stuck"
   ],
   "note": "Both the thread-pool and the fiber-based scheduler, all interleavings; no_stuck assumes that no request was thrown away after a stop."
  },
  {
   "property": "C33",
   "status": "proved",
   "theorems": [
    "Verif.RegionPolicy.fifo_order",
    "Verif.RegionPolicy.fifo_evicts_oldest",
    "Verif.RegionPolicy.fifo_persist_recover",
    "Verif.RegionPolicy.sfifo_evict",
    "Verif.RegionPolicy.sfifo_track",
    "Verif.RegionPolicy.sfifo_above",
    "Verif.RegionPolicy.sfifo_exact",
    "Verif.RegionPolicy.lru_evicts_least_recent",
    "Verif.RegionPolicy.lru_evict_none",
    "Verif.RegionPolicy.lru_safe"
   ],
   "note": "segment ratios with a sum below 2^32; time stamps and hit counters (statistics only) are not modelled"
  },
  {
   "property": "C34",
   "status": "proved",
   "theorems": [
    "Verif.FurcHash.furc_range",
    "Verif.FurcHash.furc_consistent",
    "Verif.FurcHash.furcHash_consistent",
    "Verif.FurcHash.furc_grow",
    "Verif.FurcHash.cache_bound",
    "Verif.FurcHash.gave_up_moves"
   ],
   "note": "for every initial hash and rehash function; furcHash_consistent for the Murmur hash of the code. len ≤ INT_MAX (166-167) is not modelled"
  },
  {
   "property": "C35",
   "status": "proved",
   "theorems": [
    "Verif.Cohort.switch_drains",
    "Verif.Cohort.switch_waits_for",
    "Verif.Cohort.reader_free",
    "Verif.Cohort.pending_exact"
   ],
   "note": "at most 2^31-1 readers at once (Cohort.h:123-124); memory order: the word is one atomic, all accesses to it are totally ordered"
  },
  {
   "property": "C36",
   "status": "proved",
   "theorems": [
    "Verif.CCache.fix_bucket_lru",
    "Verif.CCache.fix_bucket_space",
    "Verif.CCache.var_bucket_lru",
    "Verif.CCache.var_bucket_space",
    "Verif.CCache.ccache_fixed",
    "Verif.CCache.ccache_variable",
    "Verif.CCache.ccache_fixed_grow",
    "Verif.CCache.ccache_variable_grow",
    "Verif.CCache.furcPlace_ok"
   ],
   "note": "Buckets refine an explicit LRU list (bytes, offsets and header indices modelled); the table is a truthful map over any history of set/get/exists/del/purge/resize. Requests concurrent with a resize are not modelled."
  },
  {
   "property": "C37",
   "status": "proved",
   "theorems": [
    "Verif.Datatype.MapM.map_is_a_map",
    "Verif.Datatype.MapM.insert_succeeds",
    "Verif.Datatype.MapM.compact_succeeds"
   ],
   "note": "Map over Buffer/BufferManager/HashTable on bytes: every call sequence on a new container conforms to a map specification whatever the environment does (failing allocations, garbage memory), incl. moving to new items, publication and compaction; an explicit compact may report std::runtime_error (allowed by the header), after which nothing is claimed; progress theorems say when it does not."
  },
  {
   "property": "C38",
   "status": "proved",
   "theorems": [
    "Verif.Datatype.RMapM.rangemap_is_a_sorted_map",
    "Verif.Datatype.RMapM.insert_succeeds"
   ],
   "note": "RangeMap over Buffer/BufferManager/BinaryIndex on bytes: every call sequence conforms to a sorted map specification (iteration, range and approximate range lookups, removeBefore, compaction, moving to new items); range bounds must be in order, numEntries and numBytes positive."
  },
  {
   "property": "C39",
   "status": "proved",
   "theorems": [
    "Verif.Datatype.FA.fixed_array_is_an_array",
    "Verif.Datatype.FA.computeStorageSize_sufficient",
    "Verif.Datatype.FA.computeStorageSize_wraps"
   ],
   "note": "FixedSizeArray on bytes: every call sequence on any items conforms to arrays; the storage size is exact below 4 GB and wraps beyond (proved)."
  },
  {
   "property": "C40",
   "status": "proved",
   "theorems": [
    "Verif.RecordIO.roundtrip",
    "Verif.RecordIO.crash_prefix",
    "Verif.RecordIO.detects",
    "Verif.RecordIO.certified_same_header",
    "Verif.RecordIO.invalidate_ends",
    "Verif.RecordIO.not_end_of_read",
    "Verif.RecordIO.last_block_is_lost",
    "Verif.RecordIO.isEnd_too_early",
    "Verif.RecordIO.crash_mixes_streams"
   ],
   "note": "RecordIO framing on bytes: writer, destructor, reader, isEnd, invalidate; folly's header layout and hash functions are parameters. Three theorems are counterexamples to stronger claims."
  },
  {
   "property": "C41",
   "status": "proved",
   "theorems": [
    "Verif.Pieces.range_covered",
    "Verif.Pieces.fetching",
    "Verif.Pieces.no_range",
    "Verif.Pieces.start_beyond_end",
    "Verif.Pieces.reset_keeps_end",
    "Verif.Pieces.wraps"
   ],
   "note": "GenericPieces/RequestRange with 64-bit arithmetic; the last three are limits (a start beyond the object, reuse of an object with an open range, overflow)."
  },
  {
   "property": "C42",
   "status": "partial",
   "theorems": [
    "Verif.Rebalance.victim_ne_receiver",
    "Verif.Rebalance.victim_has_slabs_partial",
    "Verif.Rebalance.resize_victim_partial",
    "Verif.Rebalance.violated_min_slabs",
    "Verif.Rebalance.violated_no_fault",
    "Verif.Rebalance.lru_improves",
    "Verif.Rebalance.first_round",
    "Verif.Rebalance.receiver_holdoff",
    "Verif.Rebalance.holdoff_five_rounds",
    "Verif.Rebalance.no_fault_partial",
    "Verif.Rebalance.resize_no_fault_partial",
    "Verif.Rebalance.resize_finds",
    "Verif.Rebalance.freeAlloc_spec",
    "Verif.Rebalance.optimize_spec",
    "Verif.Rebalance.ranks_bounded",
    "Verif.Rebalance.optimize_complete",
    "Verif.Rebalance.allocation_size_largest",
    "Verif.Rebalance.limit_allocation_size",
    "Verif.Rebalance.limit_holdoff_evicting"
   ],
   "note": "victim ≠ receiver is proved for all strategies and all statistics. The slab requirement is false in general (violated_min_slabs: pickVictimByFreeMem dereferences end() of an empty set when every candidate evicted), so it is proved under the hypothesis Idle that excludes exactly that; also hold-off, absence of faults, fall-back strategies, PoolRebalancer::pickVictimByFreeAlloc and the pool optimizer"
  },
  {
   "property": "C43",
   "status": "proved",
   "theorems": [
    "Verif.CacheProto.no_fault",
    "Verif.CacheProto.handle_valid",
    "Verif.CacheProto.index_valid",
    "Verif.CacheProto.list_valid",
    "Verif.CacheProto.free_unreferenced",
    "Verif.CacheProto.count_covers",
    "Verif.CacheProto.quiet_exact",
    "Verif.CacheProto.no_leak",
    "Verif.CacheProto.taking_unheld",
    "Verif.CacheProto.freeing_unreferenced",
    "Verif.CacheProto.one_taker",
    "Verif.CacheProto.find_current",
    "Verif.CacheProto.waiters_served",
    "Verif.CacheProto.index_changes",
    "Verif.CacheProto.held_stays"
   ],
   "note": "Every run of any number of threads (Verif.CacheProto.Model), for users that do not insert one item twice at the same time and memory whose reference word is clean; both needed (exTwice, exDirty). NVM and chained items are not part of this model."
  },
  {
   "property": "C44",
   "status": "proved",
   "theorems": [
    "Verif.Trackers.splitset_capacity",
    "Verif.Trackers.splitset_no_false_positive",
    "Verif.Trackers.splitset_count_exact",
    "Verif.Trackers.splitset_insert",
    "Verif.Trackers.splitset_retains",
    "Verif.Trackers.splitset_rotation",
    "Verif.Trackers.splitset_zero_key_violated",
    "Verif.Trackers.splitset_rehash_forgets_violated",
    "Verif.Trackers.splitset_window_violated",
    "Verif.Trackers.TimeMap.timemap_get",
    "Verif.Trackers.TimeMap.timemap_set",
    "Verif.Trackers.TimeMap.timemap_capacity",
    "Verif.Trackers.TimeMap.timemap_recover_same",
    "Verif.Trackers.TimeMap.timemap_recover_other",
    "Verif.Trackers.Tracker.tracker_features",
    "Verif.Trackers.Tracker.tracker_record_and_populate",
    "Verif.Trackers.Tracker.tracker_rotated_counts",
    "Verif.Trackers.Tracker.tracker_skipped_period_violated"
   ],
   "note": "As stated in properties.jsonl; the *_violated theorems are concrete counterexamples to stronger readings (key with zero low bits, rebuild forgets keys, skipped periods). Races inside AccessTracker are not modelled."
  },
  {
   "property": "C45",
   "status": "proved",
   "theorems": [
    "Verif.AllocClass.save_load",
    "Verif.MemPool.restore_save",
    "Verif.MemPool.restore_other_size",
    "Verif.MemPool.save_refuses_open",
    "Verif.MemPool.restore_refused",
    "Verif.DList.save_restore",
    "Verif.SList.slist_refines",
    "Verif.MultiDList.save_restore",
    "Verif.MMLru.save_restore",
    "Verif.MM2Q.save_restore",
    "Verif.HashTable.linearizable_restarts",
    "Verif.HashTable.restore_save",
    "Verif.HashTable.restore_refuses",
    "Verif.HashTable.save_refuses_iterators",
    "Verif.HashTable.zero_magic_lost",
    "Verif.NvmIndex.Sparse.recover_persist",
    "Verif.NvmIndex.Fixed.restarts_map",
    "Verif.NvmIndex.Fixed.start_empty",
    "Verif.RegionPolicy.fifo_persist_recover",
    "Verif.Restart.RegionMgr.recover_placed",
    "Verif.Restart.RegionMgr.recover_persist",
    "Verif.Restart.RegionMgr.recover_order",
    "Verif.Restart.RegionMgr.recover_default_order",
    "Verif.Restart.RegionMgr.recover_refuses",
    "Verif.Bloom.recover_persist",
    "Verif.BigHash.restart_recovers",
    "Verif.BlockCache.restart_same_lookups",
    "Verif.BlockCache.restart_value",
    "Verif.BlockCache.wipe_empty",
    "Verif.BlockCache.Shutdown.one_worker_safe",
    "Verif.BlockCache.Shutdown.no_reinsertion_safe",
    "Verif.BlockCache.Shutdown.two_workers_unsafe",
    "Verif.BlockCache.Shutdown.stale_after_restart",
    "Verif.CPtr.save_restore_ptr",
    "Verif.Trackers.TimeMap.timemap_recover_same"
   ],
   "note": "Round trip per component and, for the indices and the block cache, the property over whole histories with restarts. Not modelled: thrift encoding, shared memory segments (see C50), statistics. The two exceptions in the statement are proved as counterexamples."
  },
  {
   "property": "C46",
   "status": "proved",
   "theorems": [
    "Verif.MultiDList.lists_refine",
    "Verif.MultiDList.iterator_order",
    "Verif.MultiDList.save_restore",
    "Verif.MultiDList.goBackward_skips_singleton"
   ],
   "note": "MultiDList over the pointer model of DList; operator-- is modelled and shown to skip singleton lists"
  },
  {
   "property": "C47",
   "status": "proved",
   "theorems": [
    "Verif.BlockCache.Address.powTwoAlign_least",
    "Verif.BlockCache.Address.serializedSize_fits",
    "Verif.BlockCache.Address.sizeHint_covers",
    "Verif.BlockCache.Address.decode_encode",
    "Verif.BlockCache.Address.decode_encode_all",
    "Verif.BlockCache.Address.encode_inj"
   ],
   "note": "decode_encode_all needs cacheSize < align*2^32; validation admits equality, for which last_address_wraps shows the address of the last slot wraps to 0 (finding)."
  },
  {
   "property": "C48",
   "status": "partial",
   "theorems": [
    "Verif.Sched.Pool.finish_waits",
    "Verif.Sched.Navy.finish_waits_partial",
    "Verif.Sched.Navy.finish_misses_spooled",
    "Verif.Sched.Navy.finish_misses_racing"
   ],
   "note": "Full statement proved for ThreadPoolJobScheduler. NavyRequestScheduler::finish does not have the property (witnesses proved); what it guarantees is finish_waits_partial."
  },
  {
   "property": "C49",
   "status": "proved",
   "theorems": [
    "Verif.Pieces.keys_distinct",
    "Verif.Pieces.getBaseKey_correct",
    "Verif.Pieces.getBaseKey_plain",
    "Verif.Pieces.groups_collide",
    "Verif.Pieces.getBaseKey_wrong"
   ],
   "note": "Key functions on character strings; the last two are limits."
  },
  {
   "property": "C50",
   "status": "proved",
   "theorems": [
    "Verif.WarmRestart.attach_exact",
    "Verif.WarmRestart.nvm_exact",
    "Verif.WarmRestart.clean_then_attach",
    "Verif.WarmRestart.clean_then_recover",
    "Verif.WarmRestart.lock_excludes",
    "Verif.WarmRestart.cycle",
    "Verif.WarmRestart.left",
    "Verif.WarmRestart.torn_refuses_all",
    "Verif.WarmRestart.posix_refuses_all",
    "Verif.WarmRestart.torn_reachable",
    "Verif.WarmRestart.stale_attach_reach",
    "Verif.WarmRestart.removes_anothers_segment",
    "Verif.WarmRestart.stale_nvm"
   ],
   "note": "Serial histories (one process at a time) with crashes between any two steps for attach/recover exactness; lock exclusion over every interleaving; the counterexamples for concurrent starts are proved as histories."
  },
  {
   "property": "C51",
   "status": "proved",
   "theorems": [
    "Verif.NavyDevice.read_exact",
    "Verif.NavyDevice.io_in_bounds",
    "Verif.NavyDevice.no_spurious_error",
    "Verif.NavyDevice.order_of_paths",
    "Verif.NavyDevice.prep_exact",
    "Verif.NavyDevice.alloc_usable",
    "Verif.NavyDevice.usable_accepted",
    "Verif.NavyDevice.fdp_parts_fit",
    "Verif.NavyDevice.fdp_reads_fit",
    "Verif.NavyDevice.fdp_default_not_split",
    "Verif.NavyDevice.Queue.depth_kept",
    "Verif.NavyDevice.Queue.no_lost_wakeup",
    "Verif.NavyDevice.Queue.handler_never_waits",
    "Verif.NavyDevice.contract_not_enough",
    "Verif.NavyDevice.view_pads",
    "Verif.NavyDevice.huge_read_reads_nothing",
    "Verif.NavyDevice.huge_write_writes_nothing",
    "Verif.NavyDevice.eagain_forever"
   ],
   "note": "Calls in progress must not overlap (unless both are reads), stay within the device, and not exceed 32 bits; with an encryptor, a block cipher per block with the offset as salt."
  },
  {
   "property": "C52",
   "status": "partial",
   "theorems": [
    "Verif.Destructor.at_most_once_partial",
    "Verif.Destructor.not_early_partial",
    "Verif.Destructor.not_in_nvm_partial",
    "Verif.Destructor.no_leak_partial",
    "Verif.Destructor.exactly_once_partial",
    "Verif.Destructor.never_overwrites_partial",
    "Verif.Destructor.fill_alive_partial",
    "Verif.Destructor.not_with_handle_partial",
    "Verif.Destructor.violated_reap",
    "Verif.Destructor.violated_move",
    "Verif.Destructor.violated_move_remove",
    "Verif.Destructor.violated_overlap",
    "Verif.Destructor.violated_reinsert",
    "Verif.Destructor.violated_late_callback",
    "Verif.Destructor.violated_failed_remove"
   ],
   "note": "The full claim is false of the code: violated_* are wrong executions, one for each assumption. Proved without those behaviours, for all executions of a key."
  },
  {
   "property": "C53",
   "status": "partial",
   "theorems": [
    "Verif.Async.C53_once_partial",
    "Verif.Async.C53_final_partial",
    "Verif.Async.C53_found_partial",
    "Verif.Async.C53_finishes_partial",
    "Verif.Async.C53_answered_partial",
    "Verif.Async.C53_nvm",
    "Verif.Async.C53_current_partial",
    "Verif.Async.C53_refs_partial",
    "Verif.Async.C53_own_handle_partial",
    "Verif.Async.forgotten_forever",
    "Verif.Async.violated_completes_on_overflow",
    "Verif.Async.violated_completes_on_overflow_nvm",
    "Verif.Async.violated_current_with_two_movers",
    "Verif.Async.violated_completes_after_chained_move",
    "Verif.Async.violated_miss_means_absent",
    "Verif.Async.Ctx.C53_callback",
    "Verif.Async.Ctx.C53_ctx_refs",
    "Verif.Async.Ctx.C53_unblocks",
    "Verif.Async.Ctx.violated_second_callback",
    "Verif.Async.Ctx.violated_overflow_in_set",
    "Verif.Async.Ctx.violated_callback_before_release"
   ],
   "note": "Proved for all interleavings in which no chained item is moved and reference counts do not overflow while waking up; that values are current also needs at most one move of the key at a time. Missing: those cases, in which the code does not satisfy the property (violated_*)."
  },
  {
   "property": "C54",
   "status": "proved",
   "theorems": [
    "Verif.MMLfu.Tiny.tiny_lfu_refines",
    "Verif.MMLfu.Tiny.check_config",
    "Verif.MMLfu.Tiny.iterator_complete",
    "Verif.MMLfu.Tiny.eviction_walk",
    "Verif.MMLfu.Tiny.add_keeps",
    "Verif.MMLfu.Tiny.main_kept",
    "Verif.MMLfu.Tiny.record_access",
    "Verif.MMLfu.Tiny.save_restore",
    "Verif.MMLfu.Tiny.violated_counters_fit",
    "Verif.MMLfu.Tiny.violated_growth_keeps_counts",
    "Verif.MMLfu.Tiny.violated_save_keeps_config",
    "Verif.MMLfu.Tiny.violated_refresh_minimum",
    "Verif.MMLfu.Tiny.violated_tiny_share"
   ],
   "note": "MMTinyLFU container, sequential critical sections; counters must fit in 2^32 (else violated_counters_fit)"
  },
  {
   "property": "C55",
   "status": "proved",
   "theorems": [
    "Verif.MMLfu.W.w_tiny_lfu_refines",
    "Verif.MMLfu.W.check_config",
    "Verif.MMLfu.W.iterator_complete",
    "Verif.MMLfu.W.eviction_walk",
    "Verif.MMLfu.W.add_keeps",
    "Verif.MMLfu.W.probation_kept",
    "Verif.MMLfu.W.access_keeps",
    "Verif.MMLfu.W.record_access",
    "Verif.MMLfu.W.save_restore",
    "Verif.MMLfu.W.violated_hit_protects",
    "Verif.MMLfu.W.violated_single_item_protected",
    "Verif.MMLfu.W.violated_protected_share",
    "Verif.MMLfu.W.violated_save_keeps_config"
   ],
   "note": "MMWTinyLFU container, sequential critical sections; counters must fit in 2^32"
  },
  {
   "property": "C56",
   "status": "partial",
   "theorems": [
    "Verif.Persist.round_trip_partial",
    "Verif.Persist.saved_format",
    "Verif.Persist.round_trip_whole_file",
    "Verif.Persist.cut_stream_rejected",
    "Verif.Persist.cut_save_rejected",
    "Verif.Persist.other_cache_rejected",
    "Verif.Persist.damaged_segment_rejected",
    "Verif.Persist.damaged_navy_file_rejected",
    "Verif.Persist.failed_restore",
    "Verif.Persist.restored_data_checked",
    "Verif.Persist.save_succeeds",
    "Verif.Persist.violated_large_navy_files",
    "Verif.Persist.violated_empty_state_file",
    "Verif.Persist.violated_damaged_length",
    "Verif.Persist.violated_state_file_unchecked",
    "Verif.Persist.violated_short_first_read"
   ],
   "note": "Proved for all images whose Navy files are smaller than 4 GB less a block, for all streams and cut points; for larger Navy files the code does not have the property (violated_large_navy_files). The other violated_* theorems are damage that is not covered by a checksum, and an empty state file."
  },
  {
   "property": "C57",
   "status": "proved",
   "theorems": [
    "Verif.Consist.reported_iff",
    "Verif.Consist.atomic_not_reported",
    "Verif.Consist.stale_reported",
    "Verif.Consist.violated_false_alarm_after_cleanup",
    "Verif.Consist.violated_exception_long_operation",
    "Verif.Consist.violated_atomic_complete"
   ],
   "note": "Histories of at most 480 events of one key (the capacity of the log, part of the statement); violated_* show what happens beyond it and what the check does not see."
  },
  {
   "property": "C58",
   "status": "proved",
   "theorems": [
    "Verif.Worker.work_alone",
    "Verif.Worker.work_serial",
    "Verif.Worker.stopped_no_work",
    "Verif.Worker.stopped_thread_ended",
    "Verif.Worker.stop_forever_true",
    "Verif.Worker.stop_false_running",
    "Verif.Worker.stop_returns",
    "Verif.Worker.wake_not_lost",
    "Verif.Worker.violated_overlapping_stop_hangs",
    "Verif.Worker.violated_overlapping_stop_false"
   ],
   "note": "All schedules; the claims marked so assume that calls of stop do not overlap, and both violated_* theorems show what happens otherwise."
  },
  {
   "property": "C59",
   "status": "proved",
   "theorems": [
    "Verif.NvmIndex.Fixed.overflow_defined",
    "Verif.NvmIndex.Fixed.overflow_no_stale",
    "Verif.NvmIndex.Fixed.overflow_keeps",
    "Verif.NvmIndex.Fixed.overflow_insert_found",
    "Verif.NvmIndex.Fixed.overflow_exact",
    "Verif.NvmIndex.Fixed.violated_restart",
    "Verif.NvmIndex.Fixed.violated_full"
   ],
   "note": "overflow blocks; sizes and hits of the records reported are not part of the claim; block bytes not modelled"
  },
  {
   "property": "C60",
   "status": "proved",
   "theorems": [
    "Verif.Ceb.block_refines",
    "Verif.Ceb.block_image",
    "Verif.Ceb.block_new",
    "Verif.Ceb.block_add",
    "Verif.Ceb.block_remove",
    "Verif.Ceb.block_get",
    "Verif.Ceb.violated_flash_block_finds_entries",
    "Verif.Ceb.violated_small_buffer",
    "Verif.Ceb.violated_removed_keys_free_room"
   ],
   "note": "Write mode only; from flash nothing is found (finding)."
  },
  {
   "property": "C61",
   "status": "proved",
   "theorems": [
    "Verif.Atm.reads_current",
    "Verif.Atm.reads_exact",
    "Verif.Atm.set_defined",
    "Verif.Atm.size_limited",
    "Verif.Atm.size_exact",
    "Verif.Atm.persist_in_bounds",
    "Verif.Atm.persist_sound",
    "Verif.Atm.persist_complete",
    "Verif.Atm.recover_spec",
    "Verif.Atm.restart_sound",
    "Verif.Atm.restart_exact",
    "Verif.Atm.recover_once",
    "Verif.Atm.limit",
    "Verif.Atm.demo_evict",
    "Verif.Atm.demo_persist",
    "Verif.Atm.violated_persist_omits_untouched_hash",
    "Verif.Atm.violated_dropped_below_limit",
    "Verif.Atm.violated_recover_counts_twice"
   ],
   "note": "All schedules; segments as values."
  },
  {
   "property": "C62",
   "status": "proved",
   "theorems": [
    "Verif.HotHash.calls_end",
    "Verif.HotHash.bump_sound",
    "Verif.HotHash.hot_sound",
    "Verif.HotHash.hot_complete",
    "Verif.HotHash.cools",
    "Verif.HotHash.levels_collide",
    "Verif.HotHash.violated_hot_after_one_bump",
    "Verif.HotHash.violated_hole_not_covered",
    "Verif.HotHash.violated_recorded_twice",
    "Verif.HotHash.violated_zero"
   ],
   "note": "Single-threaded class. violated_*: documented behaviour that does not hold."
  },
  {
   "property": "C63",
   "status": "proved",
   "theorems": [
    "Verif.Latch.released_after_n",
    "Verif.Latch.false_before_n",
    "Verif.Latch.no_lost_wakeup",
    "Verif.Latch.ends",
    "Verif.Latch.violated_destroy_after_wait"
   ],
   "note": "Executions as a labelled transition system; violated_destroy_after_wait: hazard for a latch destroyed by the waiter."
  },
  {
   "property": "C64",
   "status": "proved",
   "theorems": [
    "Verif.Reuse.decision_exact",
    "Verif.Reuse.twice_recent",
    "Verif.Reuse.violated_false_positive_rejects",
    "Verif.Reuse.violated_int_reuse_time"
   ],
   "note": "Sequential, on the tracker model of C44; index lookup and expiry are inputs."
  },
  {
   "property": "C65",
   "status": "proved",
   "theorems": [
    "Verif.Advise.targets_fair",
    "Verif.Advise.plan_exact",
    "Verif.Advise.plan_feasible",
    "Verif.Advise.plan_idle",
    "Verif.Advise.advise_limit",
    "Verif.Advise.advise_step",
    "Verif.Advise.reclaim_ok",
    "Verif.Advise.violated_limit",
    "Verif.Advise.violated_reclaim"
   ],
   "note": "Sequential arithmetic on a snapshot of the pools; no 64-bit overflow."
  },
  {
   "property": "C66",
   "status": "proved",
   "theorems": [
    "Verif.Rate.throttle_exact",
    "Verif.Rate.throttle_filling",
    "Verif.Rate.throttle_off",
    "Verif.Rate.throttle_stop",
    "Verif.Rate.throttle_free",
    "Verif.Rate.throttle_bounds",
    "Verif.Rate.throttle_mono",
    "Verif.Rate.violated_first_window",
    "Verif.Rate.violated_insufficient_samples",
    "Verif.Rate.violated_shrink"
   ],
   "note": "Sequential; unbounded integers."
  },
  {
   "property": "C67",
   "status": "proved",
   "theorems": [
    "Verif.Bytes.bytesEqual_exact",
    "Verif.Bytes.bytesEqual_iff",
    "Verif.Bytes.bytesEqual_local",
    "Verif.Bytes.keyEq_exact",
    "Verif.Bytes.hashedKey_exact",
    "Verif.Bytes.hashedKey_key"
   ],
   "note": "memcmp of the C library by its specification."
  }
 ]
}