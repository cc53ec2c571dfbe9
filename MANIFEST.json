{
 "claims": [
  {
   "property": "C01",
   "status": "proved",
   "theorems": [
    "Kno.Bytes.varint_roundtrip",
    "Kno.Bytes.varint_roundtrip_mod",
    "Kno.Bytes.varint_injective",
    "Kno.Bytes.varint_size",
    "Kno.Bytes.varint_prefix",
    "Kno.Bytes.varint_roundtrip_violated"
   ],
   "note": "Proved for every n < 2^63 (the range of the statement) and every following byte string; the exact result (low 63 bits) is proved for all n < 2^64, and varint_roundtrip_violated shows that the top bit is lost from 2^63 on."
  },
  {
   "property": "C02",
   "status": "partial",
   "theorems": [
    "Kno.Bytes.word4_roundtrip",
    "Kno.Bytes.word8_roundtrip",
    "Kno.Bytes.word4_bigEndian",
    "Kno.Bytes.word8_bigEndian",
    "Kno.Bytes.flipWord_involutive",
    "Kno.Bytes.flipWord_bytes",
    "Kno.Bytes.flipShort_involutive",
    "Kno.Bytes.flipWord8_bytes_partial",
    "Kno.Bytes.flipWord8_involutive_violated"
   ],
   "note": "Words round-trip and are big-endian; 16- and 32-bit flips are right; the 64-bit flip in bufio.h is wrong (violated witness) and only its low six bytes are proved."
  },
  {
   "property": "C03",
   "status": "partial",
   "theorems": [
    "Kno.Bytes.runOps_content",
    "Kno.Bytes.runOps_memory",
    "Kno.Bytes.runOps_failed_flush_violated"
   ],
   "note": "Any sequence of writes into a growable buffer whose flush (if any) succeeds; when flush fails the code writes past the block (violated witness)."
  },
  {
   "property": "C04",
   "status": "partial",
   "theorems": [
    "Kno.DType.round_trip_partial",
    "Kno.DType.stream_round_trip_partial",
    "Kno.DType.encodings_differ",
    "Kno.DType.schemap_as_slotmap_partial",
    "Kno.DType.default_violated",
    "Kno.DType.schemap_violated",
    "Kno.DType.compound_vector_violated",
    "Kno.DType.compound_uuid_violated",
    "Kno.DType.hashtable_empty_violated",
    "Kno.DType.big_character_violated",
    "Kno.DType.mystery_256_violated",
    "Kno.DType.mystery_kno_violated"
   ],
   "note": "Round trip with any bytes following, for every value except those the code gets wrong (each exclusion has a counterexample). Choices are rebuilt by any order-independent constructor; Kno.DType.choiceOf_lawful instantiates it with the model of kno_init_choice."
  },
  {
   "property": "C05",
   "status": "partial",
   "theorems": [
    "Kno.DType.truncated_tainted_partial",
    "Kno.DType.truncated_scalar_partial",
    "Kno.DType.truncated_vector_violated",
    "Kno.DType.truncated_string_violated",
    "Kno.DType.truncated_hashtable_violated"
   ],
   "note": "Proved: no clean value for values without hashtables; EOD or error for values not made of others. The full statement is false of the code."
  },
  {
   "property": "C06",
   "status": "partial",
   "theorems": [
    "Kno.DType.size_exact_partial",
    "Kno.DType.size_serialisable",
    "Kno.DType.compound_size_violated",
    "Kno.XType.size_exact_partial",
    "Kno.XType.size_exact_writable",
    "Kno.XType.vector_size_violated",
    "Kno.XType.schemap_size_violated"
   ],
   "note": "Exact, or failure reported, for DTypes except compounds with members that cannot be written and for XTypes except vectors and schemaps with such members; negations proved for those."
  },
  {
   "property": "C07",
   "status": "partial",
   "theorems": [
    "Kno.XType.round_trip_partial",
    "Kno.XType.encodings_differ",
    "Kno.XType.schemap_as_slotmap_partial",
    "Kno.XType.void_violated",
    "Kno.XType.uuid_violated",
    "Kno.XType.schemap_violated",
    "Kno.XType.hashset_violated",
    "Kno.XType.xtype_compound_violated"
   ],
   "note": "Full round trip for all Serialisable values; #void, UUIDs, schemaps, non-empty hashsets and xtype compounds do not round trip in the code (negations proved). Timestamps, regexps and types with dump functions not modelled."
  },
  {
   "property": "C08",
   "status": "partial",
   "theorems": [
    "Kno.XType.refs_round_trip_partial",
    "Kno.XType.refs_session_partial",
    "Kno.XType.init_ok",
    "Kno.XType.write_defined",
    "Kno.XType.embed_round_trip_partial",
    "Kno.XType.embed_growing_violated",
    "Kno.XType.no_room_violated",
    "Kno.XType.copy_violated"
   ],
   "note": "Proved for Serialisable values with any consistent table, growing or not, single values and sessions; embedding proved when the table does not grow, negation proved when it does."
  },
  {
   "property": "C09",
   "status": "partial",
   "theorems": [
    "Kno.XType.truncated_tainted_partial",
    "Kno.XType.truncated_reported_partial",
    "Kno.XType.truncated_reported_refs_partial",
    "Kno.XType.truncated_vector_violated",
    "Kno.XType.truncated_string_violated",
    "Kno.XType.truncated_slotmap_violated",
    "Kno.XType.truncated_slotmap_dangling_violated",
    "Kno.XType.truncated_compound_violated",
    "Kno.XType.truncated_reference_violated"
   ],
   "note": "Scalars always report truncation; composite values without slotmaps, hashtables and empty compounds never come back unmarked; the stronger statement is false of the code (negations proved)."
  },
  {
   "property": "C10",
   "status": "partial",
   "theorems": [
    "Kno.Compare.compare_antisymm_partial",
    "Kno.Compare.compare_trans_partial",
    "Kno.Compare.compare_eq_iff_equal_partial",
    "Kno.Compare.equal_iff_contents_partial",
    "Kno.Compare.compare_functions_agree_partial",
    "Kno.Compare.compare_codes_agrees_partial",
    "Kno.Compare.equal_refl_partial",
    "Kno.Compare.equal_symm_partial",
    "Kno.Compare.equal_trans_partial",
    "Kno.Compare.equal_congr_partial",
    "Kno.Compare.elements_compare",
    "Kno.Compare.secret_equal_violated",
    "Kno.Compare.nan_equal_violated",
    "Kno.Compare.complex_equal_violated",
    "Kno.Compare.complex_trans_violated",
    "Kno.Compare.complex_magnitude_violated",
    "Kno.Compare.opaque_cycle_violated",
    "Kno.Compare.prechoice_compare_violated",
    "Kno.Compare.prechoice_agree_violated",
    "Kno.Compare.string_nul_violated",
    "Kno.Compare.maxfixnum_equal_violated"
   ],
   "note": "Total order agreeing with EQUAL? on all values without NaNs, complex numbers, secrets, opaque compounds and accumulating choices, nested to any depth; each exclusion has a witness in which the code breaks the property. Conversion of exact numbers to doubles is assumed monotone (Env.Lawful). Strings are compared up to the first NUL, as strncmp does."
  },
  {
   "property": "C11",
   "status": "partial",
   "theorems": [
    "Kno.Choices.initChoice_canonical",
    "Kno.Choices.initChoice_unique",
    "Kno.Choices.initChoice_compress",
    "Kno.Choices.canon_ext",
    "Kno.Choices.initChoice_inPlace_partial",
    "Kno.Choices.initChoice_inPlace_violated",
    "Kno.Choices.initChoice_bigEmpty_violated",
    "Kno.Choices.initChoice_noRealloc_violated"
   ],
   "note": "Proved for every vector of every length, through quicksort, compression, block sort and merge. Missing because the code violates it: vectors filled in place above the block-sort threshold (elements are lost), and the empty choice among more elements than that threshold."
  },
  {
   "property": "C12",
   "status": "proved",
   "theorems": [
    "Kno.Choices.contains_iff",
    "Kno.Choices.choiceContains_iff"
   ],
   "note": "Both binary searches, on vectors of any length, and membership in any obtainable value including accumulations."
  },
  {
   "property": "C13",
   "status": "partial",
   "theorems": [
    "Kno.Choices.union_iff",
    "Kno.Choices.intersection_iff",
    "Kno.Choices.difference_iff",
    "Kno.Choices.overlap_iff",
    "Kno.Choices.subset_iff",
    "Kno.Choices.difference_pointer_violated",
    "Kno.Choices.intersection_emptyAccumulator_violated",
    "Kno.Choices.intersection_skips_violated",
    "Kno.Choices.subset_empty_violated"
   ],
   "note": "Union, intersection and difference proved exact and canonical for all obtainable values. Difference can compute a pointer outside its vector on the way (undefined in C; the theorem assumes wrapping addresses). Accumulators that hold fewer than two elements break intersection (witnesses)."
  },
  {
   "property": "C14",
   "status": "partial",
   "theorems": [
    "Kno.Choices.built_normalizes",
    "Kno.Choices.built_add_defined",
    "Kno.Choices.built_unique",
    "Kno.Choices.initPre_accumulates",
    "Kno.Choices.add_emptyAccumulator_violated",
    "Kno.Choices.add_sameSingleton_violated",
    "Kno.Choices.initPre_zero_violated"
   ],
   "note": "Proved for every sequence and nesting of additions of values, choices and accumulations built by CHOICE_ADD, and for accumulators started empty. Adding an accumulator holding fewer than two elements to another value is violated (witnesses)."
  },
  {
   "property": "C15",
   "status": "partial",
   "theorems": [
    "Kno.Tables.Slotmap.slotmap_is_map",
    "Kno.Tables.Slotmap.slotmap_accepts",
    "Kno.Tables.Slotmap.slotmap_store_get",
    "Kno.Tables.slotmap_reports_change_violated"
   ],
   "note": "Every history of stores, adds, drops, deletes, sorting and read-only switches refines an abstract map. The return values say whether a slot was made or found, not whether the table changed; that part of the property is refuted by slotmap_reports_change_violated."
  },
  {
   "property": "C16",
   "status": "partial",
   "theorems": [
    "Kno.Tables.Schemap.schemap_lookup_partial",
    "Kno.Tables.Schemap.schemap_is_map_partial",
    "Kno.Tables.Schemap.schemap_store_partial",
    "Kno.Tables.schemap_heapKeys_violated"
   ],
   "note": "Holds for schemas whose keys are immediate objects (symbols, OIDs, fixnums). Slots are looked up by address, so keys that are heap objects fail (schemap_heapKeys_violated)."
  },
  {
   "property": "C17",
   "status": "partial",
   "theorems": [
    "Kno.Tables.HT.hashtable_is_map",
    "Kno.Tables.HT.hashtable_size",
    "Kno.Tables.HT.hashtable_layout_invisible",
    "Kno.Tables.hashtable_emptyKey_violated",
    "Kno.Tables.hashtable_deadwood_violated"
   ],
   "note": "Every history, including growth at any point and different hash functions, refines an abstract map. Excluded: testing the empty key and tables with discarded cache values, both refuted."
  },
  {
   "property": "C18",
   "status": "partial",
   "theorems": [
    "Kno.Tables.EqHT.eqtable_is_map_partial",
    "Kno.Tables.eqtable_search_violated",
    "Kno.Tables.eqtable_contents_violated",
    "Kno.Tables.eqtable_growth_violated"
   ],
   "note": "Histories on immediate keys in which no bucket gets a fourth key; the rest is violated by the code."
  },
  {
   "property": "C19",
   "status": "partial",
   "theorems": [
    "Kno.Hashing.equal_hash_partial",
    "Kno.Hashing.hash_of_key_partial",
    "Kno.Hashing.schemap_hash_violated",
    "Kno.Hashing.string_nul_hash_violated",
    "Kno.Hashing.number_hash_violated"
   ],
   "note": "Proved for all values without NaNs, complex numbers, strings containing NUL bytes and schemaps, nested to any depth. Each excluded kind is refuted by a violated theorem."
  },
  {
   "property": "C20",
   "status": "partial",
   "theorems": [
    "Kno.Tables.HSet.hashset_is_set_partial",
    "Kno.Tables.HSet.hashset_contents_partial",
    "Kno.Tables.hashset_copy_partial",
    "Kno.Tables.hashset_dropAbsent_violated",
    "Kno.Tables.hashset_merge_violated",
    "Kno.Tables.hashset_intern_violated",
    "Kno.Tables.hashset_copy_violated"
   ],
   "note": "Holds for histories of additions, membership tests, growth, resets and drops of present elements. Drops of absent elements, merges, interning and copies are refuted by the violated theorems."
  },
  {
   "property": "C21",
   "status": "partial",
   "theorems": [
    "Kno.Tables.keysOf_spec",
    "Kno.Tables.get_union",
    "Kno.Tables.store_each",
    "Kno.Tables.add_each",
    "Kno.Tables.drop_each_partial",
    "Kno.Tables.test_some_partial",
    "Kno.Tables.hashtable_implements",
    "Kno.Tables.slotmap_implements",
    "Kno.Tables.drop_accumulated_violated",
    "Kno.Tables.add_bare_violated",
    "Kno.Tables.test_bare_violated"
   ],
   "note": "GET, STORE! and ADD! in full for every table type with those methods; DROP! and TEST for settled choices; accumulating choices and types without methods are violated."
  },
  {
   "property": "C22",
   "status": "partial",
   "theorems": [
    "Kno.OIDs.round_trip_partial",
    "Kno.OIDs.round_trip_later_partial",
    "Kno.OIDs.one_to_one_partial",
    "Kno.OIDs.many_buckets_violated",
    "Kno.OIDs.full_violated"
   ],
   "note": "proved for any sequence of addresses in at most 2^16 buckets of 2^20; beyond that the code violates it (witnesses)"
  },
  {
   "property": "C23",
   "status": "partial",
   "theorems": [
    "Kno.Registry.lookup_partial",
    "Kno.Registry.overlap_rejected_partial",
    "Kno.Registry.overlap_accepted_violated",
    "Kno.Registry.straddle_violated",
    "Kno.Registry.remainder_violated",
    "Kno.Registry.rejected_entered_violated",
    "Kno.Registry.huge_violated"
   ],
   "note": "lookup proved for any registrations interleaved with conversions, for disjoint pools within a bucket or of whole buckets, in at most 2^16 buckets; rejection proved when one of the pools spans buckets or the bases are equal; the code violates the rest (witnesses)"
  },
  {
   "property": "C24",
   "status": "partial",
   "theorems": [
    "Kno.Alloc.alloc_partial",
    "Kno.Alloc.failure_unchanged",
    "Kno.Alloc.mem_last_violated",
    "Kno.Alloc.zero_violated",
    "Kno.Alloc.negative_violated",
    "Kno.Alloc.wrap_violated",
    "Kno.Alloc.commit_race_violated"
   ],
   "note": "proved for any number of threads and any schedule, for pools up to 2^31 addresses, requests below 2^31 and commits that do not overlap with allocations; that failures change nothing is proved without restriction; the rest is violated by the code (witnesses)"
  },
  {
   "property": "C25",
   "status": "partial",
   "theorems": [
    "Kno.Pools.reads_partial",
    "Kno.Pools.unallocated_cached_violated",
    "Kno.Pools.reader_race_violated",
    "Kno.Pools.nolock_swapout_violated",
    "Kno.Pools.nolock_uncached_violated",
    "Kno.Pools.threadcache_violated",
    "Kno.Pools.threadcache_partial"
   ],
   "note": "Refinement to a map from OIDs to values for every guarded history; violated by reads before allocation, overlapping reads, pools without locks and thread caches."
  },
  {
   "property": "C26",
   "status": "partial",
   "theorems": [
    "Kno.Pools.commit_all",
    "Kno.Pools.commit_oids_partial",
    "Kno.Pools.commit_finished",
    "Kno.Pools.failed_commit_pending_partial",
    "Kno.Pools.failed_commit_others",
    "Kno.Pools.failure_reported_partial",
    "Kno.Pools.commit_settles",
    "Kno.Pools.commit_unmodified_violated",
    "Kno.Pools.sync_failure_violated"
   ],
   "note": "Holds for commits of everything and of OIDs that have changes; naming an OID without changes stores #void, and a failed sync is reported as success."
  },
  {
   "property": "C27",
   "status": "partial",
   "theorems": [
    "Kno.Pools.discard_partial",
    "Kno.Pools.discard_all_violated",
    "Kno.Pools.unlock_keeps_partial"
   ],
   "note": "Discarding ignores which OIDs are named: it discards every change of the pool."
  },
  {
   "property": "C28",
   "status": "partial",
   "theorems": [
    "Kno.KPool.crash_recovers_partial",
    "Kno.KPool.crash_atomic_partial",
    "Kno.KPool.commit_durable",
    "Kno.KPool.commit_undone",
    "Kno.KPool.commit_done",
    "Kno.KPool.readonly_violated",
    "Kno.KPool.rollback_failure_violated",
    "Kno.KPool.failed_grows_violated",
    "Kno.KPool.open_race_violated",
    "Kno.KPool.two_phase_violated"
   ],
   "note": "For every crash point, any subset of unsynced bytes and any number of crashes during recovery; not when the rollback file could not be saved, the pool is opened read-only, or another process opens it as the commit ends, for which there are counterexamples."
  },
  {
   "property": "C29",
   "status": "partial",
   "theorems": [
    "Kno.KPool.ref_round_trip_partial",
    "Kno.KPool.cached_ref",
    "Kno.KPool.positions_partial",
    "Kno.KPool.b40_size_violated",
    "Kno.KPool.b64_size_violated",
    "Kno.KPool.shared_ref_violated"
   ],
   "note": "Exact within the limits of the format and tables under 4GB; beyond them no error is reported, with counterexamples for each."
  },
  {
   "property": "C30",
   "status": "partial",
   "theorems": [
    "Kno.Index.reads_partial",
    "Kno.Index.reads_edits_partial",
    "Kno.Index.addInline_reads_iff",
    "Kno.Index.add_after_drop_violated",
    "Kno.Index.merge_violated"
   ],
   "note": "All histories of edits, reads, prefetches, swapping out and commits. False for inline additions of values waiting to be dropped and for merges into cached keys; proved with witnesses. Read-only indexes, the thread cache and delayed evaluation are not modelled."
  },
  {
   "property": "C31",
   "status": "partial",
   "theorems": [
    "Kno.Index.commit_partial",
    "Kno.Index.commit_failed",
    "Kno.Index.commit_stored_drop_violated",
    "Kno.Index.commit_skipped_violated",
    "Kno.Index.commit_unstable_violated",
    "Kno.Index.empty_store_stays"
   ],
   "note": "Every pending state without keys that have both a store and drops pending, drivers that keep the order of a key's entries. False otherwise, with witnesses. The driver is the schedule of kindex.c; a failed write is taken to leave the file as it was."
  },
  {
   "property": "C32",
   "status": "partial",
   "theorems": [
    "Kno.Index.concurrent_partial",
    "Kno.Index.store_during_commit_violated",
    "Kno.Index.add_during_commit_violated",
    "Kno.Index.drop_during_commit_violated"
   ],
   "note": "Any operations of other threads at three points of a commit, except stores to keys with pending edits and drops of stored keys before the merge, for which it is false. Each operation is taken to be atomic."
  },
  {
   "property": "C33",
   "status": "partial",
   "theorems": [
    "Kno.Index.prefetch_partial",
    "Kno.Index.prefetch_violated",
    "Kno.Index.prefetch_several_violated"
   ],
   "note": "Every state, every set of keys, unless keys have pending stores, the driver has fetchn and no key is cached, for which it is false."
  },
  {
   "property": "C34",
   "status": "partial",
   "theorems": [
    "Kno.Bloom.no_false_negatives_partial",
    "Kno.Bloom.check_iff_covered_partial",
    "Kno.Bloom.fresh_empty_partial",
    "Kno.Bloom.answers_persist_partial",
    "Kno.Bloom.calls_defined_partial",
    "Kno.Bloom.no_bits_violated",
    "Kno.Bloom.add_and_check_violated",
    "Kno.Bloom.threads_violated"
   ],
   "note": "Proved for every filter with a bit (or no hashes), every history of calls, every hash function. Filters with no bits, which some parameters give, divide by zero."
  },
  {
   "property": "C35",
   "status": "partial",
   "theorems": [
    "Kno.Walk.walk_visits",
    "Kno.Walk.walk_ends_partial",
    "Kno.Walk.walk_no_error",
    "Kno.Walk.inherit_exact",
    "Kno.Walk.inherits_iff",
    "Kno.Walk.path_iff_partial",
    "Kno.Walk.getstar_each_partial",
    "Kno.Walk.getstar_exact_partial",
    "Kno.Walk.getstar_ends_partial",
    "Kno.Walk.basis_exact_partial",
    "Kno.Walk.kleeneStar_exact",
    "Kno.Walk.kleeneStar_ends",
    "Kno.Walk.kleenePlus_exact_partial",
    "Kno.Walk.getstar_several_violated",
    "Kno.Walk.slotmap_root_violated",
    "Kno.Walk.path_error_violated",
    "Kno.Walk.basis_error_violated",
    "Kno.Walk.basis_value_violated",
    "Kno.Walk.kleenePlus_violated",
    "Kno.Walk.deep_violated"
   ],
   "note": "Exact and terminating for one slot and OID roots, given stack for the longest path; the code differs for several slots, slotmap roots, errors on the way, and chains deeper than the stack."
  },
  {
   "property": "C36",
   "status": "partial",
   "theorems": [
    "Kno.Apply.combos_iff",
    "Kno.Apply.combos_nodup",
    "Kno.Apply.combos_count",
    "Kno.Apply.call_partial",
    "Kno.Apply.call_choice_partial",
    "Kno.Apply.call_union",
    "Kno.Apply.call_empty",
    "Kno.Apply.call_arity",
    "Kno.Apply.call_whole",
    "Kno.Apply.eval_partial",
    "Kno.Apply.eval_arity",
    "Kno.Apply.traced_violated",
    "Kno.Apply.prechoice_violated",
    "Kno.Apply.quoted_violated",
    "Kno.Apply.prechoice_handler_violated",
    "Kno.Apply.xprune_violated",
    "Kno.Apply.prune_choice_violated"
   ],
   "note": "Proved for all functions that are not traced, all arities and all choices; prechoices given to kno_call directly, traced functions, and quoted choices with a choice of functions are handled differently by the code."
  },
  {
   "property": "C37",
   "status": "partial",
   "theorems": [
    "Kno.OIDs.Race.alone",
    "Kno.OIDs.Race.known_partial",
    "Kno.OIDs.Race.race_violated",
    "Kno.OIDs.Race.race_same_violated"
   ],
   "note": "holds for a thread running alone and, under any schedule, for addresses in known buckets; the table is not locked, so it is violated when two threads enter buckets (witnesses)"
  },
  {
   "property": "C38",
   "status": "partial",
   "theorems": [
    "Kno.Pools.Multi.each_pool_once",
    "Kno.Pools.Multi.success_reported_partial",
    "Kno.Pools.Multi.failure_single",
    "Kno.Pools.Multi.failure_hidden_violated"
   ],
   "note": "Division among pools is right; results that are negative are dropped when there are several OIDs."
  },
  {
   "property": "C39",
   "status": "partial",
   "theorems": [
    "Kno.KPool.commit_stores_partial",
    "Kno.KPool.history_stores_partial",
    "Kno.KPool.fetch_holds",
    "Kno.KPool.extras_partial",
    "Kno.KPool.large_value_violated",
    "Kno.KPool.unwritable_value_violated"
   ],
   "note": "For values within the size limit of the references and tables under 4GB; larger values and unwritable ones are lost while the commit succeeds."
  },
  {
   "property": "C40",
   "status": "partial",
   "theorems": [
    "Kno.Index.durable_partial",
    "Kno.Index.commit_skipped_violated"
   ],
   "note": "As C31."
  },
  {
   "property": "C41",
   "status": "partial",
   "theorems": [
    "Kno.Bloom.add_one_new_partial",
    "Kno.Bloom.add_choice_violated",
    "Kno.Bloom.count_violated"
   ],
   "note": "Holds for single values; the code gives the opposite answer for choices and always counts 0."
  },
  {
   "property": "C42",
   "status": "partial",
   "theorems": [
    "Kno.Bloom.restore_dump_violated"
   ],
   "note": "Fails for every filter in the code."
  },
  {
   "property": "C43",
   "status": "partial",
   "theorems": [
    "Kno.Bigint.add_exact",
    "Kno.Bigint.subtract_exact",
    "Kno.Bigint.negate_exact",
    "Kno.Bigint.multiply_exact",
    "Kno.Numbers.iplus_exact",
    "Kno.Numbers.isubtract_exact",
    "Kno.Numbers.imultiply_exact",
    "Kno.Numbers.plusPrim_partial",
    "Kno.Numbers.plusPrim_violated",
    "Kno.Numbers.minusPrim_partial",
    "Kno.Numbers.minusPrim_violated",
    "Kno.Numbers.timesPrim_exact"
   ],
   "note": "Exact for two arguments of any size and for any number of factors. Sums and differences of five or more fixnums can overflow (violated)."
  },
  {
   "property": "C44",
   "status": "partial",
   "theorems": [
    "Kno.Bigint.divide_exact",
    "Kno.Bigint.quotient_exact",
    "Kno.Bigint.remainder_exact",
    "Kno.Bigint.divide_by_zero",
    "Kno.Numbers.quotientPrim_partial",
    "Kno.Numbers.quotientPrim_violated",
    "Kno.Numbers.remainderPrim_partial",
    "Kno.Numbers.remainderPrim_violated",
    "Kno.Numbers.moduloPrim_exact",
    "Kno.Numbers.moduloPrim_zero"
   ],
   "note": "Exact for divisors other than 0, at every size. The remainder by 0, and the quotient of a bigint by 0, are undefined instead of errors (violated)."
  },
  {
   "property": "C45",
   "status": "partial",
   "theorems": [
    "Kno.Bigint.representation_unique",
    "Kno.Numbers.canonical_unique",
    "Kno.Numbers.ratio_unique",
    "Kno.Numbers.ratio_not_integer",
    "Kno.Numbers.canonical_partial",
    "Kno.Numbers.quotient_canonical",
    "Kno.Numbers.canonical_violated"
   ],
   "note": "Sums, differences and products equal to the largest or smallest fixnum are bigints (violated); all other results have the only form."
  },
  {
   "property": "C46",
   "status": "proved",
   "theorems": [
    "Kno.Numbers.numcompare_exact",
    "Kno.Numbers.minPrim_exact",
    "Kno.Numbers.maxPrim_exact",
    "Kno.Bigint.compare_exact",
    "Kno.Bigint.equal_exact",
    "Kno.Bigint.test_exact"
   ],
   "note": "Integers of every size and ratios; flonums and complex numbers are not exact numbers and not modelled."
  },
  {
   "property": "C47",
   "status": "partial",
   "theorems": [
    "Kno.Numbers.plus_exact",
    "Kno.Numbers.subtract_exact",
    "Kno.Numbers.multiply_exact",
    "Kno.Numbers.absPrim_exact",
    "Kno.Numbers.divide_partial",
    "Kno.Numbers.divide_violated",
    "Kno.Numbers.divide_negative_violated",
    "Kno.Numbers.divide_zero",
    "Kno.Numbers.divPrim_exact"
   ],
   "note": "Exact always; in normal form unless the divisor is negative (violated: (/ 4 -2) is the ratio -2/1)."
  },
  {
   "property": "C48",
   "status": "partial",
   "theorems": [
    "Kno.Numbers.gcd_exact",
    "Kno.Numbers.lcm_partial",
    "Kno.Numbers.lcm_violated"
   ],
   "note": "Everything but (lcm 0 0), which is an error (violated)."
  },
  {
   "property": "C49",
   "status": "partial",
   "theorems": [
    "Kno.Bigint.toDigits_exact",
    "Kno.Bigint.ofDigits_exact",
    "Kno.Bigint.digits_roundtrip",
    "Kno.Bigint.ofDigits_violated"
   ],
   "note": "Digit values, not characters. A digit equal to the radix is accepted."
  },
  {
   "property": "C50",
   "status": "partial",
   "theorems": [
    "Kno.Bigint.ofLong_partial",
    "Kno.Bigint.ofLong_violated",
    "Kno.Bigint.ofULong_partial",
    "Kno.Bigint.ofULong_violated",
    "Kno.Bigint.toLong_partial",
    "Kno.Bigint.toLong_violated",
    "Kno.Bigint.fitsWord_exact",
    "Kno.Bigint.fits_toLong",
    "Kno.Bigint.word_roundtrip"
   ],
   "note": "Fails for the least signed and the greatest unsigned word."
  },
  {
   "property": "C51",
   "status": "partial",
   "theorems": [
    "Kno.Numbers.powPrim_partial",
    "Kno.Numbers.powPrim_violated",
    "Kno.Numbers.floorPrim_exact",
    "Kno.Numbers.ceilingPrim_exact",
    "Kno.Numbers.truncatePrim_exact",
    "Kno.Numbers.roundPrim_partial",
    "Kno.Numbers.roundPrim_violated"
   ],
   "note": "Powers are exact except those of 0, which are all 1 (violated); floor, ceiling and truncate are right; round is right for positive numbers with an even denominator, and wrong for others (violated)."
  },
  {
   "property": "C52",
   "status": "partial",
   "theorems": [
    "Kno.KIndex.history_partial",
    "Kno.KIndex.commit_partial",
    "Kno.KIndex.reopened_partial",
    "Kno.KIndex.applySchedule_iff",
    "Kno.KIndex.b64_violated",
    "Kno.KIndex.readd_violated",
    "Kno.KIndex.large_bucket_violated",
    "Kno.KIndex.unknown_slot_violated"
   ],
   "note": "Any history of commits from a new file, failed ones rolled back, 32- and 40-bit references. Missing: 64-bit references, re-adding to emptied keys, buckets over 16MB (violated), unstable qsort (hypothesis)."
  },
  {
   "property": "C53",
   "status": "partial",
   "theorems": [
    "Kno.KIndex.fetchn_partial"
   ],
   "note": "For every file that a history as in C52 leaves, and every list of keys."
  },
  {
   "property": "C54",
   "status": "partial",
   "theorems": [
    "Kno.KIndex.keys_partial",
    "Kno.KIndex.sizes_partial",
    "Kno.KIndex.no_values_violated",
    "Kno.KIndex.duplicates_violated",
    "Kno.KIndex.fetchSize_violated"
   ],
   "note": "Every key with values is listed, each once, as many as the header says; sizes are bounds. Violated: keys without values are listed, duplicates count twice, fetchsize misreads."
  },
  {
   "property": "C55",
   "status": "partial",
   "theorems": [
    "Kno.KIndex.crash_atomic_partial",
    "Kno.KIndex.crash_point_partial",
    "Kno.KIndex.failed_restores",
    "Kno.KIndex.crash_keys_violated"
   ],
   "note": "Every crash point, torn write and repeated crash: values are all old or all new. Violated for the key count in the header."
  },
  {
   "property": "C56",
   "status": "partial",
   "theorems": [
    "Kno.Text.read_print_partial",
    "Kno.Text.read_print_rest_partial",
    "Kno.Text.print_injective_partial",
    "Kno.Text.number_name_violated",
    "Kno.Text.dot_name_violated",
    "Kno.Text.bar_name_violated",
    "Kno.Text.unquote_oid_violated",
    "Kno.Text.char_violated",
    "Kno.Text.fixnum_limit_violated",
    "Kno.Text.stale_violated",
    "Kno.Text.const_violated"
   ],
   "note": "Holds for every Plain value of any depth; symbols that look like numbers, bars in names, large characters, the limits of fixnums and some constants are not read back. Floats and types with their own printers are not modelled."
  },
  {
   "property": "C57",
   "status": "partial",
   "theorems": [
    "Kno.Text.layout_partial",
    "Kno.Text.layout_unique_partial",
    "Kno.Text.print_layout_partial",
    "Kno.Text.listing_partial",
    "Kno.Text.block_violated",
    "Kno.Text.line_violated",
    "Kno.Text.continuation_violated",
    "Kno.Text.separator_violated"
   ],
   "note": "Holds for white space, line comments and block comments followed by white space; a block comment swallows the character after it."
  },
  {
   "property": "C58",
   "status": "partial",
   "theorems": [
    "Kno.Text.argument_partial",
    "Kno.Text.argument_self_partial",
    "Kno.Text.mark_violated",
    "Kno.Text.negative_violated",
    "Kno.Text.trailing_violated"
   ],
   "note": "Holds for every Plain value that is not a string and for strings without special beginnings."
  },
  {
   "property": "C59",
   "status": "partial",
   "theorems": [
    "Kno.Streams.stream_partial",
    "Kno.Streams.write_after_read_violated",
    "Kno.Streams.end_violated",
    "Kno.Streams.flush_violated",
    "Kno.Streams.set_buf_violated",
    "Kno.Streams.stream_write_violated",
    "Kno.Streams.append_violated",
    "Kno.Streams.stream_read_violated",
    "Kno.Streams.stream_read_end_violated",
    "Kno.Streams.read_at_violated",
    "Kno.Streams.read_at_end_violated",
    "Kno.Streams.gap_violated",
    "Kno.Streams.write_at_violated"
   ],
   "note": "Refinement for all histories of safe operations; the code does otherwise for the unsafe ones, each shown by a history. Not modelled: mapped files, sockets, locks, failing system calls."
  },
  {
   "property": "C60",
   "status": "partial",
   "theorems": [
    "Kno.Streams.close_partial",
    "Kno.Streams.flush_partial"
   ],
   "note": "For histories of safe operations, see C59."
  },
  {
   "property": "C61",
   "status": "partial",
   "theorems": [
    "Kno.Streams.read_only_partial",
    "Kno.Streams.read_only_fails",
    "Kno.Streams.read_only_violated"
   ],
   "note": "The file never changes, for all histories; but words written at a position are reported as written."
  },
  {
   "property": "C62",
   "status": "partial",
   "theorems": [
    "Kno.Refs.kept_partial",
    "Kno.Refs.unchanged_partial",
    "Kno.Refs.within_short",
    "Kno.Refs.kept_violated",
    "Kno.Refs.raised_violated",
    "Kno.Refs.raised_decref_violated"
   ],
   "note": "For at most 2^25 - 2 references to one value at any time, which every history of at most that many operations meets; beyond, the violated theorems show values freed while held and live values taken for freed. Lock-free form; pairs and blocks of references."
  },
  {
   "property": "C63",
   "status": "partial",
   "theorems": [
    "Kno.Refs.freed_partial",
    "Kno.Refs.empty_partial",
    "Kno.Refs.finishes_partial",
    "Kno.Refs.freed_violated"
   ],
   "note": "Same limit on the number of references; beyond it freed_violated shows a string that is never freed."
  },
  {
   "property": "C64",
   "status": "partial",
   "theorems": [
    "Kno.Symbols.interned_partial",
    "Kno.Symbols.found_partial",
    "Kno.Symbols.find_partial",
    "Kno.Symbols.returns_partial",
    "Kno.Symbols.alone_calmly",
    "Kno.Symbols.one_thread_alone",
    "Kno.Symbols.size_violated",
    "Kno.Symbols.reread_violated",
    "Kno.Symbols.zero_same_violated"
   ],
   "note": "For names without zero bytes and histories in which no other thread gets between two named pairs of unlocked reads; the violated theorems show what happens otherwise. Calls are shown to return when they do not overlap with others. Sequentially consistent memory."
  },
  {
   "property": "C65",
   "status": "partial",
   "theorems": [
    "Kno.Symbols.named_partial",
    "Kno.Symbols.found_partial",
    "Kno.Symbols.zero_name_violated"
   ],
   "note": "Same hypotheses as C64; zero_name_violated shows a name with a zero byte."
  },
  {
   "property": "C66",
   "status": "partial",
   "theorems": [
    "Kno.Seqs.length_elts",
    "Kno.Seqs.elt_elts",
    "Kno.Seqs.slice_partial",
    "Kno.Seqs.slice_range_partial",
    "Kno.Seqs.rest_partial",
    "Kno.Seqs.elements_back",
    "Kno.Seqs.reverse_partial",
    "Kno.Seqs.append_partial",
    "Kno.Seqs.remove_elts",
    "Kno.Seqs.remove_if_partial",
    "Kno.Seqs.map_elts",
    "Kno.Seqs.reduce_elts",
    "Kno.Seqs.every_partial",
    "Kno.Seqs.some_partial",
    "Kno.Seqs.slice_violated",
    "Kno.Seqs.slice_compound_violated",
    "Kno.Seqs.reverse_nums_violated",
    "Kno.Seqs.append_violated",
    "Kno.Seqs.remove_if_violated",
    "Kno.Seqs.some_violated"
   ],
   "note": "False of the code for slices of lists with reversed ranges and of compounds, reverse of vectors of numbers, strings before packets, tests with errors, and empty results in some?; proved otherwise. Functions of several sequences (map) and tables or symbols in place of functions are not modelled."
  },
  {
   "property": "C67",
   "status": "partial",
   "theorems": [
    "Kno.Seqs.position_partial",
    "Kno.Seqs.position_same_partial",
    "Kno.Seqs.find_partial",
    "Kno.Seqs.rposition_partial",
    "Kno.Seqs.search_partial",
    "Kno.Seqs.match_partial",
    "Kno.Seqs.position_if_partial",
    "Kno.Seqs.position_end_violated",
    "Kno.Seqs.position_zero_violated",
    "Kno.Seqs.position_nums_violated",
    "Kno.Seqs.position_choice_violated",
    "Kno.Seqs.rposition_violated",
    "Kno.Seqs.rposition_empty_violated",
    "Kno.Seqs.search_string_violated",
    "Kno.Seqs.search_packet_violated",
    "Kno.Seqs.search_list_violated",
    "Kno.Seqs.match_violated",
    "Kno.Seqs.position_if_violated"
   ],
   "note": "False of the code in the cases shown by the violated theorems; proved for the keys, kinds and ranges stated by PosFits, RPosFits and SearchFits."
  },
  {
   "property": "C68",
   "status": "partial",
   "theorems": [
    "Kno.Seqs.secret_elements",
    "Kno.Seqs.secret_kept",
    "Kno.Seqs.secret_rest_violated"
   ],
   "note": "False of the code for rest, which returns a packet; elements, positions and slices are proved. Mapping over secrets is not modelled."
  },
  {
   "property": "C69",
   "status": "partial",
   "theorems": [
    "Kno.Envs.run_value_partial",
    "Kno.Envs.run_error_partial",
    "Kno.Envs.run_no_tail_partial",
    "Kno.Envs.run_tail_limit_partial",
    "Kno.Envs.empty_let_violated",
    "Kno.Envs.do_assignment_violated",
    "Kno.Envs.letrec_twice_violated",
    "Kno.Envs.let_star_violated"
   ],
   "note": "Values and errors which the evaluator returns are those of the definitional interpreter, for programs without empty or repeated bindings, with let* read as letrec and update expressions for all do variables; the excluded forms are wrong in the code, with witnesses. That the evaluator returns whenever the program has a value is not proved."
  },
  {
   "property": "C70",
   "status": "partial",
   "theorems": [
    "Kno.Envs.tail_call_reuses_partial",
    "Kno.Envs.tail_calls_bounded_partial"
   ],
   "note": "For stacks built the way the evaluator builds them; that it builds no others is by inspection."
  },
  {
   "property": "C71",
   "status": "partial",
   "theorems": [
    "Kno.TextMatch.match_exact_partial",
    "Kno.TextMatch.match_whole_partial",
    "Kno.TextMatch.match_sound_partial",
    "Kno.TextMatch.greedy_single",
    "Kno.TextMatch.described_within",
    "Kno.TextMatch.opt_violated",
    "Kno.TextMatch.plus_violated",
    "Kno.TextMatch.char_case_violated",
    "Kno.TextMatch.limit_violated",
    "Kno.TextMatch.class_end_violated",
    "Kno.TextMatch.chars_end_violated",
    "Kno.TextMatch.greedy_and_violated",
    "Kno.TextMatch.greedy_violated"
   ],
   "note": "Exact for patterns where the code is right (MOk); limit at the end of the text; violations of opt, +, characters, limits, isvowel, chars and greedy are proved with witnesses; symbols, regexes, extraction and bindings not modelled"
  },
  {
   "property": "C72",
   "status": "partial",
   "theorems": [
    "Kno.TextMatch.search_first_partial",
    "Kno.TextMatch.search_matches_partial",
    "Kno.TextMatch.search_char_violated",
    "Kno.TextMatch.search_case_violated",
    "Kno.TextMatch.search_not_violated",
    "Kno.TextMatch.search_pref_violated",
    "Kno.TextMatch.search_bol_violated",
    "Kno.TextMatch.search_end_violated"
   ],
   "note": "First match for patterns where searching is right (SOk); the other searchers are shown wrong by witnesses"
  },
  {
   "property": "C73",
   "status": "partial",
   "theorems": [
    "Kno.TextMatch.gather_partial",
    "Kno.TextMatch.gather_all_partial",
    "Kno.TextMatch.subst_partial",
    "Kno.TextMatch.slice_partial",
    "Kno.TextMatch.occurrences_exist_partial",
    "Kno.TextMatch.slices_make_text_partial",
    "Kno.TextMatch.subst_limit_violated",
    "Kno.TextMatch.slice_limit_violated"
   ],
   "note": "For patterns with exact matching and searching and the limit at the end; with limits text beyond them is returned (witnesses); replacement by strings only"
  },
  {
   "property": "C74",
   "status": "partial",
   "theorems": [
    "Kno.Finder.find_exact_partial",
    "Kno.Finder.find_again_partial",
    "Kno.Finder.indexed_not_found_violated",
    "Kno.Finder.found_once_violated",
    "Kno.Finder.stale_aggregate_violated",
    "Kno.Finder.writable_passed_over_violated"
   ],
   "note": "Exact for all histories whose calls on plain indexes are for slots these are for, and for searches in plain indexes and aggregates which do not cache and have no keyslot of their own; the other cases have counterexamples."
  },
  {
   "property": "C75",
   "status": "partial",
   "theorems": [
    "Kno.Finder.merge_partial",
    "Kno.Finder.merge_table_partial",
    "Kno.Finder.merge_same_keyslot_violated",
    "Kno.Finder.merge_from_keyslot_violated",
    "Kno.Finder.merge_choices_violated",
    "Kno.Finder.merge_cached_violated"
   ],
   "note": "Proved for hashtables and for the combinations of keyslots for which the code merges; counterexamples for the others and for cached keys."
  },
  {
   "property": "C76",
   "status": "partial",
   "theorems": [
    "Kno.Frames.answers_current_partial",
    "Kno.Frames.caches_unseen_partial",
    "Kno.Frames.added_seen_partial",
    "Kno.Frames.nested_stale_violated",
    "Kno.Frames.tested_stale_violated",
    "Kno.Frames.test_method_stale_violated",
    "Kno.Frames.mutual_order_violated"
   ],
   "note": "Proved for schemas whose methods only get slots without methods, for all histories; for methods which get slots with methods, or test, it is violated, with witnesses."
  },
  {
   "property": "C77",
   "status": "partial",
   "theorems": [
    "Kno.Json.unparse_denotes_partial",
    "Kno.Json.json_roundtrip_partial",
    "Kno.Json.unparse_injective_partial",
    "Kno.Json.choice_violated",
    "Kno.Json.astral_violated",
    "Kno.Json.symbol_violated",
    "Kno.Json.keys_roundtrip_violated",
    "Kno.Json.colonize_violated",
    "Kno.Json.cut_violated"
   ],
   "note": "Proved for integers, strings, booleans, vectors and tables of any depth (and symbols and OIDs with colonize). False for the rest, with witnesses: choices, characters from 0x10000, symbols, keys that change, strings with NUL."
  },
  {
   "property": "C78",
   "status": "partial",
   "theorems": [
    "Kno.Json.denotes_parse_partial",
    "Kno.Json.denotes_unique",
    "Kno.Json.vector_hangs_violated",
    "Kno.Json.accepts_violated",
    "Kno.Json.surrogates_violated",
    "Kno.Json.keys_violated"
   ],
   "note": "Every text of the grammar without fractions, exponents and surrogate pairs is read as its meaning. False for the rest: reading may never end, texts that are not JSON are accepted, surrogates are not combined, escapes in keys are lost."
  },
  {
   "property": "C79",
   "status": "partial",
   "theorems": [
    "Kno.Sorting.lispval_sort_partial",
    "Kno.Sorting.full_compare_consistent",
    "Kno.Sorting.sorted_partial",
    "Kno.Sorting.sorted_error",
    "Kno.Sorting.packet_order_violated",
    "Kno.Sorting.sorted_single_violated"
   ],
   "note": "For keys that are atomic values, real numbers other than NaNs, strings without NUL bytes, and pairs, vectors and choices of these; packets have no consistent order."
  },
  {
   "property": "C80",
   "status": "partial",
   "theorems": [
    "Kno.Sorting.pick_partial",
    "Kno.Sorting.pick_sorted_partial",
    "Kno.Sorting.pick_negative_violated",
    "Kno.Sorting.pick_mixed_violated",
    "Kno.Sorting.max_sorted_all_violated"
   ],
   "note": "For keys that are all natural fixnums or all other numbers; order proved when more candidates than asked for."
  },
  {
   "property": "C81",
   "status": "partial",
   "theorems": [
    "Kno.Sorting.largest_partial",
    "Kno.Sorting.largest_no_better_partial",
    "Kno.Sorting.largest_error",
    "Kno.Sorting.largest_types_violated",
    "Kno.Sorting.largest_magnitudes_violated"
   ],
   "note": "For magnitudes of the same type."
  },
  {
   "property": "C82",
   "status": "partial",
   "theorems": [
    "Kno.Sorting.getrange_partial",
    "Kno.Sorting.getrange_upto_partial",
    "Kno.Sorting.pick_n_partial",
    "Kno.Sorting.pick_n_random_partial",
    "Kno.Sorting.pick_n_all",
    "Kno.Sorting.pick_gt_partial",
    "Kno.Sorting.getrange_wide_violated",
    "Kno.Sorting.pick_n_offset_violated",
    "Kno.Sorting.pick_n_past_violated"
   ],
   "note": "Within 32 bits for exchanged bounds; offsets within the choice; exact numbers for pick>."
  },
  {
   "property": "C83",
   "status": "partial",
   "theorems": [
    "Kno.Sorting.exists_partial",
    "Kno.Sorting.forall_partial",
    "Kno.Sorting.quantifiers",
    "Kno.Sorting.skiperrs_single_violated"
   ],
   "note": "Full for exists and forall; exists/skiperrs may still report an error when no argument is a choice."
  },
  {
   "property": "C84",
   "status": "partial",
   "theorems": [
    "Kno.Memo.cachecall_transparent_partial",
    "Kno.Memo.cachecall_reports_partial",
    "Kno.Memo.remembered_once",
    "Kno.Memo.cleared_forgotten",
    "Kno.Memo.error_frees_table_violated",
    "Kno.Memo.nested_error_frees_table_violated",
    "Kno.Memo.void_not_remembered_violated",
    "Kno.Memo.equal_arguments_violated"
   ],
   "note": "For programs without errors and functions that do not tell EQUAL arguments apart; errors free the cache table."
  },
  {
   "property": "C85",
   "status": "partial",
   "theorems": [
    "Kno.Memo.ipeval_chained_partial",
    "Kno.Memo.ipeval_plain",
    "Kno.Memo.ipeval_two_keys_violated",
    "Kno.Memo.ipeval_uncached_index_violated",
    "Kno.Memo.ipeval_error_violated",
    "Kno.Memo.ipeval_remembers_wrong_violated",
    "Kno.Memo.ipeval_full_violated",
    "Kno.Memo.ipeval_leaves_right"
   ],
   "note": "For programs that get one key after another from caching indexes, or from indexes that are not delayed."
  },
  {
   "property": "C86",
   "status": "partial",
   "theorems": [
    "Kno.Promises.evaluated_once",
    "Kno.Promises.forced_value_partial",
    "Kno.Promises.force_after_resolved",
    "Kno.Promises.force_alone",
    "Kno.Promises.force_ends",
    "Kno.Promises.force_answers",
    "Kno.Promises.probe_value",
    "Kno.Promises.resolved_stays",
    "Kno.Promises.told_truly",
    "Kno.Promises.made_value",
    "Kno.Promises.forced_during_evaluation_violated",
    "Kno.Promises.exception_as_value_violated"
   ],
   "note": "Full except that a thread forcing during the evaluation of another is given an error."
  },
  {
   "property": "C87",
   "status": "partial",
   "theorems": [
    "Kno.LogIndex.log_history",
    "Kno.LogIndex.commit_as_seen",
    "Kno.LogIndex.fetch_size",
    "Kno.LogIndex.keys_all",
    "Kno.LogIndex.keys_partial",
    "Kno.LogIndex.keys_violated"
   ],
   "note": "Full for values and sizes; keys only if {} is never stored and the index is not empty. Values are those of the DType round trip; no key stored twice in a commit; sizes below 2^63."
  },
  {
   "property": "C88",
   "status": "partial",
   "theorems": [
    "Kno.LogIndex.crash_partial",
    "Kno.LogIndex.torn_end_violated",
    "Kno.LogIndex.unsynced_violated"
   ],
   "note": "Writes reach the disk in order and the end of the log is not written in part."
  },
  {
   "property": "C89",
   "status": "partial",
   "theorems": [
    "Kno.Quasi.quasiquote_partial",
    "Kno.Quasi.quasiquote_keys_partial",
    "Kno.Quasi.evaluated_partial",
    "Kno.Quasi.constant_same",
    "Kno.Quasi.one_template",
    "Kno.Quasi.tail_level_violated",
    "Kno.Quasi.nested_tail_violated",
    "Kno.Quasi.nested_vector_violated",
    "Kno.Quasi.arity_violated",
    "Kno.Quasi.key_error_violated"
   ],
   "note": "For templates without the shapes listed in `fine` (tails which are quasiquotations, nested dotted unquotations and vector splices, wrong arities); errors in computed keys are lost."
  },
  {
   "property": "C90",
   "status": "partial",
   "theorems": [
    "Kno.Errors.errors_partial",
    "Kno.Errors.clean_partial",
    "Kno.Errors.match_after_caught",
    "Kno.Errors.cleanups_done",
    "Kno.Errors.after_done",
    "Kno.Errors.pending_error_violated",
    "Kno.Errors.pending_error_crash_violated",
    "Kno.Errors.catch_break_violated",
    "Kno.Errors.ignore_break_violated",
    "Kno.Errors.report_value_violated",
    "Kno.Errors.throw_swallowed_violated",
    "Kno.Errors.throw_target_violated",
    "Kno.Errors.cleanup_throw_violated",
    "Kno.Errors.throw_again_violated",
    "Kno.Errors.after_error_violated",
    "Kno.Errors.throw_error_left_violated",
    "Kno.Errors.cleanup_match_violated",
    "Kno.Errors.irritant_leaves_pending"
   ],
   "note": "For programs which keep clear of the cases listed at `safe`, each of which has a counterexample; that cleanups are done is shown for all programs."
  },
  {
   "property": "C91",
   "status": "partial",
   "theorems": [
    "Kno.Uri.encode_partial",
    "Kno.Uri.encode_chars_partial",
    "Kno.Uri.decode_iff",
    "Kno.Uri.round_trip_partial",
    "Kno.Uri.encode_injective_partial",
    "Kno.Uri.encode_nul_violated",
    "Kno.Uri.encode_exact_partial",
    "Kno.Uri.encode_chars_exact_partial"
   ],
   "note": "Encoding is for texts without NUL; decoding for all texts."
  },
  {
   "property": "C92",
   "status": "partial",
   "theorems": [
    "Kno.Uri.query_partial",
    "Kno.Uri.form_partial",
    "Kno.Uri.form_round_trip_partial",
    "Kno.Uri.scripturl_partial",
    "Kno.Uri.form_secret",
    "Kno.Uri.query_buffer",
    "Kno.Uri.cookie_buffer_partial",
    "Kno.Uri.cookie_buffer_violated",
    "Kno.Uri.form_values_violated",
    "Kno.Uri.form_empty_violated",
    "Kno.Uri.query_bare_violated",
    "Kno.Uri.query_equals_violated",
    "Kno.Uri.scripturl_secret_violated",
    "Kno.Uri.scripturl_base_violated",
    "Kno.Uri.form_colon_violated",
    "Kno.Uri.query_last_empty_partial"
   ],
   "note": "For texts without NUL, one value for each parameter and a last value which is not empty; counterexamples for the others."
  },
  {
   "property": "C93",
   "status": "partial",
   "theorems": [
    "Kno.Uri.base_spec",
    "Kno.Uri.query_part_partial",
    "Kno.Uri.fragment_partial",
    "Kno.Uri.scheme_partial",
    "Kno.Uri.rejoin_partial",
    "Kno.Uri.host_partial",
    "Kno.Uri.path_partial",
    "Kno.Uri.parse_partial",
    "Kno.Uri.unparse_partial",
    "Kno.Uri.fragment_violated",
    "Kno.Uri.scheme_violated",
    "Kno.Uri.host_port_violated",
    "Kno.Uri.host_end_violated",
    "Kno.Uri.path_violated",
    "Kno.Uri.parse_userinfo_violated",
    "Kno.Uri.parse_port_violated",
    "Kno.Uri.parse_utf8_violated",
    "Kno.Uri.parse_end_violated",
    "Kno.Uri.parse_scheme_violated",
    "Kno.Uri.unparse_fragment_violated",
    "Kno.Uri.datauri_violated",
    "Kno.Uri.datauri_partial"
   ],
   "note": "Base, query, fragment and scheme with the exact texts for which they are right; parsing for the known schemes, without user names."
  },
  {
   "property": "C94",
   "status": "proved",
   "theorems": [
    "Kno.Numbers.iplus_exact",
    "Kno.Numbers.isubtract_exact",
    "Kno.Numbers.imultiply_exact",
    "Kno.Numbers.timesPrim_exact",
    "Kno.Numbers.quotient_canonical",
    "Kno.Numbers.moduloPrim_exact",
    "Kno.Numbers.gcd_exact"
   ],
   "note": "The part of C43, C44 and C48 without exceptions: two operands, divisors other than 0."
  },
  {
   "property": "C95",
   "status": "proved",
   "theorems": [
    "Kno.Numbers.plus_exact",
    "Kno.Numbers.subtract_exact",
    "Kno.Numbers.multiply_exact",
    "Kno.Numbers.absPrim_exact",
    "Kno.Numbers.floorPrim_exact",
    "Kno.Numbers.ceilingPrim_exact",
    "Kno.Numbers.truncatePrim_exact",
    "Kno.Numbers.ratio_unique"
   ],
   "note": "The part of C47 and C51 without exceptions."
  },
  {
   "property": "C96",
   "status": "proved",
   "theorems": [
    "Kno.Bigint.toDigits_exact",
    "Kno.Bigint.ofDigits_exact",
    "Kno.Bigint.digits_roundtrip"
   ],
   "note": "The part of C49 without exceptions: digits below the radix."
  },
  {
   "property": "C97",
   "status": "proved",
   "theorems": [
    "Kno.Choices.union_iff",
    "Kno.Choices.intersection_iff",
    "Kno.Choices.overlap_iff"
   ],
   "note": "The part of C13 without exceptions."
  },
  {
   "property": "C98",
   "status": "proved",
   "theorems": [
    "Kno.Choices.built_normalizes",
    "Kno.Choices.built_add_defined",
    "Kno.Choices.built_unique",
    "Kno.Choices.initPre_accumulates"
   ],
   "note": "The part of C14 without exceptions: accumulations begun by adding to a value or empty."
  },
  {
   "property": "C99",
   "status": "proved",
   "theorems": [
    "Kno.Tables.Slotmap.slotmap_is_map",
    "Kno.Tables.Slotmap.slotmap_accepts",
    "Kno.Tables.Slotmap.slotmap_store_get"
   ],
   "note": "The part of C15 without exceptions: contents, not the return values saying whether something changed."
  },
  {
   "property": "C100",
   "status": "proved",
   "theorems": [
    "Kno.Promises.evaluated_once",
    "Kno.Promises.force_after_resolved",
    "Kno.Promises.force_alone",
    "Kno.Promises.force_ends",
    "Kno.Promises.probe_value",
    "Kno.Promises.resolved_stays",
    "Kno.Promises.told_truly",
    "Kno.Promises.made_value"
   ],
   "note": "The part of C86 without exceptions."
  },
  {
   "property": "C101",
   "status": "proved",
   "theorems": [
    "Kno.Errors.cleanups_done",
    "Kno.Errors.after_done"
   ],
   "note": "The part of C90 without exceptions."
  },
  {
   "property": "C102",
   "status": "proved",
   "theorems": [
    "Kno.Uri.decode_iff"
   ],
   "note": "In full."
  },
  {
   "property": "C103",
   "status": "proved",
   "theorems": [
    "Kno.Walk.kleeneStar_exact",
    "Kno.Walk.kleeneStar_ends"
   ],
   "note": "The part of C35 without exceptions; the stack must hold the longest path."
  },
  {
   "property": "C104",
   "status": "proved",
   "theorems": [
    "Kno.Sorting.quantifiers"
   ],
   "note": "The part of C83 without exceptions: no failures."
  },
  {
   "property": "C105",
   "status": "proved",
   "theorems": [
    "Kno.Bytes.runOps_memory",
    "Kno.Bytes.word4_roundtrip",
    "Kno.Bytes.word8_roundtrip",
    "Kno.Bytes.word4_bigEndian",
    "Kno.Bytes.word8_bigEndian"
   ],
   "note": "The part of C02 and C03 without exceptions."
  },
  {
   "property": "C106",
   "status": "proved",
   "theorems": [
    "Kno.Seqs.length_elts",
    "Kno.Seqs.elt_elts",
    "Kno.Seqs.elements_back",
    "Kno.Seqs.remove_elts",
    "Kno.Seqs.map_elts",
    "Kno.Seqs.reduce_elts"
   ],
   "note": "The part of C66 without exceptions."
  },
  {
   "property": "C107",
   "status": "partial",
   "theorems": [
    "Kno.Modules.one_loader_partial",
    "Kno.Modules.loaded_once_partial",
    "Kno.Modules.same_module_partial",
    "Kno.Modules.complete_partial",
    "Kno.Modules.undisturbed_partial",
    "Kno.Modules.wait_ends_violated",
    "Kno.Modules.concurrent_violated",
    "Kno.Modules.no_more_loads_violated",
    "Kno.Modules.circular_violated",
    "Kno.Modules.failed_load_violated",
    "Kno.Modules.one_loader_violated",
    "Kno.Modules.alternatives_violated"
   ],
   "note": "Safety for all schedules as long as no load has failed; answers for a thread which is not disturbed, with modules which do not use themselves; counterexamples for the rest."
  },
  {
   "property": "C108",
   "status": "partial",
   "theorems": [
    "Kno.Modules.use_visible_partial",
    "Kno.Modules.use_choice_partial",
    "Kno.Modules.use_again_violated",
    "Kno.Modules.use_choice_violated"
   ],
   "note": "For modules not used before, and choices without vectors."
  },
  {
   "property": "C109",
   "status": "proved",
   "theorems": [
    "Kno.Modules.use_adds",
    "Kno.Modules.use_own",
    "Kno.Modules.use_keeps"
   ],
   "note": "In full."
  },
  {
   "property": "C110",
   "status": "proved",
   "theorems": [
    "Kno.Aggregates.uncached_reads",
    "Kno.Aggregates.reading_changes_nothing"
   ],
   "note": "In full."
  },
  {
   "property": "C111",
   "status": "partial",
   "theorems": [
    "Kno.Aggregates.cached_reads_partial",
    "Kno.Aggregates.careful_of_unedited",
    "Kno.Aggregates.stale_violated",
    "Kno.Aggregates.stale_drop_violated"
   ],
   "note": "For histories in which members are not edited under keys the aggregate has cached, and prefetches are of keys without pending edits."
  },
  {
   "property": "C112",
   "status": "partial",
   "theorems": [
    "Kno.Aggregates.prefetch_partial",
    "Kno.Aggregates.prefetch_violated"
   ],
   "note": "For keys without pending edits."
  },
  {
   "property": "C113",
   "status": "partial",
   "theorems": [
    "Kno.Aggregates.fetch_several_partial",
    "Kno.Aggregates.fetch_last_cached_violated",
    "Kno.Aggregates.fetch_first_cached_violated",
    "Kno.Aggregates.fetch_pending_violated"
   ],
   "note": "For keys which the aggregate has not cached, without pending edits."
  },
  {
   "property": "C114",
   "status": "partial",
   "theorems": [
    "Kno.Aggregates.keys_partial",
    "Kno.Aggregates.aggregate_keys_partial",
    "Kno.Aggregates.keys_store_violated",
    "Kno.Aggregates.keys_drop_violated",
    "Kno.Aggregates.keys_empty_store_violated"
   ],
   "note": "Unless drops, empty stores, or stores of new keys are pending."
  },
  {
   "property": "C115",
   "status": "proved",
   "theorems": [
    "Kno.Aggregates.members",
    "Kno.Aggregates.extended_reads",
    "Kno.Aggregates.swapped_out_reads",
    "Kno.Aggregates.extended_uncached"
   ],
   "note": "In full."
  },
  {
   "property": "C116",
   "status": "partial",
   "theorems": [
    "Kno.Options.getopt_partial",
    "Kno.Options.getopt_form_partial",
    "Kno.Options.getopt_empty_violated",
    "Kno.Options.getopt_default_violated"
   ],
   "note": "For options made of tables, false and lists of them nested in any way, with values other than #default."
  },
  {
   "property": "C117",
   "status": "partial",
   "theorems": [
    "Kno.Options.alist_partial",
    "Kno.Options.alist_value_violated",
    "Kno.Options.alist_symbol_violated",
    "Kno.Options.alist_table_violated"
   ],
   "note": "When the entries passed over have false, the empty list or another symbol as values."
  },
  {
   "property": "C118",
   "status": "partial",
   "theorems": [
    "Kno.Options.merge_partial",
    "Kno.Options.merge_flag_violated",
    "Kno.Options.merge_empty_violated"
   ],
   "note": "For options made of tables."
  },
  {
   "property": "C119",
   "status": "partial",
   "theorems": [
    "Kno.Options.opts_plus_partial",
    "Kno.Options.opts_plus_order_violated",
    "Kno.Options.opts_plus_inconsistent_violated",
    "Kno.Options.opts_plus_twice_violated"
   ],
   "note": "When options come first or not at all, and no name is given twice."
  },
  {
   "property": "C120",
   "status": "partial",
   "theorems": [
    "Kno.Options.testopt_partial",
    "Kno.Options.testopt_nested_violated",
    "Kno.Options.testopt_error_violated",
    "Kno.Options.testopt_nil_violated"
   ],
   "note": "For lists of tables which are not nested."
  },
  {
   "property": "C121",
   "status": "partial",
   "theorems": [
    "Kno.Threads.exclusion_partial",
    "Kno.Threads.released_partial",
    "Kno.Threads.no_deadlock_partial",
    "Kno.Threads.abort_releases_twice_violated",
    "Kno.Threads.exclusion_violated"
   ],
   "note": "When nothing is aborted within a with-lock."
  },
  {
   "property": "C122",
   "status": "partial",
   "theorems": [
    "Kno.Threads.finish_sound_partial",
    "Kno.Threads.finish_partial",
    "Kno.Threads.finish_single_partial",
    "Kno.Threads.finish_window_violated",
    "Kno.Threads.finish_errno_violated",
    "Kno.Threads.finish_two_violated",
    "Kno.Threads.finish_void_violated"
   ],
   "note": "When errno is 0, the program does not come to VOID and thread/finish is called before the thread is marked as done or after it has exited."
  },
  {
   "property": "C123",
   "status": "partial",
   "theorems": [
    "Kno.Threads.predicates_partial",
    "Kno.Threads.result_partial",
    "Kno.Threads.finished_violated",
    "Kno.Threads.exited_violated"
   ],
   "note": "Once the thread has exited; before that only that errors are never reported for threads without them."
  },
  {
   "property": "C124",
   "status": "proved",
   "theorems": [
    "Kno.Threads.parallel_all",
    "Kno.Threads.parallel_returns"
   ],
   "note": ""
  },
  {
   "property": "C125",
   "status": "proved",
   "theorems": [
    "Kno.Threads.sset_atomic"
   ],
   "note": ""
  },
  {
   "property": "C126",
   "status": "partial",
   "theorems": [
    "Kno.Threads.sset_progress_partial",
    "Kno.Threads.sset_nested_violated"
   ],
   "note": "When no sset! is within another."
  },
  {
   "property": "C127",
   "status": "partial",
   "theorems": [
    "Kno.Threads.timeout_secs_partial",
    "Kno.Threads.timeout_flonum_partial",
    "Kno.Threads.timeout_flonum_violated"
   ],
   "note": "For whole seconds, and for flonums where the fractions of a second do not add up to one."
  },
  {
   "property": "C128",
   "status": "proved",
   "theorems": [
    "Kno.Xml.text_safe",
    "Kno.Xml.text_round_trip"
   ],
   "note": ""
  },
  {
   "property": "C129",
   "status": "partial",
   "theorems": [
    "Kno.Xml.value_safe",
    "Kno.Xml.value_kept",
    "Kno.Xml.value_round_trip_partial",
    "Kno.Xml.value_dropped_violated",
    "Kno.Xml.value_hash_violated"
   ],
   "note": "Safe for all values; they come back when they do not begin with # and have none of the characters which are lost."
  },
  {
   "property": "C130",
   "status": "partial",
   "theorems": [
    "Kno.Xml.elements_partial",
    "Kno.Xml.elements_many_violated",
    "Kno.Xml.elements_names_violated"
   ],
   "note": "For names without special characters and at most 31 attributes."
  },
  {
   "property": "C131",
   "status": "partial",
   "theorems": [
    "Kno.Xml.round_trip_partial",
    "Kno.Xml.round_trip_violated"
   ],
   "note": "For such names and values as in C129."
  },
  {
   "property": "C132",
   "status": "partial",
   "theorems": [
    "Kno.Xml.parse_defined_partial",
    "Kno.Xml.parse_defined_violated"
   ],
   "note": "For inputs without <>, </> and </top, which do not end in < or </."
  },
  {
   "property": "C133",
   "status": "partial",
   "theorems": [
    "Kno.Xml.comment_partial",
    "Kno.Xml.comment_violated",
    "Kno.Xml.comment_short_violated",
    "Kno.Xml.cdata_partial",
    "Kno.Xml.cdata_within_partial",
    "Kno.Xml.cdata_violated",
    "Kno.Xml.comment_written_violated"
   ],
   "note": "Comments without >, CDATA sections with at most one > which is not at the end."
  },
  {
   "property": "C134",
   "status": "partial",
   "theorems": [
    "Kno.Xml.unparse_partial",
    "Kno.Xml.unparse_decoded_violated",
    "Kno.Xml.unparse_flag_violated"
   ],
   "note": "For elements with at most one attribute, read without decoding."
  },
  {
   "property": "C135",
   "status": "partial",
   "theorems": [
    "Kno.Control.begin_partial",
    "Kno.Control.begin_break_violated",
    "Kno.Control.onbreak_spec",
    "Kno.Control.prog1_partial",
    "Kno.Control.prog1_error",
    "Kno.Control.prog1_break_violated"
   ],
   "note": "Order, values and errors for all bodies; #break is passed on where something else is documented."
  },
  {
   "property": "C136",
   "status": "proved",
   "theorems": [
    "Kno.Control.and_spec",
    "Kno.Control.try_spec",
    "Kno.Control.tryif_spec"
   ],
   "note": ""
  },
  {
   "property": "C137",
   "status": "partial",
   "theorems": [
    "Kno.Control.branches_partial",
    "Kno.Control.branches_aborted",
    "Kno.Control.branches_empty_violated",
    "Kno.Control.when_void_violated",
    "Kno.Control.case_partial",
    "Kno.Control.case_equal_violated"
   ],
   "note": "For tests other than {} and keys which are not in memory."
  },
  {
   "property": "C138",
   "status": "partial",
   "theorems": [
    "Kno.Control.while_spec",
    "Kno.Control.until_spec",
    "Kno.Control.while_once",
    "Kno.Control.until_value_violated"
   ],
   "note": "Everything but the value documented for until."
  },
  {
   "property": "C139",
   "status": "proved",
   "theorems": [
    "Kno.Control.doseq_spec",
    "Kno.Control.iter_unique",
    "Kno.Control.forseq_spec",
    "Kno.Control.forseq_length",
    "Kno.Control.tryseq_spec",
    "Kno.Control.seq_control"
   ],
   "note": ""
  },
  {
   "property": "C140",
   "status": "partial",
   "theorems": [
    "Kno.Control.forChoices_spec",
    "Kno.Control.filterChoices_spec",
    "Kno.Control.tryChoices_spec",
    "Kno.Control.tryseq_spec",
    "Kno.Control.doChoices_partial",
    "Kno.Control.doChoices_void_violated",
    "Kno.Control.choices_aborted"
   ],
   "note": "Everything but the value of do-choices."
  },
  {
   "property": "C141",
   "status": "partial",
   "theorems": [
    "Kno.Control.doSubsets_partial",
    "Kno.Control.doSubsets_break_violated",
    "Kno.Control.doSubsets_size_violated"
   ],
   "note": "For positive sizes and bodies which run to their end."
  },
  {
   "property": "C142",
   "status": "partial",
   "theorems": [
    "Kno.Control.doiter_partial",
    "Kno.Control.doiter_error_violated"
   ],
   "note": "For iterators which do not fail."
  },
  {
   "property": "C143",
   "status": "partial",
   "theorems": [
    "Kno.Control.or_spec",
    "Kno.Control.or_documented_partial",
    "Kno.Control.or_empty_violated"
   ],
   "note": "For clauses which do not fail."
  },
  {
   "property": "C144",
   "status": "partial",
   "theorems": [
    "Kno.Control.dotimes_partial",
    "Kno.Control.dotimes_large_violated"
   ],
   "note": "For limits below 2^31."
  },
  {
   "property": "C145",
   "status": "partial",
   "theorems": [
    "Kno.FileIndex.contents_partial",
    "Kno.FileIndex.contents_slotids_violated",
    "Kno.FileIndex.contents_size_violated",
    "Kno.FileIndex.contents_add_and_drop_violated",
    "Kno.FileIndex.damaged_count_is_error_partial"
   ],
   "note": "Missing: keys left out by slotids, batches which add to and drop from the same key, files of four gigabytes or more; for these the property fails."
  },
  {
   "property": "C146",
   "status": "partial",
   "theorems": [
    "Kno.FileIndex.reading_succeeds_partial",
    "Kno.FileIndex.reading_full_violated",
    "Kno.FileIndex.reading_far_violated"
   ],
   "note": "For a prime number of slots, one free and at most 257 filled; otherwise the property fails."
  },
  {
   "property": "C147",
   "status": "partial",
   "theorems": [
    "Kno.FileIndex.commit_ends_partial",
    "Kno.FileIndex.commit_cached_violated",
    "Kno.FileIndex.commit_drop_violated"
   ],
   "note": "For a prime number of slots, one free, and no more keys than slots; otherwise the property fails."
  },
  {
   "property": "C148",
   "status": "partial",
   "theorems": [
    "Kno.FileIndex.commit_succeeds_partial",
    "Kno.FileIndex.commit_succeeds_violated"
   ],
   "note": "For a prime number of slots and up to 127 keys in all."
  },
  {
   "property": "C149",
   "status": "proved",
   "theorems": [
    "Kno.FileIndex.crash_atomic",
    "Kno.FileIndex.crash_contents"
   ],
   "note": "Writes are taken to reach the disk in order."
  },
  {
   "property": "C150",
   "status": "partial",
   "theorems": [
    "Kno.FileIndex.crash_readonly_partial",
    "Kno.FileIndex.crash_readonly_violated"
   ],
   "note": "If no offset had been written when the machine stopped; otherwise the property fails."
  },
  {
   "property": "C151",
   "status": "proved",
   "theorems": [
    "Kno.FileIndex.failed_commit_changes_nothing"
   ],
   "note": ""
  },
  {
   "property": "C152",
   "status": "proved",
   "theorems": [
    "Kno.FileIndex.fetchn_agrees"
   ],
   "note": "For keys with nothing pending or cached in memory."
  },
  {
   "property": "C153",
   "status": "partial",
   "theorems": [
    "Kno.FileIndex.keys_partial",
    "Kno.FileIndex.keys_violated"
   ],
   "note": "All keys with values, each once; keys without values are listed too."
  },
  {
   "property": "C154",
   "status": "partial",
   "theorems": [
    "Kno.FileIndex.calls_partial",
    "Kno.FileIndex.calls_violated"
   ],
   "note": "For reading keys; listing them leaves the index locked."
  },
  {
   "property": "C155",
   "status": "proved",
   "theorems": [
    "Kno.Strings.trim_spaces"
   ],
   "note": "For texts without NUL in UTF-8."
  },
  {
   "property": "C156",
   "status": "partial",
   "theorems": [
    "Kno.Strings.stdspace_partial",
    "Kno.Strings.stdspace_violated",
    "Kno.Strings.stdstring_partial",
    "Kno.Strings.stdstring_violated"
   ],
   "note": "Without `keepvertical`, and for `stdstring` without modifiers; otherwise the property fails."
  },
  {
   "property": "C157",
   "status": "proved",
   "theorems": [
    "Kno.Strings.case_maps",
    "Kno.Strings.capitalize_words"
   ],
   "note": "For texts without NUL in UTF-8; the case tables are those of libu8, a parameter."
  },
  {
   "property": "C158",
   "status": "proved",
   "theorems": [
    "Kno.Strings.has_affix",
    "Kno.Strings.strip_affix"
   ],
   "note": "For texts without NUL in UTF-8; prefixes which are regular expressions are not modelled."
  },
  {
   "property": "C159",
   "status": "partial",
   "theorems": [
    "Kno.Strings.compare_partial",
    "Kno.Strings.compare_ci_partial",
    "Kno.Strings.compare_violated"
   ],
   "note": "`string!=?` compares neighbours only; texts with a NUL are compared up to it."
  },
  {
   "property": "C160",
   "status": "partial",
   "theorems": [
    "Kno.Strings.subst_partial",
    "Kno.Strings.subst_violated"
   ],
   "note": "For patterns which are not empty; with an empty one it does not end."
  },
  {
   "property": "C161",
   "status": "partial",
   "theorems": [
    "Kno.Strings.append_partial",
    "Kno.Strings.append_violated"
   ],
   "note": "For texts without NUL; what follows a NUL is lost."
  },
  {
   "property": "C162",
   "status": "proved",
   "theorems": [
    "Kno.Strings.glom_kinds"
   ],
   "note": ""
  },
  {
   "property": "C163",
   "status": "partial",
   "theorems": [
    "Kno.Strings.phrase_length_partial",
    "Kno.Strings.phrase_length_violated"
   ],
   "note": "For texts which do not end in white space; otherwise the property fails."
  },
  {
   "property": "C164",
   "status": "partial",
   "theorems": [
    "Kno.Strings.ascii_empty",
    "Kno.Strings.latin1_partial",
    "Kno.Strings.latin1_violated"
   ],
   "note": "`ascii?` and `empty-string?` in full; `latin1?` fails for the last character and U+0100."
  },
  {
   "property": "C165",
   "status": "partial",
   "theorems": [
    "Kno.Strings.startword_partial",
    "Kno.Strings.startword_violated"
   ],
   "note": "For texts which do not begin with white space; otherwise the property fails."
  },
  {
   "property": "C166",
   "status": "partial",
   "theorems": [
    "Kno.Strings.grams_partial",
    "Kno.Strings.grams_violated"
   ],
   "note": "For texts without modifiers; otherwise characters are lost."
  },
  {
   "property": "C167",
   "status": "partial",
   "theorems": [
    "Kno.Strings.fixnuls_partial",
    "Kno.Strings.fixnuls_violated"
   ],
   "note": "For texts without NUL, which are given back as they are; for every text with one the property fails."
  },
  {
   "property": "C168",
   "status": "partial",
   "theorems": [
    "Kno.FilePool.contents_partial",
    "Kno.FilePool.contents_cached_partial",
    "Kno.FilePool.contents_violated"
   ],
   "note": "Violated by commits with offsets in memory; proved for all histories without."
  },
  {
   "property": "C169",
   "status": "proved",
   "theorems": [
    "Kno.FilePool.commit_succeeds_iff",
    "Kno.FilePool.failed_commit_unchanged"
   ],
   "note": "All pools, cached or not, and batches."
  },
  {
   "property": "C170",
   "status": "partial",
   "theorems": [
    "Kno.FilePool.crash_partial",
    "Kno.FilePool.crash_violated"
   ],
   "note": "Proved for every point of a commit without offsets in memory; violated with."
  },
  {
   "property": "C171",
   "status": "partial",
   "theorems": [
    "Kno.FilePool.read_only_crash_partial",
    "Kno.FilePool.read_only_crash_violated"
   ],
   "note": "Violated for the batch as a whole; proved for each OID if none of the batch is new."
  },
  {
   "property": "C172",
   "status": "partial",
   "theorems": [
    "Kno.FilePool.fetchn_partial",
    "Kno.FilePool.fetchn_violated"
   ],
   "note": "Violated for OIDs which are not allocated; proved for all others."
  },
  {
   "property": "C173",
   "status": "partial",
   "theorems": [
    "Kno.FilePool.setcache_partial",
    "Kno.FilePool.setcache_violated"
   ],
   "note": "Violated whenever the level is lowered; proved for raising it."
  },
  {
   "property": "C174",
   "status": "partial",
   "theorems": [
    "Kno.FilePool.shared_oids_distinct_partial",
    "Kno.FilePool.alone_oids_distinct_partial",
    "Kno.FilePool.file_oids_distinct_violated",
    "Kno.FilePool.kpool_oids_distinct_violated"
   ],
   "note": "Violated for file pools, and for kpools in the second of their making; proved for kpools and bigpools in later seconds, and for any pool open in one process at a time."
  },
  {
   "property": "C175",
   "status": "partial",
   "theorems": [
    "Kno.FilePool.one_writer_partial",
    "Kno.FilePool.one_writer_violated"
   ],
   "note": "Violated for file pools; proved for kpools and bigpools."
  },
  {
   "property": "C176",
   "status": "partial",
   "theorems": [
    "Kno.FilePool.load_grows_partial",
    "Kno.FilePool.alone_load_grows_partial",
    "Kno.FilePool.load_grows_violated"
   ],
   "note": "Violated for file pools; proved for kpools and bigpools, and for any pool open in one process at a time."
  },
  {
   "property": "C177",
   "status": "partial",
   "theorems": [
    "Kno.FilePool.exit_lets_others",
    "Kno.FilePool.lets_others_violated"
   ],
   "note": "Violated for every schedule in which the process goes on; proved when it ends."
  },
  {
   "property": "C178",
   "status": "partial",
   "theorems": [
    "Kno.Configs.settings_reach_handler_partial",
    "Kno.Configs.single_value_violated",
    "Kno.Configs.same_setting_violated",
    "Kno.Configs.found_list_violated",
    "Kno.Configs.registered_again_violated"
   ],
   "note": "Holds for handlers of several values which accept them, the first two settings being different; false for single values, repeated settings, lists which are found, and registering again."
  },
  {
   "property": "C179",
   "status": "partial",
   "theorems": [
    "Kno.Configs.handled_last_partial",
    "Kno.Configs.set_once_partial",
    "Kno.Configs.all_values_partial",
    "Kno.Configs.last_set_violated"
   ],
   "note": "Holds with a handler which shows the last value, and for a setting made once which is not a list; otherwise the list of all settings is read."
  },
  {
   "property": "C180",
   "status": "proved",
   "theorems": [
    "Kno.Configs.default_never_replaces",
    "Kno.Configs.default_not_given"
   ],
   "note": ""
  },
  {
   "property": "C181",
   "status": "partial",
   "theorems": [
    "Kno.Configs.default_before_init_partial",
    "Kno.Configs.default_used_partial",
    "Kno.Configs.found_before_default_violated"
   ],
   "note": "Holds for settings without handlers before initialisation, and afterwards if nothing is found; false for what is found afterwards."
  },
  {
   "property": "C182",
   "status": "partial",
   "theorems": [
    "Kno.Configs.init_violated",
    "Kno.Configs.default_handler_violated"
   ],
   "note": "False for all states: no handler is given anything."
  },
  {
   "property": "C183",
   "status": "partial",
   "theorems": [
    "Kno.Configs.first_place_counts",
    "Kno.Configs.place_added_partial",
    "Kno.Configs.place_again_violated"
   ],
   "note": "Registering a place again never ends."
  },
  {
   "property": "C184",
   "status": "partial",
   "theorems": [
    "Kno.Configs.assignments_partial",
    "Kno.Configs.escaped_separator_violated",
    "Kno.Configs.escape_kept_violated",
    "Kno.Configs.quoted_separator_violated",
    "Kno.Configs.empty_assignment_violated"
   ],
   "note": "Holds if no name or value has a separator and no value ends with a backslash."
  },
  {
   "property": "C185",
   "status": "partial",
   "theorems": [
    "Kno.Configs.file_entries",
    "Kno.Configs.file_errors_violated",
    "Kno.Configs.file_count_violated",
    "Kno.Configs.file_table_violated",
    "Kno.Configs.file_comments_partial"
   ],
   "note": "All entries are gone through in order; errors are never reported and the count is of failures. Reading entries is not modelled here, but what is done with them."
  },
  {
   "property": "C186",
   "status": "partial",
   "theorems": [
    "Kno.Configs.alias_partial",
    "Kno.Configs.alias_conflict_violated"
   ],
   "note": "Holds if the other name has no handler."
  },
  {
   "property": "C187",
   "status": "proved",
   "theorems": [
    "Kno.Configs.names_standard",
    "Kno.Configs.names_alike"
   ],
   "note": ""
  },
  {
   "property": "C188",
   "status": "partial",
   "theorems": [
    "Kno.Configs.config_macro_partial",
    "Kno.Configs.config_macro_violated",
    "Kno.Configs.env_macro_partial",
    "Kno.Configs.env_macro_violated"
   ],
   "note": "Holds for what is there, and for variables named by strings."
  },
  {
   "property": "C189",
   "status": "partial",
   "theorems": [
    "Kno.Configs.yes_no_partial",
    "Kno.Configs.yes_no_violated"
   ],
   "note": "The strings f and #f are refused."
  },
  {
   "property": "C190",
   "status": "proved",
   "theorems": [
    "Kno.Configs.set_apart"
   ],
   "note": ""
  },
  {
   "property": "C191",
   "status": "proved",
   "theorems": [
    "Kno.Calls.parameters",
    "Kno.Calls.call_succeeds"
   ],
   "note": "Bodies, environments and tail calls are in C69 and C70."
  },
  {
   "property": "C192",
   "status": "partial",
   "theorems": [
    "Kno.Calls.required_partial",
    "Kno.Calls.required_violated"
   ],
   "note": "Holds if required parameters come before optional ones."
  },
  {
   "property": "C193",
   "status": "proved",
   "theorems": [
    "Kno.Calls.types_kept"
   ],
   "note": ""
  },
  {
   "property": "C194",
   "status": "partial",
   "theorems": [
    "Kno.Calls.one_inside",
    "Kno.Calls.sync_free_partial",
    "Kno.Calls.sync_free_violated"
   ],
   "note": "At most one thread is inside; others can follow only if no call ever failed for its arguments. A thread which calls the procedure from its own body waits for ever; this is not counted here."
  },
  {
   "property": "C195",
   "status": "partial",
   "theorems": [
    "Kno.Calls.body_variables_partial",
    "Kno.Calls.locals_without_value_violated"
   ],
   "note": "Holds for bodies which are well formed."
  },
  {
   "property": "C196",
   "status": "partial",
   "theorems": [
    "Kno.Calls.locals_assign_partial",
    "Kno.Calls.locals_assign_violated"
   ],
   "note": "Holds as long as no procedure has been made in the call."
  },
  {
   "property": "C197",
   "status": "partial",
   "theorems": [
    "Kno.Calls.called_once_partial",
    "Kno.Calls.called_once_violated",
    "Kno.Calls.convention_partial",
    "Kno.Calls.convention_violated"
   ],
   "note": "Holds for functions which are not traced and have no attribute choiceop."
  },
  {
   "property": "C198",
   "status": "partial",
   "theorems": [
    "Kno.TableOps.update_partial",
    "Kno.TableOps.update_empty_violated"
   ],
   "note": "Integers of any size; flonums and rationals are not modelled. Slotmaps and schemaps with an empty value are refuted."
  },
  {
   "property": "C199",
   "status": "partial",
   "theorems": [
    "Kno.TableOps.existing_keys_partial",
    "Kno.TableOps.existing_values_partial",
    "Kno.TableOps.existing_increment_violated"
   ],
   "note": "Refuted for increments of hashtables, proved for everything else on every path."
  },
  {
   "property": "C200",
   "status": "partial",
   "theorems": [
    "Kno.TableOps.update_error_partial",
    "Kno.TableOps.update_type_error_partial",
    "Kno.TableOps.update_several_violated",
    "Kno.TableOps.update_silent_violated"
   ],
   "note": "Proved for single keys of hashtables and for type errors on other tables; refuted for several keys of a hashtable, read-only slotmaps and unknown slots of schemaps."
  },
  {
   "property": "C201",
   "status": "partial",
   "theorems": [
    "Kno.TableOps.increments_hashtable",
    "Kno.TableOps.increments_slotmap_partial",
    "Kno.TableOps.increments_slotmap_violated"
   ],
   "note": "Proved for hashtables under every schedule; refuted for slotmaps, which are right when increments do not overlap."
  },
  {
   "property": "C202",
   "status": "proved",
   "theorems": [
    "Kno.TableOps.table_max",
    "Kno.TableOps.table_maxval"
   ],
   "note": "For one table; several tables give the union. Values are integers."
  },
  {
   "property": "C203",
   "status": "partial",
   "theorems": [
    "Kno.TableOps.table_skim_partial",
    "Kno.TableOps.table_skim_violated"
   ],
   "note": "The keys at the threshold are returned as well."
  },
  {
   "property": "C204",
   "status": "partial",
   "theorems": [
    "Kno.TableOps.set_writable_partial",
    "Kno.TableOps.set_writable_violated",
    "Kno.TableOps.set_modified_partial",
    "Kno.TableOps.set_modified_violated"
   ],
   "note": "The exceptions are a true flag for table-writable! and a missing one for table-modified!."
  },
  {
   "property": "C205",
   "status": "partial",
   "theorems": [
    "Kno.TableOps.hashset_elts_partial",
    "Kno.TableOps.hashset_elts_violated"
   ],
   "note": "Holds with an explicit #f; refuted when the argument is left out."
  },
  {
   "property": "C206",
   "status": "partial",
   "theorems": [
    "Kno.TableOps.map_table_partial",
    "Kno.TableOps.map_table_violated"
   ],
   "note": "Holds for functions which do not fail."
  },
  {
   "property": "C207",
   "status": "partial",
   "theorems": [
    "Kno.TableOps.ftest_partial",
    "Kno.TableOps.ftest_violated"
   ],
   "note": "Holds when no test fails; refuted for a failing test on one of several slots of a table."
  },
  {
   "property": "C208",
   "status": "partial",
   "theorems": [
    "Kno.TableOps.xfind_index_partial",
    "Kno.TableOps.xfind_background_partial",
    "Kno.TableOps.xfind_background_violated"
   ],
   "note": "Holds with an index or without empty clauses; every other call is shown to read past its arguments."
  },
  {
   "property": "C209",
   "status": "partial",
   "theorems": [
    "Kno.NumText.number_text_partial",
    "Kno.NumText.text_unique",
    "Kno.NumText.text_negative_hex_violated",
    "Kno.NumText.text_negative_binary_violated",
    "Kno.NumText.text_zero_violated",
    "Kno.NumText.text_large_base_violated",
    "Kno.NumText.text_overrun_violated",
    "Kno.NumText.text_rational_violated",
    "Kno.NumText.text_small_flonum_violated",
    "Kno.NumText.text_large_flonum_violated"
   ],
   "note": "Proved for all integers which are not negative or in base 10, with the exceptions for zero and for the length in bases below 6; the rest is violated."
  },
  {
   "property": "C210",
   "status": "partial",
   "theorems": [
    "Kno.NumText.text_separated_partial",
    "Kno.NumText.text_separator_violated",
    "Kno.NumText.text_separator_base_violated"
   ],
   "note": "Proved for base 10 and ASCII separators."
  },
  {
   "property": "C211",
   "status": "partial",
   "theorems": [
    "Kno.NumText.read_partial",
    "Kno.NumText.read_prefix_partial",
    "Kno.NumText.read_hex_partial",
    "Kno.NumText.read_separators_violated",
    "Kno.NumText.read_underscore_violated",
    "Kno.NumText.read_base_violated",
    "Kno.NumText.read_errno_violated",
    "Kno.NumText.read_inexact_violated"
   ],
   "note": "Proved for bases 2 to 10 and 16 when errno is not set before."
  },
  {
   "property": "C212",
   "status": "partial",
   "theorems": [
    "Kno.NumText.write_read_partial",
    "Kno.NumText.write_read_separated_partial",
    "Kno.NumText.write_read_violated"
   ],
   "note": "Proved where C209 and C211 are."
  },
  {
   "property": "C213",
   "status": "partial",
   "theorems": [
    "Kno.NumText.read_fraction_partial",
    "Kno.NumText.read_fraction_violated",
    "Kno.NumText.read_fraction_overrun_violated"
   ],
   "note": "Proved for texts without spaces before the number; violated with them."
  },
  {
   "property": "C214",
   "status": "partial",
   "theorems": [
    "Kno.NumText.read_exact_partial",
    "Kno.NumText.read_exact_violated",
    "Kno.NumText.read_exact_point_violated"
   ],
   "note": "Proved for decimals which are not negative."
  },
  {
   "property": "C215",
   "status": "partial",
   "theorems": [
    "Kno.NumText.itoa_decimal_partial",
    "Kno.NumText.itoa_word",
    "Kno.NumText.itoa_violated"
   ],
   "note": "Proved except for integers from -2^64 to -2^63, for which the text is wrong (the least 64-bit integer included)."
  },
  {
   "property": "C216",
   "status": "partial",
   "theorems": [
    "Kno.OIDArith.make_oid_addr_partial",
    "Kno.OIDArith.make_oid_large_violated",
    "Kno.OIDArith.make_oid_negative_violated",
    "Kno.OIDArith.oid_addr_partial",
    "Kno.OIDArith.oid_addr_low_violated",
    "Kno.OIDArith.oid_addr_history_violated",
    "Kno.OIDArith.oid_addr_high_violated"
   ],
   "note": "oid-addr proved for addresses from 2^32 to 2^63, after any history of OIDs in at most 2^16 buckets; make-oid for integers from 0 to 2^63."
  },
  {
   "property": "C217",
   "status": "proved",
   "theorems": [
    "Kno.OIDArith.make_oid_halves",
    "Kno.OIDArith.halves"
   ],
   "note": "For all integers and all addresses."
  },
  {
   "property": "C218",
   "status": "partial",
   "theorems": [
    "Kno.OIDArith.make_oid_offset_partial",
    "Kno.OIDArith.make_oid_offset_violated",
    "Kno.OIDArith.oid_plus_partial",
    "Kno.OIDArith.oid_plus_violated",
    "Kno.OIDArith.oid_plus_wraps_violated",
    "Kno.OIDArith.oid_minus_partial",
    "Kno.OIDArith.oid_minus_pool_partial",
    "Kno.OIDArith.oid_minus_sign_violated",
    "Kno.OIDArith.oid_minus_large_violated",
    "Kno.OIDArith.plus_minus_partial",
    "Kno.OIDArith.plus_minus_violated"
   ],
   "note": "Proved for increments that fit an int and sums that are addresses, and for differences from an OID that is not later."
  },
  {
   "property": "C219",
   "status": "partial",
   "theorems": [
    "Kno.OIDArith.oid_offset_partial",
    "Kno.OIDArith.oid_offset_registered_partial",
    "Kno.OIDArith.oid_offset_pool_violated",
    "Kno.OIDArith.oid_offset_wraps_violated",
    "Kno.OIDArith.oid_offset_capacity_violated",
    "Kno.OIDArith.oid_offset_base_partial",
    "Kno.OIDArith.oid_offset_base_violated"
   ],
   "note": "Proved exactly for pools of fewer than 2^31 OIDs within one range of 2^32; for bases that are OIDs, only for OIDs less than 2^31 after them."
  },
  {
   "property": "C220",
   "status": "partial",
   "theorems": [
    "Kno.OIDArith.oid_hex_partial",
    "Kno.OIDArith.hex_oid_partial",
    "Kno.OIDArith.hex_oid_pool_partial",
    "Kno.OIDArith.hex_oid_reads_partial",
    "Kno.OIDArith.hex_oid_before_violated",
    "Kno.OIDArith.hex_oid_far_violated",
    "Kno.OIDArith.hex_oid_same_violated",
    "Kno.OIDArith.hex_oid_text_violated"
   ],
   "note": "Proved for OIDs less than 2^31 after the base."
  },
  {
   "property": "C221",
   "status": "partial",
   "theorems": [
    "Kno.OIDArith.oid_base_partial",
    "Kno.OIDArith.oid_base_contains",
    "Kno.OIDArith.oid_base_overlap_violated",
    "Kno.OIDArith.oid_base_raw_violated",
    "Kno.OIDArith.oid_base_zero_violated"
   ],
   "note": "Proved for sizes that divide 2^20; for all sizes up to 2^20 the range contains the OID."
  },
  {
   "property": "C222",
   "status": "proved",
   "theorems": [
    "Kno.Virtual.mem_alloc_fresh",
    "Kno.Virtual.mem_alloc_distinct"
   ],
   "note": "For all histories without a reset."
  },
  {
   "property": "C223",
   "status": "partial",
   "theorems": [
    "Kno.Virtual.mem_value_partial",
    "Kno.Virtual.mem_swapout_violated",
    "Kno.Virtual.mem_unallocated_violated",
    "Kno.Virtual.mem_unallocated_partial",
    "Kno.Virtual.mem_read_before_violated",
    "Kno.Virtual.mem_alloc_partial",
    "Kno.Virtual.mem_alloc_last_violated"
   ],
   "note": "Values proved for histories without swapping in which only OIDs that were allocated are read and set; allocation proved as long as one OID is left over."
  },
  {
   "property": "C224",
   "status": "partial",
   "theorems": [
    "Kno.Virtual.index_fetch_partial",
    "Kno.Virtual.index_fetch_vector_violated",
    "Kno.Virtual.index_fetch_empty_violated",
    "Kno.Virtual.fetch_batch",
    "Kno.Virtual.fetch_single",
    "Kno.Virtual.fetch_short_violated"
   ],
   "note": "Proved for keys that are not vectors, and for several keys at once when the function keeps to one of the two conventions."
  },
  {
   "property": "C225",
   "status": "partial",
   "theorems": [
    "Kno.Virtual.index_save_violated",
    "Kno.Virtual.index_save_none_partial"
   ],
   "note": "Only holds when there are no changes."
  },
  {
   "property": "C226",
   "status": "partial",
   "theorems": [
    "Kno.Virtual.pool_fetch_partial",
    "Kno.Virtual.pool_fetch_empty",
    "Kno.Virtual.pool_fetch_violated"
   ],
   "note": "Proved for OIDs for which the function gives a value."
  },
  {
   "property": "C227",
   "status": "partial",
   "theorems": [
    "Kno.Virtual.pool_value_partial",
    "Kno.Virtual.pool_never_saved_violated",
    "Kno.Virtual.pool_commit_lost_violated"
   ],
   "note": "The values read are proved for histories without swapping out; nothing is ever saved."
  },
  {
   "property": "C228",
   "status": "proved",
   "theorems": [
    "Kno.Requests.operations_act"
   ],
   "note": "For all operations, slots and values; several slots at once."
  },
  {
   "property": "C229",
   "status": "partial",
   "theorems": [
    "Kno.Requests.locks_released",
    "Kno.Requests.no_deadlock_partial",
    "Kno.Requests.new_request_violated"
   ],
   "note": "That locks are released is proved without exception; that a thread does not wait for itself is proved where slotmaps or nothing are given as requests."
  },
  {
   "property": "C230",
   "status": "partial",
   "theorems": [
    "Kno.Requests.with_request_runs_partial"
   ],
   "note": "Proved for slotmaps and bodies of operations, with any request before it, when there was no log."
  },
  {
   "property": "C231",
   "status": "partial",
   "theorems": [
    "Kno.Requests.nested_requests_violated",
    "Kno.Requests.continued_request_violated"
   ],
   "note": "Does not hold: counterexamples. What holds of a request within another one is in C230."
  },
  {
   "property": "C232",
   "status": "partial",
   "theorems": [
    "Kno.Requests.hashtable_request_violated",
    "Kno.Requests.new_request_violated",
    "Kno.Requests.request_error_violated",
    "Kno.Requests.with_request_runs_partial"
   ],
   "note": "Proved for slotmaps."
  },
  {
   "property": "C233",
   "status": "partial",
   "theorems": [
    "Kno.Requests.request_log_violated",
    "Kno.Requests.request_log_partial"
   ],
   "note": "Proved when there was no log before."
  },
  {
   "property": "C234",
   "status": "partial",
   "theorems": [
    "Kno.Requests.output_request_partial",
    "Kno.Requests.output_error_violated"
   ],
   "note": "Proved for bodies that do not fail."
  },
  {
   "property": "C235",
   "status": "proved",
   "theorems": [
    "Kno.Requests.escaped_text",
    "Kno.Requests.plain_text"
   ],
   "note": "For all texts, alone or among others."
  },
  {
   "property": "C236",
   "status": "partial",
   "theorems": [
    "Kno.Requests.raw_texts_violated",
    "Kno.Requests.raw_text_partial",
    "Kno.Requests.same_among_others_violated",
    "Kno.Requests.same_among_others_partial",
    "Kno.Requests.raw_texts_partial"
   ],
   "note": "Proved for a single text with % and for those among others that start with nothing that is parsed, and otherwise for texts that are not empty and start with no sign or point."
  },
  {
   "property": "C237",
   "status": "proved",
   "theorems": [
    "Kno.History.pushes_numbered",
    "Kno.History.constants_unnumbered"
   ],
   "note": "Exact numbers for any sequence of pushes."
  },
  {
   "property": "C238",
   "status": "proved",
   "theorems": [
    "Kno.History.references_exact",
    "Kno.History.references_last"
   ],
   "note": "Exact values of all numbers, kept by all later pushes."
  },
  {
   "property": "C239",
   "status": "partial",
   "theorems": [
    "Kno.History.found_refer_partial",
    "Kno.History.found_gives_partial",
    "Kno.History.asked_refers",
    "Kno.History.given_back",
    "Kno.History.found_refer_violated",
    "Kno.History.choices_kept_violated"
   ],
   "note": "Missing: choices, and numbers asked for before they are given out; both violated by the code."
  },
  {
   "property": "C240",
   "status": "partial",
   "theorems": [
    "Kno.History.roots_partial",
    "Kno.History.names_violated",
    "Kno.History.names_quoted_violated",
    "Kno.History.named_pushed_violated"
   ],
   "note": "Names cannot be referred to at all; numbers behave as stated."
  },
  {
   "property": "C241",
   "status": "proved",
   "theorems": [
    "Kno.History.path_numbers",
    "Kno.History.path_from_end"
   ],
   "note": "For choices, lists with and without a last cdr, and other sequences."
  },
  {
   "property": "C242",
   "status": "partial",
   "theorems": [
    "Kno.History.path_outside_partial",
    "Kno.History.list_end_violated",
    "Kno.History.vector_end_violated"
   ],
   "note": "The length itself is let through for lists and other sequences."
  },
  {
   "property": "C243",
   "status": "partial",
   "theorems": [
    "Kno.History.path_keys_partial",
    "Kno.History.path_in_parts",
    "Kno.History.string_keys_violated"
   ],
   "note": "Strings that are not keys read the table as a string."
  },
  {
   "property": "C244",
   "status": "partial",
   "theorems": [
    "Kno.History.references_replaced_partial",
    "Kno.History.inner_errors_violated"
   ],
   "note": "References without values inside a structure are replaced by error values. Vectors, tables and choices inside structures are not modelled."
  },
  {
   "property": "C245",
   "status": "partial",
   "theorems": [
    "Kno.History.outer_kept_partial",
    "Kno.History.given_history_violated",
    "Kno.History.argument_error_violated"
   ],
   "note": "The given history is never used; only the restoring of the outer history holds."
  },
  {
   "property": "C246",
   "status": "partial",
   "theorems": [
    "Kno.ProcStore.locks_partial",
    "Kno.ProcStore.locks_otherwise",
    "Kno.ProcStore.lock_error_violated",
    "Kno.ProcStore.lock_zero_violated"
   ],
   "note": "Missing: errors, 0 and numbers from 2^29 on, which the code gets wrong."
  },
  {
   "property": "C247",
   "status": "partial",
   "theorems": [
    "Kno.ProcStore.releases_partial"
   ],
   "note": "Numbers outside 32 bits are cut."
  },
  {
   "property": "C248",
   "status": "partial",
   "theorems": [
    "Kno.ProcStore.commits_partial",
    "Kno.ProcStore.commit_count_violated",
    "Kno.ProcStore.commit_large_violated"
   ],
   "note": "Only the sign holds, within 2^27."
  },
  {
   "property": "C249",
   "status": "partial",
   "theorems": [
    "Kno.ProcStore.index_commits_partial",
    "Kno.ProcStore.index_odd_violated"
   ],
   "note": "Answers that mean nothing count as success."
  },
  {
   "property": "C250",
   "status": "partial",
   "theorems": [
    "Kno.ProcStore.load_partial",
    "Kno.ProcStore.load_otherwise",
    "Kno.ProcStore.load_large_violated"
   ],
   "note": "Loads from 2^31 on come out negative."
  },
  {
   "property": "C251",
   "status": "proved",
   "theorems": [
    "Kno.ProcStore.fetched_each"
   ],
   "note": "For pools and indexes."
  },
  {
   "property": "C252",
   "status": "partial",
   "theorems": [
    "Kno.ProcStore.fetched_vector_partial",
    "Kno.ProcStore.fetched_short_violated"
   ],
   "note": "Short vectors and errors of pool functions are undefined behaviour."
  },
  {
   "property": "C253",
   "status": "partial",
   "theorems": [
    "Kno.ProcStore.taken_out_partial",
    "Kno.ProcStore.given_vector_violated"
   ],
   "note": "The vector given is emptied."
  },
  {
   "property": "C254",
   "status": "partial",
   "theorems": [
    "Kno.ProcStore.keys_partial",
    "Kno.ProcStore.keys_violated"
   ],
   "note": "Needs a function for fetching several."
  },
  {
   "property": "C255",
   "status": "partial",
   "theorems": [
    "Kno.ProcStore.sizes_partial",
    "Kno.ProcStore.sizes_violated"
   ],
   "note": "An index without a fetch function reports an error."
  },
  {
   "property": "C256",
   "status": "partial",
   "theorems": [
    "Kno.ProcStore.all_sizes_partial",
    "Kno.ProcStore.some_sizes_violated",
    "Kno.ProcStore.sizes_error_violated"
   ],
   "note": "The filter and errors are ignored."
  },
  {
   "property": "C257",
   "status": "partial",
   "theorems": [
    "Kno.ProcStore.functions_there_partial",
    "Kno.ProcStore.shared_functions_violated"
   ],
   "note": "Does not hold for registered types."
  },
  {
   "property": "C258",
   "status": "proved",
   "theorems": [
    "Kno.Compounds.made",
    "Kno.Compounds.wrong_tag"
   ],
   "note": "All four makers."
  },
  {
   "property": "C259",
   "status": "partial",
   "theorems": [
    "Kno.Compounds.ref_exact_partial",
    "Kno.Compounds.range_error_violated"
   ],
   "note": "Offsets out of range and divisible by four are undefined behaviour."
  },
  {
   "property": "C260",
   "status": "partial",
   "theorems": [
    "Kno.Compounds.length_exact_partial",
    "Kno.Compounds.length_violated"
   ],
   "note": "Only below 256 elements."
  },
  {
   "property": "C261",
   "status": "proved",
   "theorems": [
    "Kno.Compounds.set_exact",
    "Kno.Compounds.set_refused"
   ],
   "note": "For one compound."
  },
  {
   "property": "C262",
   "status": "proved",
   "theorems": [
    "Kno.Compounds.modify_exact",
    "Kno.Compounds.modify_refused"
   ],
   "note": "For any modifier."
  },
  {
   "property": "C263",
   "status": "proved",
   "theorems": [
    "Kno.Compounds.lasting"
   ],
   "note": "Over all sequences of operations."
  },
  {
   "property": "C264",
   "status": "partial",
   "theorems": [
    "Kno.Compounds.set_all",
    "Kno.Compounds.set_all_or_none_violated",
    "Kno.Compounds.set_other_violated"
   ],
   "note": "Missing: all or none at errors, and single things which are no compounds."
  },
  {
   "property": "C265",
   "status": "partial",
   "theorems": [
    "Kno.Compounds.schema_get",
    "Kno.Compounds.schema_absent_violated"
   ],
   "note": "Keys not in the schema are undefined behaviour."
  },
  {
   "property": "C266",
   "status": "partial",
   "theorems": [
    "Kno.Compounds.no_lock_left_partial",
    "Kno.Compounds.lock_left_violated"
   ],
   "note": "Needs schemas that are not longer than the compounds."
  },
  {
   "property": "C267",
   "status": "proved",
   "theorems": [
    "Kno.Compounds.from_seq_elts"
   ],
   "note": "Where it succeeds."
  },
  {
   "property": "C268",
   "status": "partial",
   "theorems": [
    "Kno.Compounds.from_seq_partial",
    "Kno.Compounds.from_seq_annotations_violated",
    "Kno.Compounds.from_seq_127_violated",
    "Kno.Compounds.from_seq_overflow_violated"
   ],
   "note": "Annotations with offsets #t and 127, and odd annotations, go wrong."
  },
  {
   "property": "C269",
   "status": "partial",
   "theorems": [
    "Kno.Compounds.make_x",
    "Kno.Compounds.negative_length_violated"
   ],
   "note": "Offsets past the end are accepted."
  },
  {
   "property": "C270",
   "status": "proved",
   "theorems": [
    "Kno.Compounds.has_type"
   ],
   "note": "All choices."
  },
  {
   "property": "C271",
   "status": "partial",
   "theorems": [
    "Kno.Compounds.only_has_type_partial",
    "Kno.Compounds.only_has_type_none",
    "Kno.Compounds.only_has_type_violated"
   ],
   "note": "Only for one type."
  },
  {
   "property": "C272",
   "status": "proved",
   "theorems": [
    "Kno.CoreOps.chains"
   ],
   "note": "All lists."
  },
  {
   "property": "C273",
   "status": "partial",
   "theorems": [
    "Kno.CoreOps.compared_partial",
    "Kno.CoreOps.exact_inexact_violated",
    "Kno.CoreOps.nan_violated",
    "Kno.CoreOps.complex_violated"
   ],
   "note": "Mixed and complex numbers, infinities and NaN are left out; the code gets most of them wrong."
  },
  {
   "property": "C274",
   "status": "proved",
   "theorems": [
    "Kno.CoreOps.opposites"
   ],
   "note": "All numbers."
  },
  {
   "property": "C275",
   "status": "partial",
   "theorems": [
    "Kno.CoreOps.opposites",
    "Kno.CoreOps.different_violated"
   ],
   "note": "Only for two arguments."
  },
  {
   "property": "C276",
   "status": "proved",
   "theorems": [
    "Kno.CoreOps.zero",
    "Kno.CoreOps.zero_other"
   ],
   "note": "Real numbers."
  },
  {
   "property": "C277",
   "status": "partial",
   "theorems": [
    "Kno.CoreOps.eqv_partial",
    "Kno.CoreOps.eqv_violated"
   ],
   "note": "Not for NaN and complex numbers."
  },
  {
   "property": "C278",
   "status": "proved",
   "theorems": [
    "Kno.CoreOps.identical"
   ],
   "note": "Choices as strictly sorted lists."
  },
  {
   "property": "C279",
   "status": "partial",
   "theorems": [
    "Kno.CoreOps.equal_partial",
    "Kno.CoreOps.equal_violated"
   ],
   "note": "Only for single values."
  },
  {
   "property": "C280",
   "status": "partial",
   "theorems": [
    "Kno.CoreOps.to_lisp",
    "Kno.CoreOps.to_lisp_error_violated"
   ],
   "note": "Errors of the parser are returned."
  },
  {
   "property": "C281",
   "status": "partial",
   "theorems": [
    "Kno.CoreOps.parse_slotid_violated"
   ],
   "note": "Words of letters always give strings."
  },
  {
   "property": "C282",
   "status": "proved",
   "theorems": [
    "Kno.NetStore.oid_value_exact"
   ],
   "note": "All OIDs; adjuncts left out."
  },
  {
   "property": "C283",
   "status": "partial",
   "theorems": [
    "Kno.NetStore.fetch_oids_partial",
    "Kno.NetStore.fetch_oids_violated"
   ],
   "note": "Only when nothing asked for is cached or changed, or the driver fetches one at a time."
  },
  {
   "property": "C284",
   "status": "partial",
   "theorems": [
    "Kno.NetStore.fetch_oids_private_partial",
    "Kno.NetStore.fetch_oids_private_violated"
   ],
   "note": "Only for the first OID."
  },
  {
   "property": "C285",
   "status": "partial",
   "theorems": [
    "Kno.NetStore.get_load_partial",
    "Kno.NetStore.get_load_violated"
   ],
   "note": "Private pools answer and anonymous OIDs crash."
  },
  {
   "property": "C286",
   "status": "proved",
   "theorems": [
    "Kno.NetStore.served_pools_invariant"
   ],
   "note": "All histories."
  },
  {
   "property": "C287",
   "status": "proved",
   "theorems": [
    "Kno.NetStore.serve_pool_result"
   ],
   "note": "All configurations."
  },
  {
   "property": "C288",
   "status": "partial",
   "theorems": [
    "Kno.NetStore.serve_pool_failure_partial",
    "Kno.NetStore.serve_pool_failure_violated"
   ],
   "note": "Only for single values."
  },
  {
   "property": "C289",
   "status": "proved",
   "theorems": [
    "Kno.NetStore.pool_data_exact"
   ],
   "note": "Adjuncts left out."
  },
  {
   "property": "C290",
   "status": "proved",
   "theorems": [
    "Kno.NetStore.bulk_get_exact"
   ],
   "note": "All lists of keys."
  },
  {
   "property": "C291",
   "status": "partial",
   "theorems": [
    "Kno.NetStore.bulk_get_table_partial",
    "Kno.NetStore.bulk_get_table_violated"
   ],
   "note": "Only for pairs."
  },
  {
   "property": "C292",
   "status": "partial",
   "theorems": [
    "Kno.NetStore.get_size_partial",
    "Kno.NetStore.get_size_violated"
   ],
   "note": "Not for errors."
  },
  {
   "property": "C293",
   "status": "partial",
   "theorems": [
    "Kno.NetStore.client_fetchn_partial",
    "Kno.NetStore.client_fetchn_violated"
   ],
   "note": "The length of the answer is not tested."
  },
  {
   "property": "C294",
   "status": "partial",
   "theorems": [
    "Kno.NetStore.remote_values_partial",
    "Kno.NetStore.fetch_oids_violated"
   ],
   "note": "As C283."
  },
  {
   "property": "C295",
   "status": "partial",
   "theorems": [
    "Kno.NetStore.client_keys_partial",
    "Kno.NetStore.client_keys_violated"
   ],
   "note": "Only for named indexes with keys."
  },
  {
   "property": "C296",
   "status": "partial",
   "theorems": [
    "Kno.NetStore.client_operations_partial",
    "Kno.NetStore.client_operations_violated"
   ],
   "note": "Only one name is shared and its answer cannot be used."
  },
  {
   "property": "C297",
   "status": "proved",
   "theorems": [
    "Kno.NetStore.client_open_exact"
   ],
   "note": "All answers."
  },
  {
   "property": "C298",
   "status": "proved",
   "theorems": [
    "Kno.Times.compare_exact"
   ],
   "note": "All arguments that denote moments, except strings before 1970 (C299)."
  },
  {
   "property": "C299",
   "status": "partial",
   "theorems": [
    "Kno.Times.arguments_partial",
    "Kno.Times.arguments_violated"
   ],
   "note": "Not for strings before 1970."
  },
  {
   "property": "C300",
   "status": "partial",
   "theorems": [
    "Kno.Times.difftime_partial",
    "Kno.Times.difftime_violated"
   ],
   "note": "Not for flonums."
  },
  {
   "property": "C301",
   "status": "partial",
   "theorems": [
    "Kno.Times.future_past_partial",
    "Kno.Times.future_past_violated"
   ],
   "note": "Only for whole thresholds and good arguments."
  },
  {
   "property": "C302",
   "status": "partial",
   "theorems": [
    "Kno.Times.plus_minus_partial",
    "Kno.Times.plus_minus_violated"
   ],
   "note": "Not for bad bases."
  },
  {
   "property": "C303",
   "status": "partial",
   "theorems": [
    "Kno.Times.timestamp_flonum_partial",
    "Kno.Times.timestamp_flonum_violated"
   ],
   "note": "Only up to 2 to the 32."
  },
  {
   "property": "C304",
   "status": "partial",
   "theorems": [
    "Kno.Times.set_get_partial",
    "Kno.Times.set_get_violated"
   ],
   "note": "Not for months and short years."
  },
  {
   "property": "C305",
   "status": "partial",
   "theorems": [
    "Kno.Times.set_works_partial",
    "Kno.Times.set_works_violated"
   ],
   "note": "Only for moments from 1970 to 2038."
  },
  {
   "property": "C306",
   "status": "partial",
   "theorems": [
    "Kno.Times.impossible_partial",
    "Kno.Times.impossible_violated"
   ],
   "note": "Not for hours."
  },
  {
   "property": "C307",
   "status": "partial",
   "theorems": [
    "Kno.Times.subseconds_partial",
    "Kno.Times.subseconds_violated"
   ],
   "note": "Not for microsecond; 1000 milliseconds are possible."
  },
  {
   "property": "C308",
   "status": "proved",
   "theorems": [
    "Kno.Times.seasons_cover"
   ],
   "note": "All months and hours."
  },
  {
   "property": "C309",
   "status": "proved",
   "theorems": [
    "Kno.Times.secs_string_exact"
   ],
   "note": "Whole numbers; years fit into an int."
  },
  {
   "property": "C310",
   "status": "partial",
   "theorems": [
    "Kno.Times.secs_string_precision_partial",
    "Kno.Times.secs_string_precision_violated"
   ],
   "note": "Only when the unit of the precision is listed."
  },
  {
   "property": "C311",
   "status": "proved",
   "theorems": [
    "Kno.Times.secs_short_exact"
   ],
   "note": "Whole numbers."
  },
  {
   "property": "C312",
   "status": "proved",
   "theorems": [
    "Kno.Times.offsets_exact"
   ],
   "note": "All whole offsets."
  },
  {
   "property": "C313",
   "status": "partial",
   "theorems": [
    "Kno.Words.segment_spaces_partial",
    "Kno.Words.segment_spaces_violated"
   ],
   "note": "Violated for texts that end in a space, which get an empty word; exact otherwise."
  },
  {
   "property": "C314",
   "status": "partial",
   "theorems": [
    "Kno.Words.segment_separators_partial",
    "Kno.Words.segment_bad_separator_partial",
    "Kno.Words.segment_separators_violated"
   ],
   "note": "Violated for the empty separator, with which segment never ends."
  },
  {
   "property": "C315",
   "status": "proved",
   "theorems": [
    "Kno.Words.getwords_parts",
    "Kno.Words.getwords_keeps_all"
   ],
   "note": ""
  },
  {
   "property": "C316",
   "status": "partial",
   "theorems": [
    "Kno.Words.punctuation_flag_partial",
    "Kno.Words.punctuation_default_violated"
   ],
   "note": "Violated: without a flag punctuation is dropped."
  },
  {
   "property": "C317",
   "status": "proved",
   "theorems": [
    "Kno.Words.words_vector"
   ],
   "note": ""
  },
  {
   "property": "C318",
   "status": "partial",
   "theorems": [
    "Kno.Words.fragments_inner_partial",
    "Kno.Words.fragments_partial",
    "Kno.Words.fragments_suffix_violated",
    "Kno.Words.fragments_long_violated",
    "Kno.Words.fragments_zero_violated",
    "Kno.Words.fragments_single_violated",
    "Kno.Words.fragments_empty_violated"
   ],
   "note": "Exact without affixes, and with them for sizes from one to at most the number of words; violated otherwise."
  },
  {
   "property": "C319",
   "status": "partial",
   "theorems": [
    "Kno.Words.phrase_partial",
    "Kno.Words.phrase_range_partial",
    "Kno.Words.phrase_start_violated"
   ],
   "note": "Violated for negative starts."
  },
  {
   "property": "C320",
   "status": "partial",
   "theorems": [
    "Kno.Words.phrase_choices_partial",
    "Kno.Words.phrase_choices_violated",
    "Kno.Words.phrase_choices_undefined_violated",
    "Kno.Words.phrase_choices_other_violated"
   ],
   "note": "Violated: choices are taken twice, and memory outside the phrase may be read."
  },
  {
   "property": "C321",
   "status": "proved",
   "theorems": [
    "Kno.Words.count_words"
   ],
   "note": ""
  },
  {
   "property": "C322",
   "status": "partial",
   "theorems": [
    "Kno.Words.percent_partial",
    "Kno.Words.percent_violated"
   ],
   "note": "Violated for texts with more than 21 million spaces."
  },
  {
   "property": "C323",
   "status": "partial",
   "theorems": [
    "Kno.Words.disemvowel_partial",
    "Kno.Words.depunct_partial",
    "Kno.Words.disemvowel_violated"
   ],
   "note": "Violated for characters outside ASCII with ASCII vowels."
  },
  {
   "property": "C324",
   "status": "partial",
   "theorems": [
    "Kno.Words.strip_partial",
    "Kno.Words.strip_default_violated",
    "Kno.Words.strip_entities_violated",
    "Kno.Words.strip_cdata_violated"
   ],
   "note": "Holds for documents of text, tags and comments; violated for the default, entities and CDATA."
  },
  {
   "property": "C325",
   "status": "proved",
   "theorems": [
    "Kno.Words.columns"
   ],
   "note": ""
  },
  {
   "property": "C326",
   "status": "partial",
   "theorems": [
    "Kno.Words.columns_parse_partial",
    "Kno.Words.columns_parse_violated",
    "Kno.Words.columns_empty_violated"
   ],
   "note": "Violated for fewer functions than columns and for empty columns."
  },
  {
   "property": "C327",
   "status": "partial",
   "theorems": [
    "Kno.Words.findsep_partial",
    "Kno.Words.findsep_escape_violated",
    "Kno.Words.findsep_double_violated",
    "Kno.Words.findsep_limit_violated"
   ],
   "note": "Holds for texts without escapes and with no limit."
  },
  {
   "property": "C328",
   "status": "partial",
   "theorems": [
    "Kno.Words.splitsep_partial",
    "Kno.Words.splitsep_range_violated",
    "Kno.Words.splitsep_escape_violated"
   ],
   "note": "Holds for texts without escapes and with no limits."
  },
  {
   "property": "C329",
   "status": "partial",
   "theorems": [
    "Kno.Words.unslashify_partial",
    "Kno.Words.unslashify_slashed",
    "Kno.Words.unslashify_violated"
   ],
   "note": "Undefined for a backslash at the end or just before the limit."
  },
  {
   "property": "C330",
   "status": "partial",
   "theorems": [
    "Kno.Phonetic.soundex_form_partial",
    "Kno.Phonetic.soundex_case",
    "Kno.Phonetic.soundex_form_violated"
   ],
   "note": "Violated for empty texts and for texts that begin with a character of several bytes."
  },
  {
   "property": "C331",
   "status": "partial",
   "theorems": [
    "Kno.Phonetic.soundex_code_partial",
    "Kno.Phonetic.soundex_code_violated"
   ],
   "note": "Violated when the next letter has the sound of the first."
  },
  {
   "property": "C332",
   "status": "proved",
   "theorems": [
    "Kno.Phonetic.metaphone_case"
   ],
   "note": ""
  },
  {
   "property": "C333",
   "status": "proved",
   "theorems": [
    "Kno.Phonetic.metaphone_doubled"
   ],
   "note": ""
  },
  {
   "property": "C334",
   "status": "proved",
   "theorems": [
    "Kno.Phonetic.metaphone_dots"
   ],
   "note": ""
  },
  {
   "property": "C335",
   "status": "proved",
   "theorems": [
    "Kno.Phonetic.metaphone_letters"
   ],
   "note": ""
  },
  {
   "property": "C336",
   "status": "partial",
   "theorems": [
    "Kno.Phonetic.metaphone_plain_partial",
    "Kno.Phonetic.metaphone_rules_violated"
   ],
   "note": "Violated for final B, C before I, TIO and final W. No theorem covers which pairs of letters begin with a silent one: a wrong pair in the model is not detected."
  },
  {
   "property": "C337",
   "status": "partial",
   "theorems": [
    "Kno.TextPrims.prefix_partial",
    "Kno.TextPrims.suffix_partial",
    "Kno.TextPrims.prefix_violated"
   ],
   "note": "Holds for prefixes and suffixes without NULs."
  },
  {
   "property": "C338",
   "status": "partial",
   "theorems": [
    "Kno.TextPrims.word_prefix_partial",
    "Kno.TextPrims.word_suffix_partial",
    "Kno.TextPrims.word_prefix_violated",
    "Kno.TextPrims.first_word_partial",
    "Kno.TextPrims.last_word_partial",
    "Kno.TextPrims.last_word_violated"
   ],
   "note": "Holds for affixes without NULs, and for texts that do not begin or end with a space."
  },
  {
   "property": "C339",
   "status": "partial",
   "theorems": [
    "Kno.TextPrims.last_separator_partial",
    "Kno.TextPrims.last_separator_violated"
   ],
   "note": "Violated: lastword never ends when the separator is in the text. What is given when it is not is not modelled further than that the loop is not entered."
  },
  {
   "property": "C340",
   "status": "partial",
   "theorems": [
    "Kno.TextPrims.encode_none_left",
    "Kno.TextPrims.encode_plain",
    "Kno.TextPrims.encode_violated",
    "Kno.TextPrims.encode_chars_violated",
    "Kno.TextPrims.encode_number"
   ],
   "note": "Characters to encode do not appear; violated for decoding, for the character 128 and for characters given in strings."
  }
 ]
}
