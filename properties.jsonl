{"id": "C01", "title": "Variable-length integers round-trip", "statement": "Writing an unsigned integer below 2^63 with the varint writer and reading it back with the varint reader returns the same integer and leaves the reader exactly after the bytes that were written, whatever follows in the stream. (For integers of 2^63 and above the writer drops the top bit, so the property is expected to fail there.)", "quantifier": "every integer n < 2^63, every byte string following the encoding", "why_tests_cant": "There are 2^63 integers and nine encoding lengths with boundaries at 2^7, 2^14, ..., 2^56; tests only sample them.", "anchors": ["include/kno/bufio.h:kno_write_varint", "include/kno/bufio.h:kno_read_varint"]}
{"id": "C02", "title": "Fixed-width words round-trip in network order", "statement": "Writing a 1, 2, 4 or 8 byte unsigned word to an output buffer and reading it back returns the word; the bytes are in big-endian order on every machine; and byte-order flipping is an involution.", "quantifier": "every word of each width, every surrounding buffer content", "why_tests_cant": "2^32 and 2^64 words.", "anchors": ["include/kno/bufio.h:kno_write_4bytes", "include/kno/bufio.h:kno_write_8bytes", "include/kno/bufio.h:kno_flip_word8"]}
{"id": "C03", "title": "A growing output buffer never loses or overruns bytes", "statement": "For any sequence of byte and block writes to a growable output buffer, the content is the concatenation of everything written, no write is made beyond the allocated size, and growth always yields at least the space that was asked for.", "quantifier": "every initial buffer size, every sequence of writes of every length", "why_tests_cant": "Off-by-one growth errors appear only at particular size/limit combinations.", "anchors": ["src/lisp/bufio.c:grow_output_buffer", "include/kno/bufio.h:kno_write_bytes"]}
{"id": "C04", "title": "DType serialization round-trips", "statement": "For every value built from the serialisable constructors, reading the bytes produced by writing the value yields an equal value and consumes exactly the bytes produced, whatever bytes follow.", "quantifier": "every value of unbounded depth and size, every trailing byte string", "why_tests_cant": "The value space is infinite; size-class boundaries (tiny/big strings, 256-element vectors and choices, int32 limits, unicode ranges) interact.", "anchors": ["src/lisp/dtwrite.c:kno_write_dtype", "src/lisp/dtread.c:kno_read_dtype"]}
{"id": "C05", "title": "A truncated DType is never mistaken for a value", "statement": "If a stream ends strictly inside the encoding of a value, reading it reports end-of-data; it never returns a value.", "quantifier": "every value and every proper prefix of its encoding (every crash or disconnect point)", "why_tests_cant": "Each value has as many truncation points as bytes.", "anchors": ["src/lisp/dtread.c:kno_read_dtype", "include/kno/bufio.h:kno_request_bytes"]}
{"id": "C06", "title": "Written sizes are reported exactly", "statement": "The number returned by the DType and XType writers equals the number of bytes appended to the output (drivers record this as the chunk size of a stored value).", "quantifier": "every serialisable value", "why_tests_cant": "A wrong size in one branch corrupts the stored chunk reference only for values taking that branch.", "anchors": ["src/lisp/dtwrite.c:kno_write_dtype", "src/lisp/xtypes.c:kno_write_xtype", "src/drivers/kpool.c:kpool_write_value"]}
{"id": "C07", "title": "XType serialization round-trips", "statement": "For every value built from the serialisable constructors, reading the XType bytes produced by writing it without a reference table yields an equal value and consumes exactly the bytes produced.", "quantifier": "every value of unbounded depth and size, every trailing byte string", "why_tests_cant": "Infinite value space; varint length boundaries at every node.", "anchors": ["src/lisp/xtypes.c:kno_write_xtype", "src/lisp/xtypes.c:kno_read_xtype"]}
{"id": "C08", "title": "XType references decode to the same object", "statement": "A value written with a reference table, including one that grows while writing, decodes to an equal value with the resulting table and with any later extension of it.", "quantifier": "every value, every initial table, every later extension of the table", "why_tests_cant": "Tables grow over the life of a pool; every past encoding must stay readable under every future table.", "anchors": ["src/lisp/xtypes.c:write_xtype", "src/lisp/xtypes.c:kno_add_xtype_ref", "src/lisp/xtypes.c:_kno_xtype_ref"]}
{"id": "C09", "title": "A truncated XType is never mistaken for a value", "statement": "If the input ends strictly inside an XType encoding the reader reports end-of-data rather than a value.", "quantifier": "every value and every proper prefix of its encoding", "why_tests_cant": "Each value has as many truncation points as bytes.", "anchors": ["src/lisp/xtypes.c:kno_read_xtype"]}
{"id": "C10", "title": "The ordering on values is a total order that agrees with equality", "statement": "The comparison used to sort choices, buckets and sorted tables is reflexive, antisymmetric up to equality, transitive and total, and two values compare as the same exactly when they are EQUAL?.", "quantifier": "all pairs and triples of values", "why_tests_cant": "A comparison cycle needs three specific values; sorted search silently misses elements when it exists.", "anchors": ["include/kno/cons.h:__kno_cons_compare", "src/lisp/compare.c:lispval_compare", "src/lisp/cons.c:lispval_equal"]}
{"id": "C11", "title": "A choice is a canonical set", "statement": "Building a choice from any sequence of elements yields a sorted, duplicate-free vector containing exactly the distinct elements supplied; two sequences with the same elements yield identical choices.", "quantifier": "every finite sequence of elements, in every order, with any duplication", "why_tests_cant": "n! orders for every multiset; the pivot choice makes quicksort behaviour input-dependent.", "anchors": ["src/lisp/choices.c:kno_init_choice", "src/lisp/choices.c:atomic_sort", "src/lisp/choices.c:compress_choice"]}
{"id": "C12", "title": "Membership in a choice is decided correctly", "statement": "CONTAINS? on a choice answers true exactly for its elements.", "quantifier": "every choice of any size, every probe", "why_tests_cant": "Binary search boundary errors show only at particular positions/sizes.", "anchors": ["src/lisp/choices.c:kno_choice_containsp", "src/lisp/choices.c:choice_containsp"]}
{"id": "C13", "title": "Union, intersection and difference are the set operations", "statement": "UNION, INTERSECTION and DIFFERENCE of choices contain exactly the elements in either, in all, and in the first but not the second; results are again canonical choices.", "quantifier": "every tuple of choices including empty ones, singletons and unnormalised accumulations", "why_tests_cant": "Merge loops have many index combinations; n-ary intersection depends on which operand is smallest.", "anchors": ["src/lisp/choices.c:kno_union", "src/lisp/choices.c:kno_intersection", "src/lisp/choices.c:kno_difference", "src/lisp/choices.c:kno_intersect_choices"]}
{"id": "C14", "title": "Accumulated results normalise to the set of all results", "statement": "Adding any sequence of values, choices and other accumulations to a result accumulator and then normalising it yields exactly the set of all elements added.", "quantifier": "every sequence of additions, any nesting", "why_tests_cant": "The accumulator has sorted/atomic/nested flags whose combinations depend on the whole history.", "anchors": ["include/kno/choices.h:__kno_prechoice_add", "src/lisp/choices.c:kno_normalize_choice"]}
{"id": "C15", "title": "Slotmaps behave as finite maps", "statement": "After any sequence of store, add, drop and delete operations, GET on a slotmap returns what a simple mathematical map from keys to value sets would return, and each operation reports whether it changed anything.", "quantifier": "every operation sequence, sorted and unsorted slotmaps", "why_tests_cant": "Histories are unbounded; sorted insertion and removal shift entries.", "anchors": ["src/lisp/tables.c:kno_slotmap_store", "src/lisp/tables.c:kno_slotmap_add", "src/lisp/tables.c:kno_slotmap_drop", "src/lisp/tables.c:kno_slotmap_delete", "include/kno/tables.h:__kno_slotmap_get"]}
{"id": "C16", "title": "Schemaps behave as fixed-key maps", "statement": "A schemap never gains or loses keys: storing to a key of its schema is read back, and storing to any other key fails without changing anything. Slot lookup finds a key exactly if it is in the schema, for sorted and unsorted schemas.", "quantifier": "every schema of any length, every key, every operation sequence", "why_tests_cant": "Binary search over sorted schemas of more than seven slots has boundary cases at every size.", "anchors": ["include/kno/tables.h:__kno_get_slotno", "src/lisp/tables.c:kno_schemap_store"]}
{"id": "C17", "title": "Hashtables behave as finite maps across growth", "statement": "After any sequence of store, add, drop and remove operations interleaved with automatic growth, GET on a hashtable returns what a mathematical map would, the key count equals the number of keys, and the key listing has each key exactly once.", "quantifier": "every operation sequence, every hash function and bucket count, every growth point", "why_tests_cant": "Growth moves every entry; collisions depend on hash values.", "anchors": ["src/lisp/tables.c:kno_hashtable_store", "src/lisp/tables.c:hash_bucket_insert", "src/lisp/tables.c:resize_hashtable", "src/lisp/tables.c:kno_hashtable_get"]}
{"id": "C18", "title": "Identity hashtables behave as identity-keyed maps", "statement": "An EQ hashtable maps each object identity to the value last stored for it, independently of other keys and of growth.", "quantifier": "every operation sequence over every set of keys", "why_tests_cant": "The error needs several keys in one bucket, or a resize after a store.", "anchors": ["src/lisp/tables.c:eq_sortvec_get", "src/lisp/tables.c:eq_hashvec_get", "src/lisp/tables.c:resize_hashtable"]}
{"id": "C19", "title": "Equal values hash equally", "statement": "EQUAL? values have the same hash, so a table lookup with an equal key finds the entry.", "quantifier": "all pairs of equal values", "why_tests_cant": "Equality is structural and ignores representation details such as slot insertion order.", "anchors": ["src/lisp/tables.c:kno_hash_lisp", "src/lisp/tables.c:hash_cons", "src/lisp/compare.c:lispval_equal"]}
{"id": "C20", "title": "Hashsets contain what was added and not dropped", "statement": "After any sequence of adds and drops, membership in a hashset is true exactly for elements whose last operation was an add, and the size is their number.", "quantifier": "every operation sequence, including drops of absent elements, merges and copies", "why_tests_cant": "The defect needs drops of absent elements followed by queries.", "anchors": ["src/lisp/tables.c:hashset_test_drop", "src/lisp/tables.c:kno_hashset_get", "src/lisp/tables.c:kno_hashset_merge", "src/lisp/tables.c:kno_copy_hashset"]}
{"id": "C21", "title": "Table operations distribute over choices", "statement": "GET with a choice of keys returns the union over the keys; STORE!, ADD! and DROP! with a choice of keys act on each key exactly once.", "quantifier": "every choice of keys and tables, every table type", "why_tests_cant": "Nondeterministic arguments multiply the cases.", "anchors": ["src/lisp/tables.c:kno_get", "src/lisp/tables.c:kno_store", "src/lisp/tables.c:kno_hashtable_add"]}
{"id": "C22", "title": "OID addresses and references correspond one to one", "statement": "Converting a 64-bit OID address to a reference and back gives the same address; the same address always gives the same reference and different addresses different references, for any sequence of conversions, until the base table is full, at which point conversion must be reported as failing.", "quantifier": "every sequence of addresses", "why_tests_cant": "The base table is filled in history-dependent order with probing.", "anchors": ["src/lisp/oids.c:kno_get_oid_base_index", "src/lisp/oids.c:kno_make_oid", "include/kno/ptr.h:KNO_OID_ADDR"]}
{"id": "C23", "title": "Every OID is resolved to the pool that contains it", "statement": "After pools are registered in any order, looking up the pool of an OID returns the registered pool whose address range contains it, and no pool if there is none; a pool overlapping a registered one is rejected.", "quantifier": "every set of pools, every registration order, every OID", "why_tests_cant": "The sub-pool vector is kept sorted by insertion and searched by bisection.", "anchors": ["src/storage/pools.c:add_to_gluepool", "src/storage/pools.c:kno_find_subpool", "src/storage/pools.c:_kno_oid2pool", "src/storage/pools.c:kno_register_pool"]}
{"id": "C24", "title": "Allocation never hands out an OID twice", "statement": "Over any interleaving of allocations by threads sharing a pool, the OIDs returned are distinct, belong to the pool, and their total never exceeds its capacity; a request that would exceed it fails and changes nothing.", "quantifier": "every sequence and interleaving of allocation requests", "why_tests_cant": "Interleavings and exhaustion points are unbounded.", "anchors": ["src/drivers/kpool.c:kpool_alloc", "src/storage/pools.c:kno_pool_alloc", "src/storage/pools.c:zero_pool_alloc"]}
{"id": "C25", "title": "Pool reads see the program's own writes", "statement": "After SET-OID-VALUE! a read of the OID returns the value set, until it is set again or its changes are discarded, regardless of caching, prefetching, swapping out and commits in between.", "quantifier": "every sequence of set, get, prefetch, lock, swapout and commit operations", "why_tests_cant": "Five tables (thread cache, cache, changes, locks, disk) must agree after every history.", "anchors": ["src/storage/pools.c:set_oid_value", "src/storage/pools.c:kno_pool_get", "src/storage/pools.c:kno_pool_prefetch", "src/storage/pools.c:kno_pool_swapout"]}
{"id": "C26", "title": "Committing a pool writes exactly the modified values", "statement": "Commit makes the stored value of every modified OID its current value, leaves every other stored value unchanged, and after a failed commit every modification is still pending.", "quantifier": "every pool state, every subset of OIDs passed to commit, every driver outcome", "why_tests_cant": "Needs a commit naming an OID that was not modified, or a failing driver.", "anchors": ["src/storage/pools.c:pool_docommit", "src/storage/pools.c:pick_writes", "src/storage/pools.c:finish_commit", "src/storage/pools.c:abort_commit"]}
{"id": "C27", "title": "Unlocking with discard affects only the OIDs named", "statement": "Discarding changes to some OIDs of a pool leaves uncommitted changes to the pool's other OIDs in place.", "quantifier": "every set of modified OIDs and every subset discarded", "why_tests_cant": "Only visible with several modified OIDs.", "anchors": ["src/storage/pools.c:kno_pool_unlock", "src/storage/pools.c:kno_unlock_oids"]}
{"id": "C28", "title": "A crash during a pool commit leaves either the old or the new contents", "statement": "If the process dies at any point during a commit to a pool file, reopening the file restores a state in which every OID has its value from before the commit or every OID has its value from after it.", "quantifier": "every pool content, every set of changes, every crash point and every subset of unsynced writes", "why_tests_cant": "Crash points are as many as byte writes; tests cannot kill the process at each one.", "anchors": ["src/drivers/kpool.c:kpool_commit", "src/drivers/kpool.c:kpool_storen", "src/storage/alcor.c:kno_save_head", "src/storage/alcor.c:apply_head", "src/storage/drivers.c:kno_check_rollback"]}
{"id": "C29", "title": "Chunk references are stored exactly", "statement": "The offset and length recorded for a stored value in each of the three offset formats are read back exactly, whenever they are within the limits of the format; otherwise the store reports an error.", "quantifier": "every offset and length, each format", "why_tests_cant": "The packed 40-bit form splits fields across words.", "anchors": ["include/kno/streams.h:kno_get_chunk_ref", "include/kno/streams.h:kno_convert_KNO_B40_ref", "src/drivers/kpool.c:direct_write_offdata"]}
{"id": "C30", "title": "Index reads reflect all preceding edits", "statement": "Reading a key of an index returns the last value stored (or the stored value on disk), with all later additions added and all later drops removed, in the order performed, whatever caching or prefetching has happened.", "quantifier": "every sequence of add, drop, store, get and prefetch operations, every cache level", "why_tests_cant": "Interaction of four tables over unbounded histories.", "anchors": ["src/storage/indexes.c:kno_index_get", "src/storage/indexes.c:_kno_index_add", "include/kno/indexes.h:kno_index_add", "src/storage/indexes.c:kno_index_drop", "src/storage/indexes.c:kno_index_store"]}
{"id": "C31", "title": "Committing an index does not change what readers see", "statement": "For every key the value read immediately after a successful commit equals the value read immediately before it; after a failed commit too.", "quantifier": "every pending-edit state, every driver outcome, every number of successive commits", "why_tests_cant": "Depends on combinations of pending stores, adds and drops on one key.", "anchors": ["src/storage/indexes.c:index_docommit", "src/storage/indexes.c:kno_commit_index"]}
{"id": "C32", "title": "Edits made while an index commit is running are not lost", "statement": "An edit made by another thread between the commit's snapshot and its completion is visible to reads after the commit.", "quantifier": "every interleaving of edits with the steps of a commit", "why_tests_cant": "A race window inside one call.", "anchors": ["src/storage/indexes.c:index_docommit"]}
{"id": "C33", "title": "Prefetching is invisible", "statement": "Prefetching any set of keys of an index never changes the result of any later read.", "quantifier": "every pending-edit state, every set of keys", "why_tests_cant": "Needs pending stores on uncached keys.", "anchors": ["src/storage/indexes.c:kno_index_prefetch", "src/storage/indexes.c:kno_index_get"]}
{"id": "C34", "title": "Bloom filters have no false negatives", "statement": "Once an element has been added to a bloom filter, every later query for it answers true.", "quantifier": "every sequence of additions, every hash function, every filter size", "why_tests_cant": "All histories and hash collisions.", "anchors": ["src/storage/bloom.c:kno_bloom_op"]}
{"id": "C35", "title": "Graph closure queries return exactly the reachable objects", "statement": "GET* (and tree collection/path queries) returns the start objects and every object reachable through the given slots, nothing else, and terminates on cyclic graphs.", "quantifier": "every finite graph, every set of starting objects", "why_tests_cant": "Cycles and sharing patterns are unbounded.", "anchors": ["src/storage/methods.c:keep_walking", "src/storage/methods.c:kno_get_basis", "src/storage/methods.c:kno_pathp"]}
{"id": "C36", "title": "Nondeterministic application is union over all combinations", "statement": "Applying a function to choice arguments returns the union of its results over every combination of argument elements, each combination applied exactly once, and is empty if any argument is empty.", "quantifier": "every arity, every argument sizes, every function", "why_tests_cant": "Number of combinations is the product of sizes.", "anchors": ["src/apply/apply.c:ndcall", "src/apply/apply.c:ndcall_loop", "src/apply/apply.c:kno_call"]}
{"id": "C37", "title": "OID references can be made by several threads at once", "statement": "When threads convert addresses to references at the same time, each gets a reference that resolves to its address, addresses in different places get different references, and the same address gets the same reference, whatever the schedule.", "quantifier": "every pair of addresses, every schedule of the conversions", "why_tests_cant": "The window between looking up a bucket and entering it is a few instructions wide.", "anchors": ["src/lisp/oids.c:add_base_oid_index", "src/lisp/oids.c:base_oid_lock", "src/lisp/oids.c:kno_make_oid"]}
{"id": "C38", "title": "Operations over OIDs of several pools reach each pool and report failures", "statement": "Locking, committing, finishing, prefetching or swapping out a set of OIDs performs the operation exactly once for every pool that has some of them, with exactly its OIDs, and the result tells whether it failed for any pool.", "quantifier": "every set of OIDs, every assignment of OIDs to pools, every outcome per pool", "why_tests_cant": "Needs several pools with some failing.", "anchors": ["src/storage/pools.c:apply_poolop", "src/storage/pools.c:kno_commit_oids", "src/storage/pools.c:kno_lock_oids"]}
{"id": "C39", "title": "Values committed to a pool file are the values read back from it", "statement": "After any sequence of commits to a pool file, a process that opens the file reads, for every OID, the value last committed for it, nothing for OIDs that were allocated but never stored, and finds other OIDs unallocated; a commit that cannot store one of its values fails and changes nothing.", "quantifier": "every pool file, every sequence of commits with any values, each of the three formats of references", "why_tests_cant": "Positions depend on all previous commits, and limits are only reached by files or values of many megabytes.", "anchors": ["src/drivers/kpool.c:kpool_storen", "src/drivers/kpool.c:update_kpool", "src/drivers/kpool.c:kpool_fetch", "src/storage/streams.c:kno_fetch_chunk_ref"]}
{"id": "C40", "title": "What an index commits is what a fresh copy of it reads", "statement": "After a successful commit, an index opened afresh on the same data returns for every key exactly what the committing index returned before the commit.", "quantifier": "every history of edits and commits, every key, every cache level of either index, every order in which the tables of edits are scanned", "why_tests_cant": "Depends on combinations of pending stores, adds and drops on many keys and on the order of hashtables.", "anchors": ["src/storage/indexes.c:index_docommit", "src/storage/indexes.c:remove_keyvals", "src/drivers/kindex.c:process_drops"]}
{"id": "C41", "title": "Bloom filter results and counts describe what was added", "statement": "The result of adding to a bloom filter is true exactly when something added was not there before, and the count of a filter is the number of values added.", "quantifier": "every filter, every history of calls, single values and choices", "why_tests_cant": "Depends on histories and collisions.", "anchors": ["src/storage/bloom.c:kno_bloom_op", "src/prims/dbprims.c:bloom_add"]}
{"id": "C42", "title": "Bloom filters survive dumping and restoring", "statement": "Writing a bloom filter as a value and reading it back gives a filter with the same answers.", "quantifier": "every filter", "why_tests_cant": "All contents.", "anchors": ["src/storage/bloom.c:dump_bloom", "src/storage/bloom.c:restore_bloom"]}
{"id": "C43", "title": "Integer arithmetic is exact at every size", "statement": "Adding, subtracting, negating and multiplying integers gives exactly the integer it should, whatever the sizes of the arguments; no intermediate step overflows.", "quantifier": "every pair of integers, machine-word sized or not, of either sign", "why_tests_cant": "The carries, borrows and trial digits that go wrong occur for a vanishing fraction of operands.", "anchors": ["src/lisp/numbers.c:kno_plus", "src/lisp/numbers.c:kno_subtract", "src/lisp/numbers.c:kno_multiply", "src/lisp/numbers.c:kno_bigint_add", "src/lisp/numbers.c:kno_bigint_multiply"]}
{"id": "C44", "title": "Quotient and remainder of integers of every size", "statement": "The quotient of two integers is truncated towards zero, the remainder has the sign of the dividend, the modulo that of the divisor, and dividend = quotient * divisor + remainder. A zero divisor is reported as an error.", "quantifier": "every pair of integers, including zero divisors", "why_tests_cant": "The add-back step of long division is reached with probability about 2^-29 on random operands.", "anchors": ["src/lisp/numbers.c:kno_quotient", "src/lisp/numbers.c:kno_remainder", "src/lisp/numbers.c:kno_bigint_divide", "src/lisp/numbers.c:bigint_divide_unsigned_normalized", "src/eval/arith.c:quotient_prim", "src/eval/arith.c:remainder_prim", "src/eval/arith.c:modulo_prim"]}
{"id": "C45", "title": "One representation for each integer", "statement": "Two integers which are numerically equal are the same value (equal?, the same table key), however they were computed.", "quantifier": "every integer and every computation leading to it", "why_tests_cant": "Fails only at the two ends of the fixnum range.", "anchors": ["src/lisp/numbers.c:simplify_bigint", "src/lisp/numbers.c:kno_plus", "include/kno/numbers.h:KNO_INT"]}
{"id": "C46", "title": "Numbers are compared by value", "statement": "The numeric comparisons of exact numbers (integers of any size and ratios) agree with the order of the numbers.", "quantifier": "every pair of exact numbers", "why_tests_cant": "All sizes and signs.", "anchors": ["src/lisp/numbers.c:kno_numcompare", "src/lisp/numbers.c:kno_bigint_compare"]}
{"id": "C47", "title": "Ratios are exact and in lowest terms", "statement": "Sums, differences, products and quotients of exact numbers are exact; the result is an integer if its value is one, and otherwise a ratio in lowest terms with a positive denominator.", "quantifier": "every pair of exact numbers", "why_tests_cant": "All numerators and denominators of either sign.", "anchors": ["src/lisp/numbers.c:make_rational", "src/lisp/numbers.c:kno_divide"]}
{"id": "C48", "title": "gcd and lcm", "statement": "(gcd x y) is the greatest common divisor and (lcm x y) the least common multiple, never negative.", "quantifier": "every pair of integers of any size and sign", "why_tests_cant": "All sizes; both zero.", "anchors": ["src/lisp/numbers.c:int_gcd", "src/lisp/numbers.c:int_lcm", "src/lisp/numbers.c:fix_gcd"]}
{"id": "C49", "title": "Integers survive printing and reading", "statement": "Writing an integer in a radix and reading the digits back in the same radix gives the same integer.", "quantifier": "every integer of any size and every radix supported", "why_tests_cant": "All sizes, both signs.", "anchors": ["src/lisp/numbers.c:kno_bigint_to_digit_stream", "src/lisp/numbers.c:kno_digit_stream_to_bigint", "src/lisp/numbers.c:output_bigint"]}
{"id": "C50", "title": "Conversion to and from machine words", "statement": "A machine word becomes the integer of its value, and an integer which fits a word becomes that word; one which does not fit is reported.", "quantifier": "every machine word (signed and unsigned) and every integer", "why_tests_cant": "Fails at single values (the ends of the ranges).", "anchors": ["src/lisp/numbers.c:kno_long_long_to_bigint", "src/lisp/numbers.c:kno_ulong_long_to_bigint", "src/lisp/numbers.c:kno_bigint_to_long_long", "src/lisp/numbers.c:kno_bigint_fits_in_word_p"]}
{"id": "C51", "title": "Powers and rounding of exact numbers", "statement": "(pow x n) is exactly x multiplied by itself n times; floor, ceiling and truncate give the integers next to an exact number on the side their name says, and round the nearest one.", "quantifier": "every exact number and every exponent in the range supported", "why_tests_cant": "All sizes and signs, and all denominators.", "anchors": ["src/eval/arith.c:pow_prim", "src/eval/arith.c:floor_prim", "src/eval/arith.c:ceiling_prim", "src/eval/arith.c:truncate_prim", "src/eval/arith.c:round_prim"]}
{"id": "C52", "title": "What is committed to an index file is what is read from it", "statement": "After any sequence of commits to a key index file, fetching any key, in the same session or after reopening the file, returns exactly the values that the successful commits leave the key: those stored or present before, less those dropped, plus those added, each once.", "quantifier": "all keys, values, hash functions, numbers of buckets, reference formats, and all sequences of commits, successful or not", "why_tests_cant": "Which blocks and chains of blocks a key's values are spread over depends on the whole history of commits and on which keys share a bucket; the failures are at particular combinations of them.", "anchors": ["src/drivers/kindex.c:kindex_fetch", "src/drivers/kindex.c:kindex_save", "src/drivers/kindex.c:update_keybucket", "src/drivers/kindex.c:write_keybucket", "src/drivers/kindex.c:read_keybucket", "src/drivers/kindex.c:update_kindex_ondisk"]}
{"id": "C53", "title": "Fetching several keys at once gives what fetching each does", "statement": "For every list of keys, the prefetching or multi-key fetch of an index file returns, for each key, exactly the values that fetching that key alone returns.", "quantifier": "all lists of keys, with repetitions, and all files that any history of commits leaves", "why_tests_cant": "The two are separate implementations, with different ways of skipping values and following chains of blocks.", "anchors": ["src/drivers/kindex.c:fetchn", "src/drivers/kindex.c:kindex_fetchn", "src/drivers/kindex.c:kindex_fetch"]}
{"id": "C54", "title": "The keys and sizes an index file lists are those it has", "statement": "Listing the keys of an index file gives every key that has values, no others, and each once; as many as the index says it has; and the sizes given are the numbers of their values.", "quantifier": "all files that any history of commits leaves", "why_tests_cant": "The number of keys is kept incrementally over all commits, and entries are never removed.", "anchors": ["src/drivers/kindex.c:kindex_fetchkeys", "src/drivers/kindex.c:kindex_fetchinfo", "src/drivers/kindex.c:kindex_fetchsize"]}
{"id": "C55", "title": "A crash while an index is committed leaves all of the commit or none of it", "statement": "If the process or the machine stops anywhere in a commit to an index file, or again while the file is recovered, then after opening it either every key has its values from before the commit, or every key has its values from after it, and listing the keys agrees.", "quantifier": "all commits, crash points, subsets of unsynced bytes that reached the disk, and further crashes during recovery", "why_tests_cant": "The crash points and the subsets of bytes that may have been written are too many to try.", "anchors": ["src/drivers/kindex.c:kindex_commit", "src/drivers/kindex.c:update_kindex_ondisk", "src/storage/alcor.c:apply_head", "src/storage/drivers.c:kno_check_rollback"]}
{"id": "C56", "title": "What is printed for a value is read back as that value", "statement": "Printing any value with the standard printer and reading the text gives the same value back, whatever follows the text, and two different values never print alike.", "quantifier": "all values built from numbers, symbols, strings, characters, constants, OIDs, packets, pairs, vectors, choices, tables and records, to any depth", "why_tests_cant": "The values are nested without bound, and names and strings may have any characters; the places where printer and parser disagree are single characters in single positions.", "anchors": ["src/lisp/unparse.c:kno_unparse", "src/lisp/unparse.c:emit_symbol_name", "src/lisp/parse.c:kno_parser", "src/lisp/parse.c:kno_parse_atom", "src/lisp/numbers.c:parse_number"]}
{"id": "C57", "title": "White space and comments between the parts of a text do not change what it means", "statement": "Whatever white space and comments are put between the parts of a text, and however a list is written, reading it gives the same values; and a file of texts is read as exactly the values laid out in it, in order.", "quantifier": "all values, all layouts of them, with any white space and comments of any length", "why_tests_cant": "There are unboundedly many layouts of each value, and comments may contain anything.", "anchors": ["src/lisp/parse.c:skip_whitespace", "src/lisp/parse.c:kno_parser", "src/lisp/parse.c:parse_list", "src/lisp/parse.c:kno_parse_expr"]}
{"id": "C58", "title": "A value given as an argument is the value taken", "statement": "The text written for a value as a command argument or configuration value is taken back as that value: strings as strings, numbers as numbers, and other values as themselves.", "quantifier": "all values and all strings", "why_tests_cant": "Any string may be given, and which first characters are special differs between writing and reading.", "anchors": ["src/lisp/unparse.c:kno_unparse_arg", "src/lisp/parse.c:kno_parse_arg", "src/lisp/parse.c:kno_read_arg"]}
{"id": "C59", "title": "A stream behaves as a file with a position", "statement": "Reading, writing, seeking, appending, and reading and writing at given positions through a buffered stream give what they would give on the file itself with a current position, whatever the size of the buffer and however much the system reads ahead, and every operation returns.", "quantifier": "all files, all buffer sizes, all histories of operations and all amounts read ahead", "why_tests_cant": "Whether an operation finds its bytes in the buffer, in the file or waiting to be written depends on the whole history, the buffer's size and what the system reads ahead.", "anchors": ["src/storage/streams.c:kno_fill_stream", "src/storage/streams.c:kno_flush_stream", "src/storage/streams.c:kno_set_direction", "src/storage/streams.c:_kno_setpos", "include/kno/streams.h:kno_endpos", "src/storage/streams.c:kno_read_block", "src/storage/streams.c:kno_write_4bytes_at", "src/storage/streams.c:kno_stream_write", "src/storage/streams.c:kno_stream_read", "src/lisp/bufio.c:kno_needs_space"]}
{"id": "C60", "title": "Nothing written to a stream is lost or misplaced", "statement": "When a stream is closed, or flushed while it is writing, the file holds all that was written, where it was written, and nothing else has changed.", "quantifier": "all files, all buffer sizes and all histories of operations", "why_tests_cant": "The buffer is written out at moments that depend on its size and on the lengths of everything written before.", "anchors": ["src/storage/streams.c:kno_close_stream", "src/storage/streams.c:kno_flush_stream", "src/lisp/bufio.c:check_output_buffer", "include/kno/bufio.h:kno_write_bytes"]}
{"id": "C61", "title": "Read-only streams never change their file", "statement": "Whatever is done with a stream that was opened for reading only, its file stays as it is, and attempts to write to it fail.", "quantifier": "all files, all buffer sizes and all histories of operations, also misused ones", "why_tests_cant": "All orders of operations have to be covered, also those that go from reading to writing and back.", "anchors": ["src/storage/streams.c:kno_set_direction", "src/storage/streams.c:kno_write_4bytes_at", "include/kno/bufio.h:kno_write_bytes"]}
{"id": "C62", "title": "A value is kept for as long as it can be reached, by any number of threads", "statement": "However many threads make, share, pass on and drop references to values at the same time, a value that some thread holds, that is on its way to one, that is static, or that is in another such value, is not freed, keeps its contents and its type, and can be used without an error; nothing is freed twice or touched after it was freed.", "quantifier": "all numbers of threads, all histories of making values and of making, passing on and dropping references, all interleavings of the atomic operations on reference counts, all shapes of values", "why_tests_cant": "Reference counts go wrong only when operations of different threads fall between each other in particular ways, which no test can force, and on values whose counts reach limits that tests don't.", "anchors": ["include/kno/cons.h:_kno_incref", "include/kno/cons.h:_kno_decref", "src/lisp/recycle.c:kno_recycle_cons", "src/lisp/recycle.c:recycle_list"]}
{"id": "C63", "title": "A value that cannot be reached is freed, once", "statement": "When all threads have finished what they were doing, every value that cannot be reached any more has been freed, exactly once, together with what was only reachable through it; and freeing takes a number of steps that is bounded, whatever the scheduling.", "quantifier": "all numbers of threads, histories and interleavings, all shapes of values", "why_tests_cant": "Leaks and double frees depend on which thread drops the last reference; a long-running server meets interleavings that tests do not.", "anchors": ["include/kno/cons.h:_kno_decref", "src/lisp/recycle.c:kno_recycle_cons", "src/lisp/recycle.c:recycle_list", "src/lisp/recycle.c:recycle_vector"]}
{"id": "C64", "title": "Equal names are the same symbol in all threads, different names different ones", "statement": "Whenever and in whichever threads names are interned, and however often the symbol table grows meanwhile, calls with the same name return the same symbol and calls with different names return different symbols; looking a name up without interning it finds the same symbol, and finds it once some call has returned it; calls return.", "quantifier": "all names, all numbers of threads, all histories of interning and looking up, all interleavings of their accesses to memory, all initial sizes of the table", "why_tests_cant": "The table is searched without a lock while other threads add to it and replace it; what can go wrong depends on interleavings of single reads and writes and on collisions of hashes.", "anchors": ["src/lisp/symbols.c:probe_symbol", "src/lisp/symbols.c:kno_make_symbol", "src/lisp/symbols.c:kno_probe_symbol", "src/lisp/symbols.c:grow_symbol_tables"]}
{"id": "C65", "title": "A symbol's string is the name it was interned from", "statement": "At all times after a symbol was returned for a name, its string is that name.", "quantifier": "all names, all histories and interleavings as for C64", "why_tests_cant": "The array of names is replaced while it is used, and names may be any bytes.", "anchors": ["src/lisp/symbols.c:kno_make_symbol", "src/lisp/symbols.c:grow_symbol_tables", "include/kno/ptr.h:KNO_SYMBOL_NAME"]}
{"id": "C66", "title": "Sequence functions treat every kind of sequence as the list of its elements", "statement": "length, elt, slice, rest, reverse, append, remove, remove-if, map, reduce, every? and some? do with a vector, list, string, packet, vector of numbers or compound what they do with the list of its elements: slices are the elements in the range, reverse reverses, append concatenates, remove filters, map applies the function in order, reduce folds from the left; ranges that are not in the sequence are errors.", "quantifier": "all kinds of sequences, all elements, all offsets and ranges, all functions", "why_tests_cant": "Each function has a branch of its own for each kind of sequence, and strings are counted in characters of several bytes; tests try few of the combinations of kinds and ranges.", "anchors": ["src/lisp/sequences.c:kno_seq_elt", "src/lisp/sequences.c:kno_slice", "src/lisp/sequences.c:kno_reverse", "src/lisp/sequences.c:kno_append", "src/lisp/sequences.c:kno_remove", "src/lisp/sequences.c:kno_makeseq", "src/prims/seqprims.c:kno_mapseq", "src/prims/seqprims.c:kno_reduce", "src/prims/seqprims.c:kno_removeif"]}
{"id": "C67", "title": "Positions are those of the first or last occurrence in the range", "statement": "position and position-if return the first position in the given range whose element is the one asked for or passes the test, rposition the last one, search the first position at which a sequence occurs within the range, and #f when there is none; find and match? tell whether there is one.", "quantifier": "all kinds of sequences, all keys and tests, all ranges", "why_tests_cant": "There is a loop for each kind of sequence and several for strings; ranges and repeated elements matter for the result.", "anchors": ["src/lisp/sequences.c:kno_position", "src/lisp/sequences.c:kno_rposition", "src/lisp/sequences.c:kno_search", "src/lisp/sequences.c:kno_generic_position", "src/lisp/sequences.c:kno_generic_search", "src/prims/seqprims.c:position_if_prim", "src/prims/seqprims.c:seqmatch_prim"]}
{"id": "C68", "title": "Sequence functions do not reveal secrets", "statement": "The bytes of a secret are not returned as elements, positions in it are not told, and sequences made from it are secrets.", "quantifier": "all secrets, all offsets, keys and ranges", "why_tests_cant": "One way in which bytes get out is enough.", "anchors": ["src/lisp/sequences.c:kno_seq_elt", "src/lisp/sequences.c:kno_slice", "src/lisp/sequences.c:kno_position", "src/prims/seqprims.c:rest"]}
{"id": "C69", "title": "Programs have the values lexical scope gives them", "statement": "Evaluating a program gives the value (or the error) it has by lexical scope with mutable variables: a procedure sees the variables of the place where it was written, each call and each round of a loop has variables of its own, assignments are seen by all procedures which share the variable. That environments are kept on the C stack until they are captured, copied to the heap then, reset in loops and reused by tail calls makes no difference.", "quantifier": "all programs of variables, assignments, definitions, procedures with defaults and rest arguments, applications, conditionals, let, let*, letrec, do and primitives, all limits for tail calls", "why_tests_cant": "It depends on when environments are captured in relation to every assignment and call; tests can only try some programs.", "anchors": ["src/eval/lambda.c:lambda_call", "src/eval/lambda.c:lambda_setup", "src/apply/lexenv.c:kno_dynamic_lexenv", "src/eval/eval.c:kno_bind_value", "src/eval/eval.c:kno_assign_value", "src/eval/eval_internals.h:eval_symbol", "src/eval/binders.c:let_evalfn", "src/eval/binders.c:letrec_evalfn", "src/eval/binders.c:do_evalfn"]}
{"id": "C70", "title": "Loops by tail calls run in constant space", "statement": "A call in tail position does not add to the number of procedure calls in progress, beyond a bound given by the sizes of the procedures involved, however many tail calls follow each other.", "quantifier": "all sequences of calls, in tail position and not, of procedures of all sizes", "why_tests_cant": "The sequence of calls is not bounded.", "anchors": ["src/eval/lambda.c:lambda_call", "src/eval/eval_internals.h:eval_body"]}
{"id": "C71", "title": "Text patterns match what they describe", "statement": "The ends which text/matchlen gives for a pattern at a place are exactly those of the pieces of text starting there which the pattern describes: strings, characters, choices, sequences, repetitions, options, negations, intersections, preferences, character classes and line and text boundaries composed in any way; text/match is true if the pattern describes all of the text. A greedy pattern has at most one result.", "quantifier": "all patterns of these operators, nested in any way, all texts, all offsets", "why_tests_cant": "Patterns nest without bound; each operator has to be right for whatever its subpatterns match.", "anchors": ["src/text/match.c:kno_text_domatch", "src/text/match.c:match_sequence", "src/text/match.c:match_repeatedly", "src/text/match.c:match_not", "src/text/texttools.c:textmatcher", "src/text/texttools.c:textmatch"]}
{"id": "C72", "title": "Searching finds the first match", "statement": "text/search answers with the first place from the offset where the pattern matches, and with false only if it matches nowhere.", "quantifier": "all patterns, texts and offsets", "why_tests_cant": "Each operator has its own shortcut for searching, which must agree with matching at every place.", "anchors": ["src/text/match.c:kno_text_search", "src/text/match.c:strsearch", "src/text/match.c:search_and", "src/text/match.c:search_pref", "src/text/texttools.c:textsearch"]}
{"id": "C73", "title": "Gathering, substituting and slicing go by the occurrences", "statement": "text/gather gives the occurrences of a pattern (from left to right, not overlapping, each as long as possible), text/gather* the longest match at every place, text/subst replaces the occurrences and keeps everything else, and text/slice cuts the text there; when separators are kept, the slices put together are the text.", "quantifier": "all patterns, texts, offsets, replacements and ways to keep separators", "why_tests_cant": "The loops depend on how searching and matching interact, e.g. on matches of empty text.", "anchors": ["src/text/texttools.c:textgather_base", "src/text/texttools.c:textsubst", "src/text/texttools.c:textslice"]}
{"id": "C74", "title": "find-frames finds exactly the indexed frames", "statement": "After any history of index-frame calls and searches, find-frames returns exactly those frames which were indexed, in the indexes searched, under one of the slots and one of the values of every conjunct; indexes may have one, several or no keyslots, and may be aggregates of others.", "quantifier": "all histories of indexing and searching, all keyslots, all nestings of aggregate indexes, all choices of slots and values", "why_tests_cant": "Keys depend on the keyslot of the index a frame lands in, which depends on the aggregate's parts; caches make answers depend on what was asked before.", "anchors": ["src/storage/slotindexes.c:kno_index_frame", "src/storage/slotindexes.c:kno_finder", "src/storage/slotindexes.c:index_prim_find", "src/storage/slotindexes.c:aggregate_prim_find", "src/storage/slotindexes.c:get_writable_slotindex"]}
{"id": "C75", "title": "Merging an index adds what the other has for its slots", "statement": "After a temporary index or a hashtable has been merged into an index, the index has, for the slots it is for, what it had before and what had been added to the other, and nothing else.", "quantifier": "all contents of both, all combinations of keyslots", "why_tests_cant": "There are twelve combinations of keyslots, each with its own code, and keys take different forms on the two sides.", "anchors": ["src/storage/slotindexes.c:kno_slotindex_merge", "src/storage/indexes.c:kno_index_merge"]}
{"id": "C76", "title": "Values computed by slot methods are those of what is stored now", "statement": "After any history of adding and dropping values, getting and testing slots and clearing caches, getting a slot which has methods gives what its methods give for what is stored at that moment, and testing a value tells whether it is among them: cached values are never out of date and what was asked before makes no difference.", "quantifier": "all schemas of methods, all histories, all frames and slots", "why_tests_cant": "Whether a cached value is cleared depends on which slots the method happened to read, which of those were cached at the time, and what changed since.", "anchors": ["src/storage/frames.c:kno_frame_get", "src/storage/frames.c:kno_frame_test", "src/storage/frames.c:kno_frame_add", "src/storage/frames.c:kno_frame_drop", "src/storage/frames.c:kno_decache", "src/storage/frames.c:record_dependencies"]}
{"id": "C77", "title": "JSON output reads back as what was written", "statement": "What ->json writes for a value is JSON, and jsonparse with the same flags reads it as the same value: integers, strings, booleans, vectors and tables, and other objects where the flags provide for them.", "quantifier": "all values of any depth, all settings of the flags, whatever follows in the input", "why_tests_cant": "Escapes, keys and flags interact; which strings, keys and characters come back can only be told for all of them.", "anchors": ["src/web/json.c:json_unparse", "src/web/json.c:json_escape", "src/web/json.c:json_slotval", "src/web/json.c:json_parse"]}
{"id": "C78", "title": "jsonparse reads JSON as what it means", "statement": "Every JSON text, with any white space, is read as the value it denotes and reading stops right after it; what is not JSON is an error, and reading always ends.", "quantifier": "all JSON texts and all other texts, all settings of the flags", "why_tests_cant": "The grammar is recursive and has unboundedly many texts; suites hold samples of it.", "anchors": ["src/web/json.c:json_parse", "src/web/json.c:json_vector", "src/web/json.c:json_table", "src/web/json.c:json_key", "src/web/json.c:json_string", "src/web/json.c:json_slotid"]}
{"id": "C79", "title": "Sorting puts values in order and keeps them all", "statement": "sorted gives a vector of all the elements of a choice in the order of their keys, rsorted the same in reverse, and lispval_sort puts every array in order without looking outside of it; numbers come first and by value, OIDs by address, strings by their bytes. A key function which fails makes the whole fail.", "quantifier": "all choices, all key functions, all keys, every way the C library's qsort arranges equal elements", "why_tests_cant": "Whether a comparison is consistent enough to sort by depends on triples of values of all types, and the quicksort has no bounds check of its own.", "anchors": ["src/lisp/compare.c:lispval_sort", "src/lisp/compare.c:lispval_compare", "include/kno/sorting.h:_kno_sort_helper", "src/eval/choiceops.c:sorted_primfn"]}
{"id": "C80", "title": "pick-max, pick-min, max/sorted and min/sorted give the best elements", "statement": "The k elements with the largest (smallest) keys are given, or all when there are fewer, and max/sorted and min/sorted give them in order; with justnums only elements with numeric keys count.", "quantifier": "all choices, key functions, numbers of elements asked for", "why_tests_cant": "One comparison decides whether an element is kept and another sorts those kept; whether they agree depends on the types and signs of the keys.", "anchors": ["src/eval/choiceops.c:select_helper", "src/eval/choiceops.c:pick_max_helper", "src/eval/choiceops.c:pick_min_helper", "src/eval/choiceops.c:max_sorted_helper", "src/eval/choiceops.c:min_sorted_helper"]}
{"id": "C81", "title": "largest and smallest give exactly the elements of extreme magnitude", "statement": "Exactly the elements whose magnitude is largest (smallest) among all are given; elements without magnitude are passed over, and a magnitude which is an error makes the whole an error.", "quantifier": "all choices and magnitude functions", "why_tests_cant": "The result is gathered in one pass in the order of storage; ties, missing magnitudes and types may come in any order.", "anchors": ["src/eval/choiceops.c:largest_prim", "src/eval/choiceops.c:smallest_prim", "src/eval/choiceops.c:compare_lisp"]}
{"id": "C82", "title": "pick-n, getrange and pick> give the elements they should", "statement": "pick-n gives as many elements as asked for, from the offset or from a random place; getrange gives the numbers between its bounds, each once; pick> gives the items above the smallest bound.", "quantifier": "all choices, counts, offsets, bounds and random numbers", "why_tests_cant": "Boundaries between counts, offsets and sizes, and the widths of the C integers, matter.", "anchors": ["src/eval/choiceops.c:pickn", "src/eval/choiceops.c:getrange_prim", "src/eval/choiceops.c:pick_gt_prim"]}
{"id": "C83", "title": "exists and forall quantify over all combinations of the arguments", "statement": "exists is true exactly when some function gives a true value for some combination of elements of the arguments, forall exactly when every one does for every combination; failures are reported, or skipped by the skiperrs variants.", "quantifier": "all functions, any number of arguments, each a choice of any size", "why_tests_cant": "The search stops early and skips errors in the middle; the combinations are unboundedly many.", "anchors": ["src/eval/choiceops.c:test_exists", "src/eval/choiceops.c:exists_helper", "src/eval/choiceops.c:test_forall", "src/eval/choiceops.c:forall_helper"]}
{"id": "C84", "title": "cachecall gives what the call would give, and calls once", "statement": "cachecall of a function gives what calling it would give, whatever was remembered, cleared or asked for before; a call which has given a value is not made again until it is cleared; cachedcall? and cachecall/probe tell the truth; errors are reported and leave the cache usable.", "quantifier": "all programs that call remembered functions (which may call each other), all histories of calls, probes and clearings", "why_tests_cant": "The caches hold results of nested and recursive calls made in any order; reference counts of the tables depend on the whole history.", "anchors": ["src/storage/cachecall.c:kno_xcachecall", "src/storage/cachecall.c:kno_cachecall", "src/storage/cachecall.c:kno_cachecall_try", "src/storage/cachecall.c:kno_clear_callcache", "src/storage/cachecall.c:kno_cachecall_probe"]}
{"id": "C85", "title": "ipeval gives what evaluation would give", "statement": "ipeval of an expression, which evaluates it repeatedly and fetches in batches what it found missing, ends with the value the expression has when everything is fetched as it is needed.", "quantifier": "all programs reading indexes, all contents of the indexes", "why_tests_cant": "Which keys are put aside in a round depends on what earlier rounds fetched; the number of rounds is unbounded.", "anchors": ["src/storage/ipeval.c:kno_ipeval_call", "include/kno/indexes.h:kno_index_get", "src/storage/indexes.c:kno_index_fetch", "src/storage/indexes.c:kno_execute_index_delays", "src/storage/indexes.c:kno_index_prefetch"]}
{"id": "C86", "title": "A promise is evaluated once, and all who force it get its value", "statement": "However many threads force a promise at the same time, its expression is evaluated at most once, every thread is given its value, none waits for ever, and probing it never shows anything else than what the evaluation came to.", "quantifier": "all schedules of any number of threads forcing a promise any number of times, all outcomes of the evaluation", "why_tests_cant": "Interleavings of reads and writes made with and without the lock are unboundedly many.", "anchors": ["src/eval/promises.c:force_eval_promise", "src/eval/promises.c:force_promise_prim", "src/eval/promises.c:probe_promise_prim", "src/apply/futures.c:kno_force_future", "src/apply/futures.c:kno_change_future"]}
{"id": "C87", "title": "A log index has what was committed to it", "statement": "After any history of commits, fetches, swapping out and reopening, a log index gives for each key exactly the values the commits give it: what an index showed before its changes were committed is what is found afterwards. Sizes count the values, and the keys are those which have values.", "quantifier": "all histories of commits of any keys and values, fetches, swapping out, reopening and commits cut short before the header", "why_tests_cant": "The content is the result of replaying the whole log, which can have any length and hold any values.", "anchors": ["src/drivers/logindex.c:logindex_save", "src/drivers/logindex.c:load_logindex", "src/drivers/logindex.c:open_logindex", "src/drivers/logindex.c:logindex_fetch", "src/drivers/logindex.c:logindex_fetchkeys", "src/drivers/logindex.c:logindex_fetchsize", "src/storage/tables.c:do_hashtable_op"]}
{"id": "C88", "title": "A commit to a log index which is cut short is not there in part", "statement": "If the program ends at any moment of a commit to a log index, the index opened again has either exactly what it had before or all that was committed, and later commits to it are kept.", "quantifier": "all crash points of all commits after all histories", "why_tests_cant": "Every number of bytes written is a crash point, and what is on the disk may not follow the order of the writes.", "anchors": ["src/drivers/logindex.c:logindex_save", "src/drivers/logindex.c:load_logindex", "src/drivers/logindex.c:open_logindex"]}
{"id": "C89", "title": "A quasiquoted template gives what the rule of quasiquotation says", "statement": "A quasiquotation gives its template with each unquoted expression replaced by its value and each spliced one by the elements of its value, minding the levels of nested quasiquotations, in lists, vectors, choices and slotmaps; the unquoted expressions are evaluated once each, from left to right; an error in one of them is an error of the whole; and a template without unquotations is itself.", "quantifier": "all templates of any depth and nesting, all evaluators with any effects", "why_tests_cant": "Templates nest without bound, and what an expression gives may depend on all that was evaluated before it.", "anchors": ["src/eval/quasiquote.c:kno_quasiquote", "src/eval/quasiquote.c:quasiquote_list", "src/eval/quasiquote.c:quasiquote_vector", "src/eval/quasiquote.c:quasiquote_slotmap", "src/eval/quasiquote.c:quasiquote_choice", "src/eval/quasiquote.c:quasiquote_evalfn"]}
{"id": "C90", "title": "Errors reach their handlers, throws their targets, and cleanups are always done", "statement": "However an expression ends - with a value, an error, a throw to a continuation or a break - the cleanups of the unwind-protect forms and the last parts of the dynamic-wind forms around it are done, once each and in order; an error reaches the innermost handler around it with its own condition and irritant, a throw gives its value at its own call/cc, and once an error has been handled nothing of it is left behind.", "quantifier": "all programs built from the error handling, cleanup and continuation forms, nested without bound, around actions with any outcome depending on all that was done before; all ways of restoring exceptions which put the restored one first", "why_tests_cant": "The forms nest without bound, each may end in four ways at each level, and the exception kept beside the result is changed by every one of them.", "anchors": ["src/eval/errfns.c:unwind_protect_evalfn", "src/eval/errfns.c:dynamic_wind_evalfn", "src/eval/errfns.c:onerror_evalfn", "src/eval/errfns.c:catcherr_evalfn", "src/eval/errfns.c:ignore_errors_evalfn", "src/eval/errfns.c:report_errors_evalfn", "src/eval/errfns.c:irritant_evalfn", "src/eval/evalops.c:callcc", "src/eval/evalops.c:call_continuation", "src/apply/apply.c:core_call", "src/sys/errobjs.c:kno_wrap_exception"]}
{"id": "C91", "title": "URI encoding and decoding are inverse", "statement": "uriencode leaves letters, digits and -._~ alone (or, given characters to escape, escapes exactly these, spaces, +%=&#; and all bytes above 127), writing everything else as % and two hexadecimal digits; uridecode accepts exactly the encodings and gives the text encoded, so decoding what was encoded gives back any text, and different texts have different encodings.", "quantifier": "all texts of bytes, all sets of characters to escape, both cases of the digits, all inputs of the decoder", "why_tests_cant": "There are unboundedly many texts and sets of characters, and a wrong class of bytes shows only for the bytes in it.", "anchors": ["src/web/uriprims.c:uri_output", "src/web/uriprims.c:uriencode_prim", "src/web/uriprims.c:uridecode_prim"]}
{"id": "C92", "title": "Query strings are read as the parameters they were made from", "statement": "Reading any query string for a list of names and values stores each value under its name, and under the slot for the name unless it is protected or hidden; the strings made by form->uristring and scripturl are query strings for their parameters; a result holding a secret is itself secret; and reading a query or a cookie stays within the buffer made for it.", "quantifier": "all lists of names and values, all ways of escaping them, all functions from names to slots and sets of protected names, all texts of queries and cookies", "why_tests_cant": "Queries come from outside and may have any bytes at any place; the parser keeps a state between parameters whose effects depend on all those before.", "anchors": ["src/web/uriprims.c:add_query_param", "src/web/uriprims.c:form_encode_prim", "src/web/uriprims.c:scripturl_core", "src/web/cgiexec.c:parse_query_string", "src/web/cgiexec.c:convert_cookie_arg"]}
{"id": "C93", "title": "The parts of a URI are those of its text", "statement": "The scheme, host, path, base, query and fragment of a URI are the parts its text has by the delimiters, and put together again give the text; parsing a URI into a table gives its scheme, host, port, decoded path elements, query and fragment, and turning such a table into text and parsing that gives back the table; making a data URI stays within its memory.", "quantifier": "all texts; all tables with a known scheme, a host, a port and a path of any length", "why_tests_cant": "Every combination of present, absent and oddly placed delimiters is a different case, and the elements of paths may be any text.", "anchors": ["src/web/uriprims.c:kno_parse_uri", "src/web/uriprims.c:breakup_path", "src/web/uriprims.c:handle_path_end", "src/web/uriprims.c:unparseuri", "src/web/uriprims.c:urischeme_prim", "src/web/uriprims.c:urihost_prim", "src/web/uriprims.c:urifrag_prim", "src/web/uriprims.c:uriquery_prim", "src/web/uriprims.c:uribase_prim", "src/web/uriprims.c:uripath_prim", "src/web/uriprims.c:datauri_prim"]}
{"id": "C94", "title": "Integers of any size add, subtract, multiply, divide and have divisors exactly", "statement": "The sum, difference and product of two integers, their quotient, remainder and modulo by one other than zero, and their greatest common divisor are the mathematical ones, whether the numbers are fixnums or bigints and whatever the sizes; a product of any number of exact factors is exact; and nothing overflows on the way.", "quantifier": "all pairs of integers in either representation, all lists of factors", "why_tests_cant": "Carries and borrows between digits, and the change of representation, happen for pairs of numbers spread through an unbounded space.", "anchors": ["src/lisp/numbers.c:kno_plus", "src/lisp/numbers.c:kno_subtract", "src/lisp/numbers.c:kno_multiply", "src/lisp/numbers.c:kno_bigint_add", "src/lisp/numbers.c:kno_bigint_multiply", "src/lisp/numbers.c:kno_quotient", "src/lisp/numbers.c:kno_remainder", "src/lisp/numbers.c:kno_bigint_divide", "src/lisp/numbers.c:bigint_divide_unsigned_normalized", "src/eval/arith.c:quotient_prim", "src/eval/arith.c:remainder_prim", "src/eval/arith.c:modulo_prim"]}
{"id": "C95", "title": "Exact fractions add, subtract, multiply and round to integers exactly", "statement": "Sums, differences, products and absolute values of exact numbers in normal form are exact and in normal form, and floor, ceiling and truncate give the greatest integer not greater, the least not less, and the number without its fraction.", "quantifier": "all pairs of integers and ratios in normal form", "why_tests_cant": "Common factors and signs must be right for every numerator and denominator of any size.", "anchors": ["src/lisp/numbers.c:make_rational", "src/lisp/numbers.c:kno_divide", "src/eval/arith.c:pow_prim", "src/eval/arith.c:floor_prim", "src/eval/arith.c:ceiling_prim", "src/eval/arith.c:truncate_prim", "src/eval/arith.c:round_prim"]}
{"id": "C96", "title": "Bigints written in a radix are read back", "statement": "The digits written for a bigint are those of its magnitude in the radix, without leading zeros, and reading the digits gives back the same bigint.", "quantifier": "all bigints of any size, all radices from 2 to 32767", "why_tests_cant": "Digits depend on repeated division of numbers of unbounded length.", "anchors": ["src/lisp/numbers.c:kno_bigint_to_digit_stream", "src/lisp/numbers.c:kno_digit_stream_to_bigint", "src/lisp/numbers.c:output_bigint"]}
{"id": "C97", "title": "Unions, intersections and overlaps of choices are those of sets", "statement": "The union of values has exactly the elements of any of them, the intersection exactly those of all, both in canonical form, and two values overlap exactly when they share an element.", "quantifier": "one or more values obtained by adding and normalising, with any number of elements, for every consistent order of elements", "why_tests_cant": "The algorithms differ by size, by kind and by state of accumulation of each argument.", "anchors": ["src/lisp/choices.c:kno_union", "src/lisp/choices.c:kno_intersection", "src/lisp/choices.c:kno_difference", "src/lisp/choices.c:kno_intersect_choices"]}
{"id": "C98", "title": "Adding to choices loses and invents nothing", "statement": "Whatever values, choices and accumulations are added together, in whatever order and nesting, normalising gives the canonical value with exactly the elements added, the same whatever the order, and no addition goes outside the memory of an accumulation.", "quantifier": "all sequences and nestings of additions and normalisations", "why_tests_cant": "The state of an accumulation depends on its whole history, and its block grows at points determined by it.", "anchors": ["include/kno/choices.h:__kno_prechoice_add", "src/lisp/choices.c:kno_normalize_choice"]}
{"id": "C99", "title": "Slotmaps are maps", "statement": "After any history of stores, additions, drops, removals, sorting and switching to read-only, getting and testing a key, the number of keys and the keys of a slotmap are those of the map the history describes; only a read-only slotmap or one with 32767 slots refuses a change.", "quantifier": "all histories of operations with any keys and values, for every consistent order of keys", "why_tests_cant": "Insertion, search and growth depend on the whole history; a wrong position shows only for some orders of keys.", "anchors": ["src/lisp/tables.c:kno_slotmap_store", "src/lisp/tables.c:kno_slotmap_add", "src/lisp/tables.c:kno_slotmap_drop", "src/lisp/tables.c:kno_slotmap_delete", "include/kno/tables.h:__kno_slotmap_get"]}
{"id": "C100", "title": "A promise is evaluated once, and keeps its result", "statement": "However threads forcing a promise take turns its expression is evaluated at most once; once it is resolved it stays so, with the value or error which the evaluation came to, which every later forcing gives; what is said of it (resolved, satisfied, broken) is never false; and no thread can be stuck.", "quantifier": "all numbers of threads and all schedules of their steps", "why_tests_cant": "The outcomes depend on how the steps of threads interleave.", "anchors": ["src/eval/promises.c:force_eval_promise", "src/eval/promises.c:force_promise_prim", "src/eval/promises.c:probe_promise_prim", "src/apply/futures.c:kno_force_future", "src/apply/futures.c:kno_change_future"]}
{"id": "C101", "title": "Cleanups are done however the body ends", "statement": "However the body of an unwind-protect ends, with a value, an error, a throw or a break, its cleanup actions are done after it, in order, up to the first which fails, and nothing else is done; so is the last part of a dynamic-wind once its first part gave a value.", "quantifier": "all bodies built from the error handling, cleanup and continuation forms, all outcomes of actions, all states, short of a crash", "why_tests_cant": "The body may end in four ways at any depth of nesting.", "anchors": ["src/eval/errfns.c:unwind_protect_evalfn", "src/eval/errfns.c:dynamic_wind_evalfn", "src/eval/errfns.c:onerror_evalfn", "src/eval/errfns.c:catcherr_evalfn", "src/eval/errfns.c:ignore_errors_evalfn", "src/eval/errfns.c:report_errors_evalfn", "src/eval/errfns.c:irritant_evalfn", "src/eval/evalops.c:callcc", "src/eval/evalops.c:call_continuation", "src/apply/apply.c:core_call", "src/sys/errobjs.c:kno_wrap_exception"]}
{"id": "C102", "title": "Decoding a URI accepts exactly the encodings", "statement": "uridecode gives a text exactly when its input is an encoding of that text, each character standing for itself or written as % and two hexadecimal digits of either case; otherwise it is an error.", "quantifier": "all inputs and all texts", "why_tests_cant": "The inputs come from outside and may be malformed at any place.", "anchors": ["src/web/uriprims.c:uridecode_prim"]}
{"id": "C103", "title": "Closures of slots are exact, and end on every graph", "statement": "Following a slot and itself repeatedly (kleene*) from given objects gives exactly the objects that can be reached, each once, whatever cycles there are, and ends on every finite graph for which there is stack.", "quantifier": "all graphs, all roots, all sets of slots", "why_tests_cant": "Graphs may have any cycles and sharing.", "anchors": ["src/storage/methods.c:keep_walking", "src/storage/methods.c:kno_get_basis", "src/storage/methods.c:kno_pathp"]}
{"id": "C104", "title": "exists and forall are the quantifiers over all combinations", "statement": "When no call fails, exists is true exactly when some combination of arguments and predicates passes, forall exactly when all do, and each is false exactly otherwise, for choices of any sizes.", "quantifier": "all predicates, all lists of choices", "why_tests_cant": "The combinations are as many as the product of the sizes.", "anchors": ["src/eval/choiceops.c:test_exists", "src/eval/choiceops.c:exists_helper", "src/eval/choiceops.c:test_forall", "src/eval/choiceops.c:forall_helper"]}
{"id": "C105", "title": "Output buffers in memory hold exactly what was written", "statement": "After any sequence of writes of bytes, words and blocks into an output buffer in memory it holds exactly what was written, in order, and no write goes outside the block allocated; words are written with the most significant byte first and are read back.", "quantifier": "all initial sizes including zero, all sequences of writes", "why_tests_cant": "The block grows at points depending on the whole sequence.", "anchors": ["include/kno/bufio.h:kno_write_4bytes", "include/kno/bufio.h:kno_write_8bytes", "include/kno/bufio.h:kno_flip_word8", "src/lisp/bufio.c:grow_output_buffer", "include/kno/bufio.h:kno_write_bytes"]}
{"id": "C106", "title": "Length, elements, removal, mapping and reduction of sequences are those of their elements", "statement": "For every sequence that is not a secret the length is the number of its elements, an element is the one at its position (from the end if negative) and other positions are errors, removing an item leaves the other elements in order, mapping gives the values for the elements in order, and reducing applies the function from the first element on.", "quantifier": "all sequences of all kinds and lengths, all positions, items and functions", "why_tests_cant": "Each kind of sequence has its own code, and positions at the ends are special.", "anchors": ["src/lisp/sequences.c:kno_seq_elt", "src/lisp/sequences.c:kno_slice", "src/lisp/sequences.c:kno_reverse", "src/lisp/sequences.c:kno_append", "src/lisp/sequences.c:kno_remove", "src/lisp/sequences.c:kno_makeseq", "src/prims/seqprims.c:kno_mapseq", "src/prims/seqprims.c:kno_reduce", "src/prims/seqprims.c:kno_removeif"]}
{"id": "C107", "title": "A module is loaded once, and every thread asking for it gets it finished", "statement": "However threads asking for modules take turns, at most one of them loads a module, it is loaded once, all of them are given the same module, and only when it was loaded to its end; each thread which asks is answered: with the module, or with an error when loading fails; modules may use each other; of alternatives the first there is is given.", "quantifier": "all numbers of threads, all lists of modules they ask for, all sources using other modules in any way, all schedules including causeless wakeups", "why_tests_cant": "What happens depends on how the steps of threads interleave with loading, registering and finishing a module.", "anchors": ["src/eval/loadmods.c:kno_find_module", "src/eval/loadmods.c:get_module_load_lock", "src/eval/loadmods.c:clear_module_load_lock", "src/eval/modules.c:kno_module_finished", "src/eval/modules.c:become_module", "src/eval/modules.c:kno_discard_module"]}
{"id": "C108", "title": "Using modules makes their exports visible", "statement": "After use-module, a variable without a value in the environment itself has the value exported by the module used last which exports it, and all modules named by the argument are used, whether it is a module, a vector of arguments or a choice of them.", "quantifier": "all environments, all arguments of any nesting, all bindings and variables", "why_tests_cant": "What a variable is depends on the whole chain of modules used before.", "anchors": ["src/eval/modules.c:use_module_helper", "src/eval/modules.c:uses_bindings"]}
{"id": "C109", "title": "Using modules takes nothing away", "statement": "After use-module with a module or a vector of arguments, however nested, the environment's own bindings come first and are as they were, the modules used before are still used in the same order, every module named is used, no other is, and a variable which had a value has one.", "quantifier": "all environments, all modules and vectors of any nesting, all bindings and variables", "why_tests_cant": "What a variable is depends on the whole chain of modules used before.", "anchors": ["src/eval/modules.c:use_module_helper", "src/eval/modules.c:uses_bindings"]}
{"id": "C110", "title": "An aggregate index which does not cache reads as its members together", "statement": "Reading a key through an aggregate index which does not cache gives exactly the values that reading each of its members gives at that time, whatever has been done to the members and the aggregate before, and changes what no index gives.", "quantifier": "all sets of members, all histories of edits, commits with other threads at work, reads, prefetches, swapping out and extensions, all keys and values", "why_tests_cant": "What is read depends on the state of the caches and pending edits of all the members.", "anchors": ["src/storage/aggregates.c:aggregate_fetch", "src/storage/indexes.c:kno_index_fetch"]}
{"id": "C111", "title": "An aggregate index which caches reads as its members together", "statement": "Reading a key through an aggregate index gives exactly the values that reading each of its members gives at that time, whether or not the aggregate caches what it reads.", "quantifier": "all sets of members, all cache levels, all histories of edits, commits, reads, prefetches, swapping out and extensions, all keys and values", "why_tests_cant": "What is read depends on which keys were read through the aggregate before which edits.", "anchors": ["src/storage/aggregates.c:aggregate_fetch", "src/storage/indexes.c:kno_index_fetch"]}
{"id": "C112", "title": "Prefetching through an aggregate index is invisible", "statement": "Prefetching keys through an aggregate index changes nothing that reading through it gives.", "quantifier": "all sets of members, all histories leading to the state, all sets of keys prefetched, all keys read", "why_tests_cant": "It must hold for all combinations of cached values and pending edits.", "anchors": ["src/storage/aggregates.c:aggregate_prefetch", "src/storage/indexes.c:kno_index_prefetch"]}
{"id": "C113", "title": "Fetching several keys at once through an aggregate index", "statement": "Fetching several keys at once through an aggregate index gives for each key the values which reading it gives.", "quantifier": "all sets of members, all states, all vectors of keys", "why_tests_cant": "It must hold for every arrangement of cached and uncached keys.", "anchors": ["src/storage/aggregates.c:aggregate_fetchn", "src/storage/indexes.c:kno_index_fetchn"]}
{"id": "C114", "title": "The keys of an index are those which have values", "statement": "The keys which an index, or an aggregate index, lists are exactly those for which reading gives some value.", "quantifier": "all histories of edits and commits, all keys, all members of aggregates", "why_tests_cant": "It must hold for all combinations of what is on disk and what is pending.", "anchors": ["src/storage/indexes.c:kno_index_keys", "src/storage/aggregates.c:aggregate_fetchkeys"]}
{"id": "C115", "title": "Extending an aggregate index takes effect at once", "statement": "The members of an aggregate are those it was made with and those added, each once; when an index is added which was not a member, or the aggregate is swapped out, reads through the aggregate are right, with the new member's values, whatever happened before; when the index does not cache, they are right from then on.", "quantifier": "all histories before and after, all indexes added, all keys", "why_tests_cant": "It must hold after every history, including those which left wrong values in the aggregate's cache.", "anchors": ["src/storage/aggregates.c:kno_add_to_aggregate_index", "src/storage/indexes.c:kno_index_swapout"]}
{"id": "C116", "title": "Options are looked up in order", "statement": "getopt gives the value of the option in the first of the tables, however they are nested in lists, which has it, and the default when none does; with alternatives among the options or the names it gives the values of all of them together.", "quantifier": "all options, nested to any depth, all names, defaults and values", "why_tests_cant": "Options nest to any depth and width, and false, empty lists and missing entries may stand anywhere.", "anchors": ["src/sys/getopt.c:kno_getopt", "src/eval/options.c:getopt_evalfn"]}
{"id": "C117", "title": "Association lists serve as options", "statement": "When the options are an association list of names and values, getopt gives the value of the first entry with the name, and the default when there is none, whatever the values of other entries are.", "quantifier": "all association lists, names, values and defaults", "why_tests_cant": "It must hold for all values of the entries which are passed over.", "anchors": ["src/sys/getopt.c:kno_getopt"]}
{"id": "C118", "title": "Merged options give precedence to the first", "statement": "What getopt finds in merged options is what it finds in the first of them or, failing that, in the second.", "quantifier": "all pairs of options, all names", "why_tests_cant": "It must hold for all shapes of either of the options, including where one contains the other.", "anchors": ["src/sys/getopt.c:kno_merge_opts"]}
{"id": "C119", "title": "Each argument of opts+ overrides those before it", "statement": "In the result of opts+ each option has the value which the last argument that speaks of it gives it, whether that is some options or a name followed by a value.", "quantifier": "all lists of arguments, of any length and mixture", "why_tests_cant": "It must hold for all orders in which names and options may be mixed.", "anchors": ["src/eval/options.c:opts_plus_prim"]}
{"id": "C120", "title": "Testing for an option agrees with getting it", "statement": "testopt is true exactly when getopt gives a value other than false.", "quantifier": "all options, nested to any depth, all names", "why_tests_cant": "The two walk the options in different ways, which must agree for all shapes.", "anchors": ["src/sys/getopt.c:kno_testopt", "src/sys/getopt.c:boolopt", "src/eval/options.c:testopt_prim"]}
{"id": "C121", "title": "A lock is held by one thread at a time", "statement": "While a thread is in the body of a with-lock, or between locking a mutex, condition variable or read/write lock and releasing it, no other thread is there for the same lock, except that several may hold a read/write lock for reading; the lock is released exactly once, also when the body is aborted; and no thread waits for ever when the others go on.", "quantifier": "all numbers of threads, all sequences of forms, all schedules", "why_tests_cant": "Tests run few of the schedules, and those in which an error in one thread lets two others in are rare.", "anchors": ["src/eval/threads.c:with_lock_evalfn", "src/eval/threads.c:sync_lock", "src/eval/threads.c:sync_read_lock", "src/eval/threads.c:unlock_synchronizer"]}
{"id": "C122", "title": "thread/finish gives what the thread came to", "statement": "thread/finish waits for a thread and gives the value to which its program came, or the exception for its error, to each of the threads which ask for it.", "quantifier": "all programs, all numbers of threads which ask, all schedules", "why_tests_cant": "The result is stored some steps after the thread is marked as done; only some schedules fall in between.", "anchors": ["src/eval/threads.c:_kno_thread_main", "src/eval/threads.c:join_thread", "src/eval/threads.c:threadfinish_prim"]}
{"id": "C123", "title": "The predicates of threads agree with what became of them", "statement": "thread/exited?, thread/finished? and thread/error? say whether the thread has come to its end, with a value or with an error, and thread/result then gives that.", "quantifier": "all programs, all moments at which they are called, all schedules", "why_tests_cant": "The moments at which they are wrong are few.", "anchors": ["src/eval/threads.c:thread_exitedp", "src/eval/threads.c:thread_finishedp", "src/eval/threads.c:thread_errorp", "src/eval/threads.c:thread_result"]}
{"id": "C124", "title": "PARALLEL gathers all the results", "statement": "When parallel returns it has the value of each of its expressions; it uses no result before it is there and no memory after it is freed; and it returns once the threads do.", "quantifier": "all numbers of expressions, all outcomes, all schedules", "why_tests_cant": "The threads may come to their ends in any order, before or after the caller waits for them.", "anchors": ["src/eval/threads.c:parallel_evalfn"]}
{"id": "C125", "title": "Synchronized assignments are atomic", "statement": "The value of a variable which several threads assign with sset! is the one it would have after the same assignments made one after the other, in some order which keeps that of each thread.", "quantifier": "all numbers of threads, all sequences of assignments computed from the variable, all schedules", "why_tests_cant": "Lost updates show only in schedules where two assignments overlap.", "anchors": ["src/eval/threads.c:sassign_evalfn"]}
{"id": "C126", "title": "Synchronized assignments come to an end", "statement": "Every thread gets through its sset! forms when the others go on, also when the expression within one has a sset! in it.", "quantifier": "all numbers of threads, all sequences of assignments, all schedules", "why_tests_cant": "It is about all schedules, and about waiting for ever.", "anchors": ["src/eval/threads.c:sassign_evalfn"]}
{"id": "C127", "title": "Joins wait as long as they are told", "statement": "A join with a timeout waits for the thread until that time has passed.", "quantifier": "all timeouts, all moments at which the join begins", "why_tests_cant": "Whether it does depends on the fraction of the second at which it begins.", "anchors": ["src/eval/threads.c:get_join_wait", "src/eval/threads.c:join_thread"]}
{"id": "C128", "title": "Texts in XML are safe and come back", "statement": "No text which is put out as XML content adds a tag to what is written, and decoding what is written gives the text again.", "quantifier": "all strings", "why_tests_cant": "The characters may be in any order and the text may look like entities or tags.", "anchors": ["src/web/xmloutput.c:entify", "src/web/xmlinput.c:decode_entities", "src/web/xmlinput.c:egetc"]}
{"id": "C129", "title": "Values of attributes are safe and come back", "statement": "No value of an attribute ends the attribute or the tag in which it is written, and reading it gives the value again.", "quantifier": "all strings", "why_tests_cant": "It depends on single characters out of the whole of Unicode.", "anchors": ["src/web/xmloutput.c:attrib_entify", "src/web/xmlinput.c:kno_convert_entities", "src/web/xmlinput.c:kno_default_attribfn"]}
{"id": "C130", "title": "What is read has the elements which were written", "statement": "When a document of elements, attributes and texts is written and then parsed, the result has exactly the elements with the attributes which were written, whatever the texts and values are.", "quantifier": "all documents, of any size and depth", "why_tests_cant": "Texts and values from outside are any strings, and the documents have no bound.", "anchors": ["src/web/xmloutput.c:open_markup", "src/web/xmloutput.c:close_markup", "src/web/xmlinput.c:kno_walk_xml", "src/web/xmlinput.c:kno_parse_xmltag", "src/web/xmlinput.c:read_xmltag"]}
{"id": "C131", "title": "Documents come back from XML", "statement": "Parsing a document which was written, with entities decoded, gives its elements, values of attributes and texts, where texts next to each other are joined.", "quantifier": "all documents, of any size and depth", "why_tests_cant": "As for C130.", "anchors": ["src/web/xmloutput.c:open_markup", "src/web/xmlinput.c:xmlparse_core", "src/web/xmlinput.c:kno_walk_xml", "src/web/xmlinput.c:process_attribs"]}
{"id": "C132", "title": "Parsing XML is defined for every input", "statement": "xmlparse either gives a result or reports an error, for every string.", "quantifier": "all strings", "why_tests_cant": "The inputs which read or free the wrong memory often seem to work.", "anchors": ["src/web/xmlinput.c:xmlparse_core", "src/web/xmlinput.c:kno_get_markup_type", "src/web/xmlinput.c:kno_parse_xmltag", "src/web/xmlinput.c:xmlstep"]}
{"id": "C133", "title": "Comments and CDATA sections are read as they stand", "statement": "Parsing a comment or a CDATA section gives the characters between its beginning and its end.", "quantifier": "all strings in which the end does not occur", "why_tests_cant": "It depends on where `>` and `-` or `]` are.", "anchors": ["src/web/xmlinput.c:kno_walk_xml", "src/web/xmlinput.c:kno_default_contentfn"]}
{"id": "C134", "title": "What was parsed is put out as it was", "statement": "Putting out an element which was parsed gives the text from which it was parsed, or one with the same meaning.", "quantifier": "all documents which were written", "why_tests_cant": "The documents have no bound, and texts are any strings.", "anchors": ["src/web/xmleval.c:kno_xmlout", "src/web/xmleval.c:get_markup_string", "src/web/xmlinput.c:xmlparse_core"]}
{"id": "C135", "title": "Bodies are evaluated in order", "statement": "begin, prog1 and onbreak evaluate their expressions in order, each once, stop at the first error or #break, and return the values they are documented to return.", "quantifier": "all lists of expressions with any effects", "why_tests_cant": "The expressions are arbitrary programs, and each of them may fail or break off.", "anchors": ["src/eval/iterators.c:begin_evalfn", "src/eval/iterators.c:prog1_evalfn", "src/eval/iterators.c:onbreak_evalfn", "src/eval/eval_internals.h:eval_body"]}
{"id": "C136", "title": "and, try and tryif stop where they should", "statement": "and evaluates its clauses in order up to the first which is #f or {} or aborted, try and tryif up to the first which does not fail; that is their value, and later clauses are not evaluated.", "quantifier": "all lists of clauses with any effects", "why_tests_cant": "As for C135.", "anchors": ["src/eval/conditionals.c:and_evalfn", "src/eval/conditionals.c:tryif_evalfn", "src/eval/choiceops.c:try_evalfn"]}
{"id": "C137", "title": "Conditionals agree about what is true", "statement": "if, cond, case, when and unless evaluate the test once and then one branch, the same one for the same test, and return what they are documented to return.", "quantifier": "all tests and branches with any effects", "why_tests_cant": "As for C135.", "anchors": ["src/eval/conditionals.c:if_evalfn", "src/eval/conditionals.c:cond_evalfn", "src/eval/conditionals.c:case_evalfn", "src/eval/conditionals.c:when_evalfn", "src/eval/conditionals.c:unless_evalfn"]}
{"id": "C138", "title": "Loops with a test", "statement": "while and until evaluate test and body in turn for as long as the test says so, pass on errors, and end exactly when the test or the body ends them.", "quantifier": "all tests and bodies with any effects, any number of rounds", "why_tests_cant": "The number of rounds has no bound and depends on the effects of the body.", "anchors": ["src/eval/iterators.c:while_evalfn", "src/eval/iterators.c:until_evalfn", "src/eval/eval_internals.h:testeval"]}
{"id": "C139", "title": "Loops over sequences visit each element once, in order", "statement": "doseq, dolist, forseq and tryseq evaluate their bodies for one element after the other with its index, stop at the first #break or error, and return void, the sequence of the values, or the first value.", "quantifier": "all sequences of any length and all bodies with any effects", "why_tests_cant": "The length has no bound and any round may break off.", "anchors": ["src/eval/iterators.c:doseq_evalfn", "src/eval/iterators.c:dolist_evalfn", "src/eval/iterators.c:forseq_evalfn", "src/eval/iterators.c:tryseq_evalfn"]}
{"id": "C140", "title": "Loops over choices", "statement": "do-choices, for-choices, filter-choices and try-choices evaluate their bodies once for each element; they return void, the union of the values, the elements for which the body holds, or the first value.", "quantifier": "all choices and all bodies with any effects", "why_tests_cant": "As for C139.", "anchors": ["src/eval/choiceops.c:dochoices_evalfn", "src/eval/choiceops.c:forchoices_evalfn", "src/eval/choiceops.c:filterchoices_evalfn", "src/eval/choiceops.c:trychoices_evalfn"]}
{"id": "C141", "title": "do-subsets divides a choice into blocks", "statement": "do-subsets evaluates its body once for each block of the given size, the blocks together are the choice, and #break or an error ends it.", "quantifier": "all choices, sizes and bodies", "why_tests_cant": "It depends on sizes which divide one another or not, and on bodies which fail.", "anchors": ["src/eval/choiceops.c:dosubsets_evalfn"]}
{"id": "C142", "title": "Loops over iterators", "statement": "doiter hands the elements of an iterator to its body in order, up to its end, and passes on errors of the iterator and of the body.", "quantifier": "all iterators and bodies with any effects", "why_tests_cant": "An iterator may fail at any point, and may have no end.", "anchors": ["src/eval/iterators.c:doiter_evalfn"]}
{"id": "C143", "title": "or returns the first value which is not #f", "statement": "or evaluates its clauses in order and returns the first value which is not #f, also when it is {}, without evaluating the clauses after it.", "quantifier": "all lists of clauses with any effects", "why_tests_cant": "As for C135.", "anchors": ["src/eval/conditionals.c:or_evalfn"]}
{"id": "C144", "title": "dotimes counts up to its limit", "statement": "dotimes evaluates its body for all the numbers from zero up to its limit, in order, unless it is broken off.", "quantifier": "all limits and bodies", "why_tests_cant": "The limits which go wrong take hours to try.", "anchors": ["src/eval/iterators.c:dotimes_evalfn"]}
{"id": "C145", "title": "A file index keeps what is committed", "statement": "After any history of commits, reading a key from a file index gives exactly the values it was given by the commits and has kept.", "quantifier": "all hash functions, keys, values, batches and histories of commits, with and without cached offsets", "why_tests_cant": "Keys collide in chains which depend on the whole history, and values of a key lie scattered over the file in linked pieces.", "anchors": ["src/drivers/fileindex.c:fileindex_fetch", "src/drivers/fileindex.c:fileindex_save", "src/drivers/fileindex.c:fetch_keydata", "src/drivers/fileindex.c:reserve_slotno", "src/drivers/fileindex.c:commit_stores", "src/drivers/fileindex.c:commit_drops"]}
{"id": "C146", "title": "Every key of a file index can be read", "statement": "Reading a key from a file index never fails: it gives the values of the key, or none if the key has none.", "quantifier": "all histories and keys", "why_tests_cant": "The search gives up after a fixed number of collisions, or when the table is full, which takes many keys.", "anchors": ["src/drivers/fileindex.c:fileindex_fetch"]}
{"id": "C147", "title": "A commit to a file index returns", "statement": "A commit to a file index always comes to an end.", "quantifier": "all files and batches", "why_tests_cant": "Whether the searches end depends on the path of each key through the table and on what is in it.", "anchors": ["src/drivers/fileindex.c:fetch_keydata", "src/drivers/fileindex.c:run_schedule", "src/drivers/fileindex.c:fileindex_save"]}
{"id": "C148", "title": "A commit to a file index with room succeeds", "statement": "A commit succeeds if the index has free slots for all its keys.", "quantifier": "all files, batches and orders of the keys", "why_tests_cant": "The search gives up after many rounds without progress, which depends on all the paths of all the keys.", "anchors": ["src/drivers/fileindex.c:fetch_keydata", "src/drivers/fileindex.c:fileindex_save"]}
{"id": "C149", "title": "A file index survives a crash during a commit", "statement": "If the machine stops at any point of a commit, the index opened again for writing holds what it did before the commit or what it should after it.", "quantifier": "all files, batches and crash points, with the last write perhaps incomplete", "why_tests_cant": "Every write of every commit is a crash point.", "anchors": ["src/drivers/fileindex.c:fileindex_commit", "src/drivers/fileindex.c:open_fileindex", "src/storage/drivers.c:kno_write_rollback", "src/storage/drivers.c:kno_check_rollback", "src/storage/alcor.c:apply_head"]}
{"id": "C150", "title": "Opening a file index for reading shows a state which was committed", "statement": "A file index opened for reading only, after a crash during a commit, holds what it did before the commit or what it should after it.", "quantifier": "all files, batches and crash points", "why_tests_cant": "As for C149.", "anchors": ["src/drivers/fileindex.c:open_fileindex", "src/storage/drivers.c:kno_check_rollback"]}
{"id": "C151", "title": "A commit to a file index which fails changes nothing", "statement": "After a commit which fails every key reads as before.", "quantifier": "all files, batches and ways to fail", "why_tests_cant": "A commit can fail after it has written any number of values.", "anchors": ["src/drivers/fileindex.c:fileindex_save", "src/drivers/fileindex.c:fileindex_commit"]}
{"id": "C152", "title": "Reading many keys of a file index agrees with reading each", "statement": "Fetching many keys together gives, for each key, what fetching it alone gives.", "quantifier": "all files and keys", "why_tests_cant": "The two ways are separate code, and scattered values are read in a different order.", "anchors": ["src/drivers/fileindex.c:fetchn", "src/drivers/fileindex.c:run_schedule", "src/drivers/fileindex.c:fileindex_fetch"]}
{"id": "C153", "title": "Listing the keys of a file index", "statement": "Listing the keys gives exactly the keys which have values, each once.", "quantifier": "all histories", "why_tests_cant": "As for C145.", "anchors": ["src/drivers/fileindex.c:fileindex_fetchkeys"]}
{"id": "C154", "title": "A file index answers every call", "statement": "After any call which has returned, later calls are answered.", "quantifier": "all sequences of calls", "why_tests_cant": "It depends on the order of the calls, not on any one of them.", "anchors": ["src/drivers/fileindex.c:fileindex_fetchkeys", "src/drivers/fileindex.c:fileindex_fetch"]}
{"id": "C155", "title": "Trimming a text", "statement": "`trim-spaces` gives a text without the white space at its beginning and end, and changes nothing else.", "quantifier": "all texts, in any script, and any notion of white space", "why_tests_cant": "The end is found by walking back over the bytes of characters of any length.", "anchors": ["src/prims/stringprims.c:trim_spaces"]}
{"id": "C156", "title": "Standard spacing", "statement": "`stdspace` gives the words of a text with single spaces between them; `stdstring` the same in lower case and without accents. The result is well-formed.", "quantifier": "all texts and options", "why_tests_cant": "The result depends on the places of white space, modifiers and paragraph marks among each other.", "anchors": ["src/prims/stringprims.c:string_stdspace", "src/prims/stringprims.c:string_stdstring"]}
{"id": "C157", "title": "Changing case", "statement": "`upcase` and `downcase` replace every character by its upper (lower) case; `capitalize` puts the characters at the beginning of words in upper and all others in lower case; `uppercase?` and `lowercase?` hold if no character is in the other case.", "quantifier": "all texts and case tables", "why_tests_cant": "Every text and script.", "anchors": ["src/prims/stringprims.c:upcase", "src/prims/stringprims.c:downcase", "src/prims/stringprims.c:capitalize", "src/prims/stringprims.c:uppercasep", "src/prims/stringprims.c:lowercasep"]}
{"id": "C158", "title": "Prefixes and suffixes are of characters", "statement": "`has-prefix` and `has-suffix` hold if and only if some of the texts begins (ends) with some of the given texts; `strip-prefix` and `strip-suffix` remove the longest one which a text has, and leave a text which has none as it is.", "quantifier": "all texts and choices of prefixes and suffixes", "why_tests_cant": "Bytes are compared and cut: a suffix of bytes must never begin in the middle of a character.", "anchors": ["src/prims/stringprims.c:has_prefix_test", "src/prims/stringprims.c:has_suffix_test", "src/prims/stringprims.c:has_prefix_prim", "src/prims/stringprims.c:has_suffix_prim", "src/prims/stringprims.c:strip_prefix_prim", "src/prims/stringprims.c:strip_suffix_prim"]}
{"id": "C159", "title": "Comparing texts", "statement": "The comparisons of strings, with or without regard to case, hold if and only if every two of their arguments stand in that relation in the alphabetical order of characters.", "quantifier": "all numbers of texts and all relations", "why_tests_cant": "Only neighbours are compared; that it says something about all pairs is a matter of proof.", "anchors": ["src/prims/stringprims.c:string_compare", "src/prims/stringprims.c:string_compare_ci", "src/prims/stringprims.c:compare_strings", "src/prims/stringprims.c:compare_strings_ci", "src/prims/stringprims.c:docmp"]}
{"id": "C160", "title": "Replacing parts of a text", "statement": "`string-subst` replaces the occurrences of a text in another, from left to right, and comes to an end.", "quantifier": "all texts, patterns and replacements", "why_tests_cant": "Occurrences can overlap, be next to each other or appear in the replacement.", "anchors": ["src/prims/stringprims.c:string_subst_prim"]}
{"id": "C161", "title": "Putting texts together", "statement": "`string-append` gives the characters of its arguments one after the other.", "quantifier": "all texts", "why_tests_cant": "Any number of texts, with any characters.", "anchors": ["src/prims/stringprims.c:string_append"]}
{"id": "C162", "title": "Secrets stay secret when glued", "statement": "`glom` gives the bytes of its arguments one after the other; the result is secret if and only if some argument is, wherever it comes, and a string only if all are.", "quantifier": "all lists of arguments", "why_tests_cant": "The type is decided step by step from the order of arguments.", "anchors": ["src/prims/stringprims.c:glom_lexpr"]}
{"id": "C163", "title": "Counting words", "statement": "`phrase-length` is the number of words of a text.", "quantifier": "all texts", "why_tests_cant": "White space at the beginning, at the end and between words.", "anchors": ["src/prims/stringprims.c:string_phrase_length"]}
{"id": "C164", "title": "Recognising kinds of texts", "statement": "`ascii?`, `latin1?` and `empty-string?` hold if and only if all characters of a text are ASCII, Latin-1 or white space, with the exceptions asked for.", "quantifier": "all texts and options", "why_tests_cant": "Every text.", "anchors": ["src/prims/stringprims.c:asciip", "src/prims/stringprims.c:latin1p", "src/prims/stringprims.c:empty_stringp"]}
{"id": "C165", "title": "The first word", "statement": "`startword` gives the first word of a text.", "quantifier": "all texts", "why_tests_cant": "White space before the word.", "anchors": ["src/prims/stringprims.c:string_startword"]}
{"id": "C166", "title": "Bigrams and trigrams", "statement": "`bigrams` and `trigrams` give all parts of two (three) characters of a text in lower case and without accents, padded with spaces.", "quantifier": "all texts", "why_tests_cant": "The loop keeps a moving window over characters some of which are skipped.", "anchors": ["src/prims/stringprims.c:string_bigrams", "src/prims/stringprims.c:string_trigrams", "src/prims/stringprims.c:get_stdchar"]}
{"id": "C167", "title": "Repairing NULs", "statement": "`fixnuls` returns, for every string.", "quantifier": "all strings", "why_tests_cant": "Strings with a NUL are rare in tests.", "anchors": ["src/prims/stringprims.c:fixnuls_prim"]}
{"id": "C168", "title": "A file pool gives back what was committed", "statement": "After any history of allocating OIDs, committing and reopening a file pool, every OID has the value last committed for it; allocated OIDs without a value are empty and others unallocated. This does not depend on how the pool is cached.", "quantifier": "all histories, batches of values, capacities and cache levels", "why_tests_cant": "Values are added at the end of a file whose table is written in place, and, with offsets in memory, as a whole.", "anchors": ["src/drivers/filepool.c:file_pool_fetch", "src/drivers/filepool.c:file_pool_storen", "src/drivers/filepool.c:file_pool_commit", "src/drivers/filepool.c:open_file_pool", "src/drivers/filepool.c:file_pool_alloc"]}
{"id": "C169", "title": "A commit to a file pool which fails changes nothing", "statement": "A commit succeeds if and only if all its OIDs are allocated and the file stays below 4 gigabytes; if it fails, everything reads as before.", "quantifier": "all pools and batches", "why_tests_cant": "Values are written before they are checked; a failure can come anywhere in the batch, or just at the limit of the size.", "anchors": ["src/drivers/filepool.c:file_pool_storen", "src/drivers/filepool.c:file_pool_commit", "src/storage/alcor.c:kno_apply_head"]}
{"id": "C170", "title": "A crash during a commit to a file pool", "statement": "If the machine stops at any point of a commit, then once the file pool is opened for writing, all OIDs read as before the commit or all as after it.", "quantifier": "all pools, batches, and points at which to stop", "why_tests_cant": "Every point between two writes.", "anchors": ["src/drivers/filepool.c:file_pool_commit", "src/drivers/filepool.c:open_file_pool", "src/storage/drivers.c:kno_check_rollback"]}
{"id": "C171", "title": "Reading a file pool after a crash", "statement": "If the machine stops during a commit and the file pool is opened for reading, all OIDs read as before the commit or all as after it.", "quantifier": "all pools, batches, and points at which to stop", "why_tests_cant": "Every point between two writes.", "anchors": ["src/drivers/filepool.c:open_file_pool", "src/drivers/filepool.c:file_pool_storen"]}
{"id": "C172", "title": "Fetching several OIDs", "statement": "Fetching several OIDs of a file pool at once gives for each what fetching it alone gives.", "quantifier": "all pools, lists of OIDs and cache levels", "why_tests_cant": "Two routes through the code, each with its own checks, in two versions.", "anchors": ["src/drivers/filepool.c:file_pool_fetchn", "src/drivers/filepool.c:file_pool_fetch"]}
{"id": "C173", "title": "Changing how a file pool is cached", "statement": "After the cache level of a file pool is changed, it can still be used.", "quantifier": "all levels and states of pools", "why_tests_cant": "A lock is taken on several paths.", "anchors": ["src/drivers/filepool.c:file_pool_setcache"]}
{"id": "C174", "title": "Processes which share a pool get different OIDs", "statement": "The OIDs which processes with the same pool file open allocate are all different, provided no process ends with changes it has not saved.", "quantifier": "all numbers of processes and schedules of opening, allocating, committing and ending", "why_tests_cant": "Depends on when files are locked and loads read again, in every order of actions of several processes.", "anchors": ["src/drivers/filepool.c:file_pool_alloc", "src/drivers/filepool.c:lock_file_pool", "src/drivers/filepool.c:read_file_pool_load", "src/drivers/kpool.c:kpool_alloc", "src/drivers/kpool.c:lock_kpool_file", "src/drivers/kpool.c:reload_kpool", "src/drivers/bigpool.c:bigpool_alloc", "src/storage/streams.c:lock_filestream", "src/storage/streams.c:unlock_filestream"]}
{"id": "C175", "title": "One process writes at a time", "statement": "At most one of the processes which share a pool has changes to it.", "quantifier": "all schedules of several processes", "why_tests_cant": "Depends on every order of actions of several processes.", "anchors": ["src/drivers/filepool.c:file_pool_load", "src/drivers/filepool.c:lock_file_pool", "src/drivers/kpool.c:lock_kpool_file", "src/storage/streams.c:unlock_filestream"]}
{"id": "C176", "title": "Saved OIDs stay allocated", "statement": "When processes share a pool, the number of OIDs allocated in its file never goes down.", "quantifier": "all schedules of several processes", "why_tests_cant": "Depends on every order of actions of several processes.", "anchors": ["src/drivers/filepool.c:write_file_pool_load", "src/drivers/kpool.c:kpool_alloc", "src/drivers/kpool.c:lock_kpool_file"]}
{"id": "C177", "title": "A process which is done lets others write", "statement": "Once a process has saved its changes to a pool, or has ended, other processes can change it.", "quantifier": "all schedules of several processes", "why_tests_cant": "Whether a lock is given back depends on everything which happened since.", "anchors": ["src/drivers/kpool.c:kpool_unlock", "src/drivers/filepool.c:file_pool_unlock", "src/drivers/bigpool.c:bigpool_unlock", "src/storage/pools.c:kno_pool_unlock"]}
{"id": "C178", "title": "Settings reach the code which handles them", "statement": "Code which registers a handler for a setting is given every value it is set to, once each and in order, whether it was set before or after; a handler for a single value is given the latest.", "quantifier": "all handlers, values and numbers of settings before and after registering", "why_tests_cant": "Every mixture of settings from files, command lines and modules loaded in any order.", "anchors": ["src/sys/configs.c:kno_register_config_x", "src/sys/configs.c:init_config_val", "src/sys/configs.c:record_config", "src/sys/configs.c:set_config"]}
{"id": "C179", "title": "What is read is what was last set", "statement": "After `(config! n v)`, `(config n)` gives `v`.", "quantifier": "all settings, values and what was set before", "why_tests_cant": "Depends on all earlier settings and the shape of the values.", "anchors": ["src/sys/configs.c:kno_config_get", "src/sys/configs.c:record_config", "src/sys/configs.c:set_config"]}
{"id": "C180", "title": "A default does not replace a setting", "statement": "Once a setting has been made, a default for it changes nothing.", "quantifier": "all states, settings and values", "why_tests_cant": "Every order of settings and defaults, with and without handlers.", "anchors": ["src/sys/configs.c:set_default_config", "src/sys/configs.c:set_config"]}
{"id": "C181", "title": "A default is used when nothing else is there", "statement": "A default for a setting is what is read if it was not set and files and the environment do not have it; what they have comes before it.", "quantifier": "all states and places where settings are found", "why_tests_cant": "Depends on when the default is given and whether the setting was read before.", "anchors": ["src/sys/configs.c:set_default_config", "src/sys/configs.c:config_get"]}
{"id": "C182", "title": "Initialising gives handlers what is there for them", "statement": "When settings are initialised, each handler which was registered is given the default or what is found for it.", "quantifier": "all handlers, defaults and places", "why_tests_cant": "Every handler of every module.", "anchors": ["src/sys/configs.c:kno_init_configs"]}
{"id": "C183", "title": "The first place which has a setting counts", "statement": "Settings are looked up in the places registered, the last registered first; the first which has the setting is used, also when it is read again. Registering a place again puts it first.", "quantifier": "all lists of places", "why_tests_cant": "All orders of registering.", "anchors": ["src/sys/configs.c:config_get", "src/sys/configs.c:kno_register_config_lookup"]}
{"id": "C184", "title": "Assignments in a text", "statement": "A text of assignments `name=value` with `;` or `,` between them makes exactly these settings, in order, and ends; `\\` before a separator and strings in quotes keep separators in values.", "quantifier": "all lists of assignments", "why_tests_cant": "Arbitrary texts.", "anchors": ["src/sys/configs.c:kno_config_assignment", "src/sys/configs.c:do_config_assignment"]}
{"id": "C185", "title": "Configuration files", "statement": "Reading a configuration file makes all its entries in order, says how many were made, and fails when one fails.", "quantifier": "all files", "why_tests_cant": "Arbitrary files, with failures anywhere.", "anchors": ["src/sys/configs.c:read_config", "src/sys/configs.c:kno_read_config"]}
{"id": "C186", "title": "Other names for a setting", "statement": "After giving a setting another name, setting either reaches the handler; a setting with its own handler cannot be made another name.", "quantifier": "all states and names", "why_tests_cant": "Every order of registering handlers and names.", "anchors": ["src/sys/configs.c:kno_register_config_handler_alias"]}
{"id": "C187", "title": "Names of settings", "statement": "Names which differ in case, or in which marks and spaces they have, name the same setting; the standard form of a name is its own standard form.", "quantifier": "all names", "why_tests_cant": "Arbitrary texts; names are put in standard form twice on some paths.", "anchors": ["src/sys/configs.c:config_intern"]}
{"id": "C188", "title": "Values taken from settings and the environment", "statement": "`#:config` and `#:env` give the value of the setting or variable, and the default if it is not there.", "quantifier": "all names, values and defaults", "why_tests_cant": "Every state of settings and the environment.", "anchors": ["src/sys/configs.c:kno_interpret_config"]}
{"id": "C189", "title": "Yes and no", "statement": "A setting which is on or off understands the usual words for both, and refuses other strings.", "quantifier": "all strings", "why_tests_cant": "Arbitrary strings.", "anchors": ["src/sys/configs.c:kno_boolconfig_set", "src/sys/configs.c:false_stringp", "src/sys/configs.c:true_stringp"]}
{"id": "C190", "title": "Settings are apart", "statement": "Making one setting changes neither what is read for another nor what its handler was given, unless one is another name for the other.", "quantifier": "all states, settings and values", "why_tests_cant": "All pairs of settings in all states.", "anchors": ["src/sys/configs.c:set_config", "src/sys/configs.c:kno_config_get"]}
{"id": "C191", "title": "Parameters have their arguments", "statement": "When the body of a procedure runs, each parameter has its argument, or its default if the argument was left out or is `#default`; the parameter for further arguments has the list of them; other variables are unbound. The body runs if the number of arguments is right, none is an error and all have their types.", "quantifier": "all procedures and lists of arguments", "why_tests_cant": "Every combination of required, optional and further parameters, quoted choices, defaults and types.", "anchors": ["src/eval/lambda.c:lambda_setup", "src/eval/lambda.c:get_rest_arg"]}
{"id": "C192", "title": "Required parameters are there", "statement": "The body of a procedure does not run with a required parameter left out, or with more arguments than parameters.", "quantifier": "all procedures and lists of arguments", "why_tests_cant": "Every order of required and optional parameters.", "anchors": ["src/eval/lambda.c:_make_lambda", "src/eval/eval.c:check_fcn_arity", "src/apply/apply.c:setup_call_stack"]}
{"id": "C193", "title": "Parameters have their types", "statement": "When the body of a procedure runs, each parameter declared with a type has a value of this type, or no value.", "quantifier": "all procedures, types and lists of arguments", "why_tests_cant": "Values come from arguments, quoted choices and defaults.", "anchors": ["src/eval/lambda.c:lambda_setup"]}
{"id": "C194", "title": "Synchronized procedures", "statement": "At most one thread runs the body of a synchronized procedure; when none does, any thread can, whatever calls have failed before.", "quantifier": "all schedules of calls and returns by any number of threads", "why_tests_cant": "Depends on every order of actions of several threads, and on every way in which a call fails.", "anchors": ["src/eval/lambda.c:lambda_setup", "src/eval/lambda.c:lambda_call"]}
{"id": "C195", "title": "The variables of a body", "statement": "What a body defines with `define` and `locals` at its beginning are variables of each call; a body which is not well formed is reported.", "quantifier": "all bodies", "why_tests_cant": "Arbitrary expressions.", "anchors": ["src/eval/lambda.c:scan_body"]}
{"id": "C196", "title": "`locals` gives variables their values", "statement": "After `(locals x e)`, `x` has the value of `e` and other variables are as before.", "quantifier": "all states of the variables of a call", "why_tests_cant": "Depends on whether procedures have been made in the call.", "anchors": ["src/eval/binders.c:locals_evalfn", "src/eval/binders.c:do_bind"]}
{"id": "C197", "title": "A function which is applied is called once", "statement": "Applying a function calls it once, with what it expects, traced or not and whatever its attributes.", "quantifier": "all functions and what they do", "why_tests_cant": "Tracing and attributes combine with every function.", "anchors": ["src/apply/apply.c:core_call", "src/apply/apply.c:traced_function_call", "src/apply/apply.c:function_call", "src/eval/lambda.c:_make_lambda"]}
{"id": "C198", "title": "Arithmetic updates change the given keys and nothing else", "statement": "table-increment!, table-multiply!, table-maximize! and table-minimize! give each of the keys the number made from its current one and the operand, or the operand where the key has no value, and leave all other keys alone, on hashtables, slotmaps and schemaps alike.", "quantifier": "every table of the three kinds, set of keys, operand and operation", "why_tests_cant": "The three kinds of tables go through different code, and the properties are about all the other keys as well.", "anchors": ["src/prims/tableprims.c:table_increment", "src/prims/tableprims.c:table_multiply", "src/prims/tableprims.c:table_maximize", "src/prims/tableprims.c:table_minimize", "src/lisp/tables.c:do_hashtable_op", "src/lisp/tables.c:kno_hashtable_iterkeys"]}
{"id": "C199", "title": "Updates of existing keys add no keys", "statement": "table-increment-existing!, table-multiply-existing!, table-maximize-existing! and table-minimize-existing! do nothing for keys which are not in the table.", "quantifier": "every table, set of keys, operand and operation, whether the call succeeds or not", "why_tests_cant": "It must hold for every mixture of present and absent keys and on every path through an error.", "anchors": ["src/prims/tableprims.c:table_increment_existing", "src/prims/tableprims.c:table_multiply_existing", "src/prims/tableprims.c:table_maximize_existing", "src/prims/tableprims.c:table_minimize_existing"]}
{"id": "C200", "title": "Updates which cannot be made are reported", "statement": "When an update cannot be made for one of the keys, because the table is read-only, its value is not a number or a schemap has no such slot, the call reports an error.", "quantifier": "every table, set of keys in any order, operand and operation", "why_tests_cant": "Whether an error gets through depends on the order of the keys and the kind of table.", "anchors": ["src/lisp/tables.c:kno_hashtable_iterkeys", "src/lisp/tables.c:kno_store", "src/prims/tableprims.c:table_increment"]}
{"id": "C201", "title": "Increments from several threads are not lost", "statement": "When any number of threads increment keys of a table, each key ends with its old value and all of the increments.", "quantifier": "every table, every number of threads with any increments, every schedule", "why_tests_cant": "Lost updates show only under some interleavings.", "anchors": ["src/prims/tableprims.c:table_increment", "src/lisp/tables.c:kno_hashtable_op"]}
{"id": "C202", "title": "Largest values of tables", "statement": "table-max returns exactly the keys, of those in the scope, whose number is the largest, all of them when there are several, and table-maxval that number, or nothing when no key in the scope has a number.", "quantifier": "every table in every order of its entries and every scope", "why_tests_cant": "The result depends on the order of the entries, ties and values which are not numbers.", "anchors": ["src/prims/tableprims.c:table_max", "src/prims/tableprims.c:table_maxval", "src/lisp/tables.c:kno_slotmap_max", "src/lisp/tables.c:kno_hashtable_max", "src/lisp/tables.c:kno_table_max"]}
{"id": "C203", "title": "Skimming tables", "statement": "table-skim returns exactly the keys in the scope whose number is larger than the threshold.", "quantifier": "every table, threshold and scope", "why_tests_cant": "It is about all keys and values at and around the threshold.", "anchors": ["src/prims/tableprims.c:table_skim", "src/lisp/tables.c:kno_hashtable_skim", "src/lisp/tables.c:kno_slotmap_skim"]}
{"id": "C204", "title": "Flags of tables", "statement": "After (table-writable! table flag), table-writable? is true exactly when flag is not false, and after (table-modified! table flag), table-modified? is; a flag which is left out counts as true.", "quantifier": "every table and flag, given or not", "why_tests_cant": "It ties each value of the flag to what is seen afterwards.", "anchors": ["src/prims/tableprims.c:table_set_writable", "src/prims/tableprims.c:table_set_modified"]}
{"id": "C205", "title": "Listing a hashset leaves it alone", "statement": "hashset-elts returns exactly the elements of a hashset, and the hashset keeps them unless the call asks for it to be reset.", "quantifier": "every hashset and argument", "why_tests_cant": "It is about the hashset after the call as well as its result.", "anchors": ["src/prims/tableprims.c:hashset_elts", "src/lisp/tables.c:kno_hashset_elts"]}
{"id": "C206", "title": "Tables from functions", "statement": "map->table returns a table with exactly the keys for which the function gives values, with those values, and fails if the function fails for one of the keys.", "quantifier": "every function and set of keys", "why_tests_cant": "A failure may come at any of the keys.", "anchors": ["src/prims/tableprims.c:map2table", "src/lisp/tables.c:kno_slotmap_add"]}
{"id": "C207", "title": "Tests over frames, slots and values", "statement": "test is true exactly when one of the frames has one of the values in one of the slots, and an error in a test is not taken for an answer.", "quantifier": "every set of frames, slots and values, and every outcome of the tests", "why_tests_cant": "It quantifies over all combinations and over where an error comes.", "anchors": ["src/eval/tableops.c:kno_ftest"]}
{"id": "C208", "title": "Searches ignore empty clauses", "statement": "xfind-frames makes the search of find-frames with the clauses whose values are empty left out, with or without an index.", "quantifier": "every number of clauses with any values", "why_tests_cant": "The clauses which are empty can be any of them, and the arguments are walked in pairs from two different starts.", "anchors": ["src/eval/tableops.c:xfind_frames_lexpr", "src/eval/tableops.c:find_frames_lexpr"]}
{"id": "C209", "title": "The text of a number", "statement": "number->string gives, for every integer and every base, the digits of the number in that base, most significant first and without leading zeros, after a minus sign if it is negative, and a text for every other number.", "quantifier": "every integer, of any size, and every base", "why_tests_cant": "Numbers of all sizes take different paths, and the length of the buffer has to suffice for all of them.", "anchors": ["src/eval/arith.c:number2string", "src/lisp/numbers.c:kno_output_number", "src/lisp/numbers.c:output_bigint"]}
{"id": "C210", "title": "Separators in numbers", "statement": "With a separator, number->string puts it between groups of three digits counted from the right, and nowhere else.", "quantifier": "every integer of any size, every base and every separator", "why_tests_cant": "Fixnums and bigints have separate code for it, and the places depend on the number of digits.", "anchors": ["src/eval/arith.c:number2string", "src/lisp/numbers.c:kno_output_number", "src/lisp/numbers.c:output_bigint", "src/lisp/numbers.c:write_fixnum_helper"]}
{"id": "C211", "title": "Reading an integer", "statement": "string->number reads a text of digits in a base, with or without a sign, a prefix for the base and single separators, as the integer it stands for, and gives #f for a text which is no number.", "quantifier": "every text and base, with any number of digits", "why_tests_cant": "It is about every text, among them those beyond the size of machine words.", "anchors": ["src/eval/arith.c:string2number", "src/lisp/numbers.c:parse_number", "src/lisp/numbers.c:numeric_atom", "src/lisp/numbers.c:scan_number", "src/lisp/numbers.c:parse_bigint"]}
{"id": "C212", "title": "Numbers are read back as they were written", "statement": "string->number of number->string of a number, in the same base, is that number.", "quantifier": "every number, base and separator", "why_tests_cant": "It ties together two independent pieces of code for all numbers.", "anchors": ["src/eval/arith.c:number2string", "src/eval/arith.c:string2number", "src/lisp/numbers.c:kno_output_number", "src/lisp/numbers.c:parse_number"]}
{"id": "C213", "title": "Reading a fraction", "statement": "A numerator, a slash and a denominator are read as the rational number they stand for, and a zero denominator is an error.", "quantifier": "every numerator and denominator, of any size, with or without spaces before them", "why_tests_cant": "The two parts are copied out of the text by length.", "anchors": ["src/lisp/numbers.c:parse_number", "src/lisp/numbers.c:make_rational"]}
{"id": "C214", "title": "Reading exact decimals", "statement": "After #e a decimal, with or without an exponent, is read as exactly the number it stands for.", "quantifier": "every decimal, with any number of digits and any exponent", "why_tests_cant": "It is about exact values for any number of digits.", "anchors": ["src/lisp/numbers.c:read_exponent_notation", "src/lisp/numbers.c:parse_number"]}
{"id": "C215", "title": "Texts by u8itoa", "statement": "u8itoa gives the text of an integer in base 8, 10 or 16, or an error, but never the text of another number.", "quantifier": "every integer of any size and every base", "why_tests_cant": "Errors come only at the limits of machine words.", "anchors": ["src/eval/arith.c:itoa_prim", "src/lisp/numbers.c:kno_bigint_to_ulong_long", "src/lisp/numbers.c:kno_bigint_fits_in_word_p"]}
{"id": "C216", "title": "The address of an OID", "statement": "oid-addr gives the address with which make-oid made an OID, for every address, and make-oid gives an error for integers which are no addresses.", "quantifier": "every integer, and every OID after any history of OIDs", "why_tests_cant": "What is reported may depend on the OIDs made earlier, and the limits lie at the sizes of machine words.", "anchors": ["src/prims/dbprims.c:oidaddr_prim", "src/prims/dbprims.c:make_oid_prim", "include/kno/ptr.h:KNO_INT"]}
{"id": "C217", "title": "The halves of an address", "statement": "make-oid of two integers from 0 to 2^32-1 gives the OID with these as its high and low halves, and an error for any other integers; oid-hi and oid-lo give them back.", "quantifier": "all pairs of integers of any size, and all addresses", "why_tests_cant": "It is about all 2^64 addresses and about integers of every size.", "anchors": ["src/prims/dbprims.c:make_oid_prim", "src/prims/dbprims.c:oid_hi", "src/prims/dbprims.c:oid_lo", "include/kno/ptr.h:KNO_SET_OID_HI", "include/kno/ptr.h:KNO_SET_OID_LO"]}
{"id": "C218", "title": "Sums and differences of OIDs", "statement": "oid-plus and make-oid give the OID that lies the given number of addresses from another, or an error if there is none; oid-minus gives the difference of two addresses, so that adding it to one OID gives the other.", "quantifier": "every pair of OIDs and every increment", "why_tests_cant": "The arithmetic is that of machine words of two sizes, with and without sign.", "anchors": ["src/prims/dbprims.c:oid_plus_prim", "src/prims/dbprims.c:oid_minus_prim", "src/prims/dbprims.c:make_oid_prim", "include/kno/ptr.h:KNO_OID_PLUS", "include/kno/ptr.h:KNO_OID_DIFFERENCE"]}
{"id": "C219", "title": "The place of an OID in a pool", "statement": "oid-offset gives the distance of an OID from the beginning of a pool or from another OID, and #f if it is not in the pool or not after the other.", "quantifier": "every OID, every base and every capacity", "why_tests_cant": "The halves of addresses are compared and subtracted separately.", "anchors": ["src/prims/dbprims.c:oid_offset_prim"]}
{"id": "C220", "title": "Hexadecimal offsets of OIDs", "statement": "oid->hex gives the distance of an OID from a base in hexadecimal, and hex->oid with the same base gives the OID again; a text which is no hexadecimal number is an error.", "quantifier": "every OID, base and text", "why_tests_cant": "It ties together two primitives for all pairs of addresses.", "anchors": ["src/prims/dbprims.c:oidhex_prim", "src/prims/dbprims.c:hex2oid_prim", "src/prims/dbprims.c:oidplus"]}
{"id": "C221", "title": "The beginning of the range of an OID", "statement": "oid-base gives the OID at the greatest multiple of the given size that is not after the OID, with an error for sizes which are not allowed.", "quantifier": "every OID after any history, and every size", "why_tests_cant": "It is about every size, and works on references, which depend on the OIDs made before.", "anchors": ["src/prims/dbprims.c:oid_base", "include/kno/ptr.h:KNO_CONSTRUCT_OID", "include/kno/ptr.h:KNO_MAKE_OID"]}
{"id": "C222", "title": "Allocation in a pool in memory", "statement": "Until a pool in memory is reset, allocating gives OIDs of the pool that were not given before.", "quantifier": "every history of operations on a pool of at most 2^31 OIDs", "why_tests_cant": "It is about every history, with allocations of any numbers of OIDs among other operations.", "anchors": ["src/storage/mempool.c:mempool_alloc", "src/storage/pools.c:kno_pool_alloc"]}
{"id": "C223", "title": "Values and capacity of a pool in memory", "statement": "An OID of a pool in memory has the value it was last set to, and before that the empty choice; OIDs that are not allocated are reported as such; all the OIDs of a pool can be allocated; and a pool made not to be swapped keeps its values when swapped out.", "quantifier": "every history of allocations, reads, changes, commits and swapping out", "why_tests_cant": "It depends on the order of reads, allocations and swapping.", "anchors": ["src/storage/mempool.c:mempool_fetch", "src/storage/mempool.c:mempool_swapout", "src/storage/mempool.c:mempool_alloc", "src/storage/pools.c:kno_pool_get", "src/storage/pools.c:kno_pool_swapout"]}
{"id": "C224", "title": "Values of an index kept by a function", "statement": "An index that is kept by a function gives for each key what the function gives for it, also for vectors, and for several keys the values of each.", "quantifier": "every function, every key and every list of keys", "why_tests_cant": "It is about all functions and keys.", "anchors": ["src/storage/extindex.c:extindex_fetch", "src/storage/extindex.c:extindex_fetchn"]}
{"id": "C225", "title": "Saving an index kept by functions", "statement": "Committing an index that is kept by functions calls its function for saving with all the changes.", "quantifier": "all changes", "why_tests_cant": "It is about all sets of changes.", "anchors": ["src/storage/extindex.c:extindex_save", "src/storage/extindex.c:extindex_commit"]}
{"id": "C226", "title": "Values of a pool kept by functions", "statement": "OIDs of a pool that is kept by functions have the values the function gives, whether they are fetched alone or with others.", "quantifier": "every function and every list of OIDs", "why_tests_cant": "It is about all functions and lists.", "anchors": ["src/storage/extpool.c:extpool_fetch", "src/storage/extpool.c:extpool_fetchn"]}
{"id": "C227", "title": "Saving a pool kept by functions", "statement": "After values of OIDs of a pool that is kept by functions are set and committed, the functions have them; and until they are swapped out they are what is read.", "quantifier": "every history of reads, changes, commits and swapping out", "why_tests_cant": "It is about all histories.", "anchors": ["src/storage/extpool.c:kno_make_extpool", "src/storage/pools.c:set_oid_value", "src/storage/pools.c:pool_docommit", "src/storage/pools.c:kno_pool_swapout"]}
{"id": "C228", "title": "Operations on the current request", "statement": "Reading, testing, storing, adding, dropping and logging act on the current request as on its slots and its log, for any number of slots at once, and on nothing else.", "quantifier": "every operation and every state in which a table is the current request", "why_tests_cant": "It is about all contents, slots and values.", "anchors": ["src/eval/requests.c:reqget_prim", "src/eval/requests.c:reqtest_prim", "src/eval/requests.c:reqstore_prim", "src/eval/requests.c:reqadd_prim", "src/eval/requests.c:reqdrop_prim", "src/sys/fluid.c:kno_req_store"]}
{"id": "C229", "title": "Locks of requests", "statement": "Whatever is evaluated, including requests within requests and errors, afterwards the only table the thread has locked is its current request; and a thread never waits for a lock it has itself.", "quantifier": "every expression made of request operations, failing expressions and the forms which set up requests, nested to any depth", "why_tests_cant": "It is about all nestings and all points at which an error can happen.", "anchors": ["src/sys/fluid.c:kno_use_reqinfo", "src/sys/fluid.c:kno_push_reqinfo", "src/sys/fluid.c:get_reqinfo"]}
{"id": "C230", "title": "A body with a request", "statement": "`with/request` with a table evaluates its body with that table as the current request, up to the first error; afterwards the table has what the body put there and there is no request.", "quantifier": "every table and every body of operations, from every state", "why_tests_cant": "It is about all bodies and all points at which they fail.", "anchors": ["src/eval/requests.c:withreq_evalfn", "src/sys/fluid.c:kno_use_reqinfo"]}
{"id": "C231", "title": "Requests within requests", "statement": "When a request within another one ends, the outer one is the current request again.", "quantifier": "every nesting of requests", "why_tests_cant": "It is about all nestings.", "anchors": ["src/eval/requests.c:withreq_evalfn", "src/sys/fluid.c:kno_use_reqinfo"]}
{"id": "C232", "title": "What can be a request", "statement": "`with/request` uses the table it is given, whatever kind of table that is, makes a new request for #t, and reports an error in the expression for the table.", "quantifier": "every value given as the request", "why_tests_cant": "It is about all values and states.", "anchors": ["src/eval/requests.c:withreq_evalfn", "src/sys/fluid.c:kno_use_reqinfo"]}
{"id": "C233", "title": "The log of a request", "statement": "The log of a request has what was logged during the request, in order, and nothing else.", "quantifier": "every body of operations and every state before it", "why_tests_cant": "It is about all bodies and all earlier histories.", "anchors": ["src/sys/fluid.c:kno_reqlog", "src/sys/fluid.c:set_reqlog", "src/eval/requests.c:reqgetlog_prim", "src/eval/requests.c:withreq_evalfn"]}
{"id": "C234", "title": "Requests for output", "statement": "`with/request/out` evaluates its body with a new request; afterwards, also after an error, the former request is the current one again, and an error is reported.", "quantifier": "every body and every state", "why_tests_cant": "It is about all bodies and all points at which they fail.", "anchors": ["src/web/cgiexec.c:withreqout_evalfn", "src/sys/fluid.c:kno_push_reqinfo"]}
{"id": "C235", "title": "Texts from the request as arguments", "statement": "When a procedure is called with arguments from the request, a text after a backslash is passed without it and not parsed, and so is a text that starts with no character that has a meaning; values other than texts are passed as they are.", "quantifier": "every text, every list of values and every parser", "why_tests_cant": "It is about all texts.", "anchors": ["src/eval/requests.c:reqgetvar", "src/eval/requests.c:reqcall_prim"]}
{"id": "C236", "title": "Parsing of arguments from the request", "statement": "What a text from the request is parsed as does not depend on whether there are other values for the parameter; texts for a parameter marked with % are not parsed.", "quantifier": "every text and every list of values", "why_tests_cant": "It is about all texts and lists.", "anchors": ["src/eval/requests.c:reqgetvar"]}
{"id": "C237", "title": "Values pushed on a history are numbered in order", "statement": "In a history to which values are only pushed, the values are numbered from 1 in the order in which they first come; a value pushed again gets the number it already has, it is found under that number only, and constants get no number and change nothing.", "quantifier": "all sequences of pushed values", "why_tests_cant": "The claim is about every sequence of values and references, of any length; tests try a few sessions.", "anchors": ["src/sys/history.c:kno_history_push", "src/sys/history.c:kno_history_add", "src/sys/history.c:kno_history_find"]}
{"id": "C238", "title": "Numbers keep referring to their values", "statement": "In a history to which values are only pushed, each number refers to the value that got it, numbers not yet given out refer to nothing, and a number keeps its value whatever is pushed later.", "quantifier": "all sequences of pushed values and all later pushes", "why_tests_cant": "The claim is about every sequence of values and references, of any length; tests try a few sessions.", "anchors": ["src/sys/history.c:kno_history_ref", "src/sys/history.c:kno_history_add"]}
{"id": "C239", "title": "The references found for a value refer to it", "statement": "After any mix of pushes and of values recorded under references that were asked for, the references found for a value are exactly those that refer to it; a reference asked for refers to the value and leaves others as they were; what is given back is the least number the value has.", "quantifier": "all histories of operations, references and values", "why_tests_cant": "The claim is about every sequence of values and references, of any length; tests try a few sessions.", "anchors": ["src/sys/history.c:kno_history_add", "src/sys/history.c:kno_history_find", "src/sys/history.c:kno_history_ref"]}
{"id": "C240", "title": "Values recorded under a name can be got by it", "statement": "A value recorded under a name can be referred to by the name; a reference to something that is not there is an error.", "quantifier": "all histories, names and values", "why_tests_cant": "The claim is about every sequence of values and references, of any length; tests try a few sessions.", "anchors": ["src/sys/history.c:kno_history_ref", "src/sys/history.c:kno_eval_histref", "src/sys/history.c:kno_history_push"]}
{"id": "C241", "title": "Numbers in paths of references", "statement": "A number in the path of a reference gives the element at that place of a choice, list (with its last cdr) or other sequence, negative numbers counting from the end.", "quantifier": "all values, lengths and numbers within them", "why_tests_cant": "Paths and structures have no bound on length or depth and the boundary depends on the length of the value.", "anchors": ["src/sys/history.c:kno_eval_histref"]}
{"id": "C242", "title": "Numbers outside are errors", "statement": "A number in the path of a reference which is outside the value is an error.", "quantifier": "all values, lengths and numbers outside them", "why_tests_cant": "Paths and structures have no bound on length or depth and the boundary depends on the length of the value.", "anchors": ["src/sys/history.c:kno_eval_histref"]}
{"id": "C243", "title": "Keys in paths of references", "statement": "A string or symbol in the path of a reference gives the value of that key in a table; a key which is not there, or which is asked of something that is not a table, is an error; a path is followed element by element.", "quantifier": "all paths, tables and keys", "why_tests_cant": "Paths and structures have no bound on length or depth and the boundary depends on the length of the value.", "anchors": ["src/sys/history.c:kno_eval_histref"]}
{"id": "C244", "title": "Replacing references in structures", "statement": "Replacing the references in a structure puts the value of each in its place and leaves everything else alone; a reference without a value is an error.", "quantifier": "all structures and all values of references", "why_tests_cant": "Paths and structures have no bound on length or depth and the boundary depends on the length of the value.", "anchors": ["src/sys/history.c:kno_eval_histrefs", "src/eval/repl.c:history_subst_prim"]}
{"id": "C245", "title": "with-history uses the history it is given", "statement": "The body of with-history is evaluated with the history given as its argument, an error in the argument is an error, and the history outside is as it was afterwards.", "quantifier": "all arguments, outer histories and bodies", "why_tests_cant": "The body can do anything with the history; the claim is about every body.", "anchors": ["src/eval/repl.c:with_history_evalfn", "src/sys/history.c:kno_hist_init"]}
{"id": "C246", "title": "Lock functions decide about locks", "statement": "For a pool kept by functions, an OID is locked exactly when the lock function says so; an error of the function, or a negative number, is an error; 0 and #f refuse the lock.", "quantifier": "all answers of the lock function", "why_tests_cant": "The functions are given by the user and may answer anything; a test tries a few answers.", "anchors": ["src/storage/procpool.c:procpool_lock", "src/storage/pools.c:kno_pool_lock"]}
{"id": "C247", "title": "Release functions decide about releases", "statement": "For a pool kept by functions, the answer of the release function is what is returned.", "quantifier": "all answers of the release function", "why_tests_cant": "The functions are given by the user and may answer anything; a test tries a few answers.", "anchors": ["src/storage/procpool.c:procpool_release"]}
{"id": "C248", "title": "Commit functions of pools decide about commits", "statement": "For a pool kept by functions, a commit fails exactly when the commit function says so, and the number it answers is the number returned.", "quantifier": "all answers of the commit function", "why_tests_cant": "The functions are given by the user and may answer anything; a test tries a few answers.", "anchors": ["src/storage/procpool.c:procpool_commit", "src/storage/pools.c:pool_docommit"]}
{"id": "C249", "title": "Commit functions of indexes decide about commits", "statement": "For an index kept by functions, a commit fails exactly when the commit function fails, answers a negative number or something that means nothing, and the number it answers is the number returned.", "quantifier": "all answers of the commit function", "why_tests_cant": "The functions are given by the user and may answer anything; a test tries a few answers.", "anchors": ["src/storage/procindex.c:procindex_commit"]}
{"id": "C250", "title": "Load functions give the load", "statement": "For a pool kept by functions, the load is the number its function answers; other answers are errors.", "quantifier": "all answers of the load function", "why_tests_cant": "The functions are given by the user and may answer anything; a test tries a few answers.", "anchors": ["src/storage/procpool.c:procpool_getload"]}
{"id": "C251", "title": "Fetching several one by one", "statement": "Without a function for several, the values of several OIDs or keys are those of each, in order, and there is an error exactly when there is one for one of them.", "quantifier": "all fetch functions and lists of OIDs or keys", "why_tests_cant": "The functions are given by the user and may answer anything; a test tries a few answers.", "anchors": ["src/storage/procpool.c:procpool_fetchn", "src/storage/procindex.c:procindex_fetchn"]}
{"id": "C252", "title": "Fetching several at once", "statement": "With a function for several, the values are those of the vector it answers, one for each OID or key; errors and other answers are errors.", "quantifier": "all answers of the function and lists of OIDs or keys", "why_tests_cant": "The functions are given by the user and may answer anything; a test tries a few answers.", "anchors": ["src/storage/procpool.c:procpool_fetchn", "src/storage/procindex.c:procindex_fetchn"]}
{"id": "C253", "title": "Vectors given by functions are left alone", "statement": "Fetching does not change the vectors which the functions of a pool or index keep.", "quantifier": "all vectors and numbers of values", "why_tests_cant": "The effect shows when the same vector is given again, which depends on the function.", "anchors": ["src/storage/procpool.c:procpool_fetchn", "src/storage/procindex.c:procindex_fetchn", "src/storage/procindex.c:procindex_fetchkeys"]}
{"id": "C254", "title": "Key functions give the keys", "statement": "The keys of an index kept by functions are those which its function for keys gives.", "quantifier": "all answers of the function and all choices of functions given", "why_tests_cant": "The functions are given by the user and may answer anything; a test tries a few answers.", "anchors": ["src/storage/procindex.c:procindex_fetchkeys"]}
{"id": "C255", "title": "Sizes of keys", "statement": "The number of values of a key is what the function for sizes answers, or else the number of values fetched.", "quantifier": "all answers of the functions", "why_tests_cant": "The functions are given by the user and may answer anything; a test tries a few answers.", "anchors": ["src/storage/procindex.c:procindex_fetchsize"]}
{"id": "C256", "title": "Sizes of many keys", "statement": "The sizes of the keys asked for are those which the function gives for them; an error of the function is an error.", "quantifier": "all answers of the function and sets of keys", "why_tests_cant": "The functions are given by the user and may answer anything; a test tries a few answers.", "anchors": ["src/storage/procindex.c:procindex_fetchinfo", "src/storage/procindex.c:copy_keyinfo", "src/storage/indexes.c:kno_index_keysizes"]}
{"id": "C257", "title": "Functions are there while pools use them", "statement": "Pools kept by functions can be made, used and released in any order without a function being used after it is released.", "quantifier": "all sequences of making, using and releasing pools", "why_tests_cant": "The order of releases depends on reference counts and is different in every run.", "anchors": ["src/storage/procpool.c:kno_make_procpool", "src/storage/procpool.c:recycle_procpool", "src/storage/procpool.c:kno_register_procpool"]}
{"id": "C258", "title": "Compounds have what they are made of", "statement": "A compound made by make-compound or one of its variants unpacks to its tag and elements, each element is found at its offset, and it is mutable and opaque as its maker says.", "quantifier": "all tags, lists of elements and makers", "why_tests_cant": "Tests try short compounds.", "anchors": ["src/eval/typeops.c:make_compound", "src/eval/typeops.c:make_mutable_compound", "src/eval/typeops.c:compound_ref", "src/eval/typeops.c:unpack_compound"]}
{"id": "C259", "title": "Reading an element is exact", "statement": "compound-ref gives the element at an offset when the tag is right and the offset in range, and signals an error otherwise.", "quantifier": "all compounds, offsets and tags", "why_tests_cant": "The wrong outcome depends on the number which is out of range.", "anchors": ["src/eval/typeops.c:compound_ref"]}
{"id": "C260", "title": "compound-length is the number of elements", "statement": "compound-length gives the number of elements of any compound.", "quantifier": "all compounds", "why_tests_cant": "The number is only wrong for long compounds.", "anchors": ["src/eval/typeops.c:compound_length"]}
{"id": "C261", "title": "Setting an element is exact", "statement": "compound-set! changes the element at the offset of a mutable compound and nothing else; an immutable compound or a wrong tag is an error.", "quantifier": "all compounds, offsets, values and tags", "why_tests_cant": "All other elements and flags have to stay, for every compound.", "anchors": ["src/eval/typeops.c:compound_set"]}
{"id": "C262", "title": "Modifying an element is exact", "statement": "compound-modify! replaces the element by what the modifier makes of it, or changes nothing when the modifier fails.", "quantifier": "all compounds, offsets, modifiers and tags", "why_tests_cant": "Modifiers are any functions.", "anchors": ["src/eval/typeops.c:compound_modify", "src/eval/typeops.c:apply_modifier"]}
{"id": "C263", "title": "Immutable compounds never change", "statement": "Whatever sequence of operations is done, immutable compounds keep their elements, and all compounds their tags, flags and numbers of elements.", "quantifier": "all heaps of compounds and sequences of operations", "why_tests_cant": "Holds for unbounded histories.", "anchors": ["src/eval/typeops.c:compound_set", "src/eval/typeops.c:compound_modify", "src/lisp/compounds.c:compound_table_get"]}
{"id": "C264", "title": "Setting an element of several compounds", "statement": "compound-set! on several compounds changes each of them, or signals an error and changes none; what is not a compound is an error.", "quantifier": "all heaps of compounds and choices", "why_tests_cant": "The order of a choice decides what has been done before an error.", "anchors": ["src/eval/typeops.c:compound_set"]}
{"id": "C265", "title": "Keys of schemas", "statement": "A compound whose type has a schema gives for each key of it the element at the place of the key, and nothing for other keys.", "quantifier": "all schemas, compounds and keys", "why_tests_cant": "What lies before the elements differs from run to run.", "anchors": ["src/lisp/compounds.c:compound_table_get", "src/lisp/compounds.c:get_schema_offset"]}
{"id": "C266", "title": "No locks are left", "statement": "No operation on a compound leaves it locked when it returns.", "quantifier": "all heaps of compounds and sequences of operations", "why_tests_cant": "A lock that is left only shows in a later operation.", "anchors": ["src/lisp/compounds.c:compound_table_get", "src/eval/typeops.c:compound_set", "src/eval/typeops.c:compound_modify"]}
{"id": "C267", "title": "sequence->compound keeps the elements", "statement": "A compound made of a sequence has its tag, flags and elements in order, after its annotations when there are any.", "quantifier": "all sequences, offsets and annotations", "why_tests_cant": "All lengths are meant.", "anchors": ["src/eval/typeops.c:seq2compound"]}
{"id": "C268", "title": "sequence->compound gives a sequence", "statement": "A compound made of a sequence from a given place is itself the sequence from that place; annotations are not in it, and arguments that make no sense are errors.", "quantifier": "all sequences, offsets and annotations", "why_tests_cant": "The wrong cases combine two optional arguments.", "anchors": ["src/eval/typeops.c:seq2compound", "src/lisp/sequences.c:seq_length", "src/lisp/sequences.c:compound2vector"]}
{"id": "C269", "title": "make-xcompound gives what is asked for", "statement": "make-xcompound gives a compound with its tag, flags, annotations and elements, which is the sequence of elements from the offset on; an offset past the end is an error.", "quantifier": "all tags, flags, annotations, offsets and elements", "why_tests_cant": "Offsets and lengths vary independently.", "anchors": ["src/eval/typeops.c:make_xcompound", "src/lisp/sequences.c:seq_length"]}
{"id": "C270", "title": "hastype? is about any", "statement": "hastype? is true exactly when one of the things is of one of the types.", "quantifier": "all things, types and ways of being of a type", "why_tests_cant": "Choices of any size are meant.", "anchors": ["src/eval/typeops.c:hastypep_prim"]}
{"id": "C271", "title": "only-hastype? is about all", "statement": "only-hastype? is true exactly when each of the things is of one of the types.", "quantifier": "all things, types and ways of being of a type", "why_tests_cant": "Choices of any size are meant.", "anchors": ["src/eval/typeops.c:only_hastypep_prim"]}
{"id": "C272", "title": "Comparisons compare neighbours", "statement": "<, <=, =, >=, > and != with several arguments compare each with the next from the left and stop at the first which is false or an error.", "quantifier": "all comparisons and lists of arguments", "why_tests_cant": "Lists of any length with errors anywhere are meant.", "anchors": ["src/eval/coreops.c:do_compare", "src/eval/coreops.c:numeric_compare"]}
{"id": "C273", "title": "Comparisons are those of values", "statement": "<, <=, =, >= and > are true exactly when the values of the numbers are so ordered, each with all that follow.", "quantifier": "all comparisons and lists of numbers", "why_tests_cant": "Numbers of several kinds can be mixed in any way.", "anchors": ["src/eval/coreops.c:do_compare", "src/lisp/numbers.c:kno_numcompare"]}
{"id": "C274", "title": "Opposite comparisons", "statement": "For two numbers != is the opposite of =, >= of <, and > of <=.", "quantifier": "all pairs of numbers", "why_tests_cant": "All kinds of numbers are meant.", "anchors": ["src/eval/coreops.c:do_compare"]}
{"id": "C275", "title": "!= is about being different", "statement": "!= is true exactly when all its arguments are different numbers.", "quantifier": "all lists of numbers", "why_tests_cant": "The wrong cases need three arguments.", "anchors": ["src/eval/coreops.c:do_compare"]}
{"id": "C276", "title": "zero? is exact", "statement": "zero? is true exactly for the numbers whose value is 0.", "quantifier": "all real numbers of all kinds, and everything else", "why_tests_cant": "All kinds of numbers are meant.", "anchors": ["src/eval/coreops.c:lisp_zerop"]}
{"id": "C277", "title": "eqv? is equality of numbers", "statement": "eqv? is true for two numbers exactly when they have the same value and are both exact or both inexact.", "quantifier": "all pairs of numbers", "why_tests_cant": "The wrong cases need rare kinds of numbers.", "anchors": ["src/eval/coreops.c:eqvp", "src/lisp/numbers.c:kno_numcompare"]}
{"id": "C278", "title": "identical? is equality of choices", "statement": "identical? is true exactly when both choices have the same elements.", "quantifier": "all pairs of choices", "why_tests_cant": "Choices of any size are meant.", "anchors": ["src/eval/coreops.c:identicalp"]}
{"id": "C279", "title": "equal? compares all pairs", "statement": "equal? gives the answers for all pairs of elements of its arguments, as it is documented.", "quantifier": "all pairs of choices", "why_tests_cant": "Choices of any size are meant.", "anchors": ["src/eval/coreops.c:equalp"]}
{"id": "C280", "title": "->lisp parses words", "statement": "->lisp leaves strings with white space or of more than 64 bytes as they are, and gives what the parser makes of all others; where the parser fails it gives the string.", "quantifier": "all strings and parsers", "why_tests_cant": "All strings are meant.", "anchors": ["src/eval/coreops.c:lisp_tolisp"]}
{"id": "C281", "title": "parse-slotid gives symbols", "statement": "parse-slotid gives a symbol for a word.", "quantifier": "all words", "why_tests_cant": "All words are meant.", "anchors": ["src/eval/coreops.c:lisp_parse_slotid", "src/lisp/parse.c:kno_parse_slotid"]}
{"id": "C282", "title": "Servers give the OIDs they offer", "statement": "A database server answers a request for one OID with its current value if it is in a pool the server offers, and with an error otherwise.", "quantifier": "all servers and OIDs", "why_tests_cant": "All sets of served pools and all OIDs are meant.", "anchors": ["src/storage/dbserv.c:server_oid_value", "src/storage/dbserv.c:served_poolp"]}
{"id": "C283", "title": "Several OIDs at once", "statement": "A database server asked for several OIDs of one of its pools answers with their current values, one for each and in order.", "quantifier": "all servers and lists of OIDs", "why_tests_cant": "What is cached or changed in the server depends on everything it did before.", "anchors": ["src/storage/dbserv.c:server_fetch_oids"]}
{"id": "C284", "title": "Private OIDs stay private", "statement": "A request for several OIDs is refused if any of them is not in a pool the server offers.", "quantifier": "all servers and lists of OIDs", "why_tests_cant": "Lists of any length are meant.", "anchors": ["src/storage/dbserv.c:server_fetch_oids"]}
{"id": "C285", "title": "Loads over the network", "statement": "A server tells the load of its primary pool and of the pools it offers, and refuses to tell others.", "quantifier": "all servers and arguments", "why_tests_cant": "All OIDs are meant, including those of no pool.", "anchors": ["src/storage/dbserv.c:server_get_load", "src/storage/pools.c:kno_pool_load"]}
{"id": "C286", "title": "Served pools are a set", "statement": "After any configuration, no pool is served twice, no more than 128 are, only pools asked for are, and served pools stay served.", "quantifier": "all histories of configurations", "why_tests_cant": "Histories of any length are meant.", "anchors": ["src/storage/dbserv.c:serve_pool"]}
{"id": "C287", "title": "Configured pools are served", "statement": "When configuring the served pools succeeds all of them are served; a single pool is refused only when 128 others are served.", "quantifier": "all configurations", "why_tests_cant": "Configurations of any size are meant.", "anchors": ["src/storage/dbserv.c:serve_pool"]}
{"id": "C288", "title": "Failed configurations change nothing", "statement": "When configuring the served pools fails, the served pools are as before.", "quantifier": "all configurations", "why_tests_cant": "The wrong cases need a bad value behind a good one.", "anchors": ["src/storage/dbserv.c:serve_pool"]}
{"id": "C289", "title": "Served pools are described", "statement": "A server describes exactly its served pools, in order, with their bases, capacities and labels.", "quantifier": "all servers", "why_tests_cant": "Any number of pools is meant.", "anchors": ["src/storage/dbserv.c:server_pool_data"]}
{"id": "C290", "title": "Many keys at once", "statement": "A server asked for many keys of an index answers with what it answers for each, in order.", "quantifier": "all indexes and lists of keys", "why_tests_cant": "Lists of any length with errors anywhere are meant.", "anchors": ["src/storage/dbserv.c:iserver_bulk_get", "src/storage/dbserv.c:ixserver_bulk_get", "src/storage/dbserv.c:iserver_get"]}
{"id": "C291", "title": "Many keys of a table", "statement": "A server asked for many keys of a table answers as for one key, and with an error for what is not a table.", "quantifier": "all tables and lists of keys", "why_tests_cant": "The wrong cases need a key of another kind.", "anchors": ["src/storage/dbserv.c:ixserver_bulk_get", "src/storage/dbserv.c:ixserver_get"]}
{"id": "C292", "title": "Sizes over the network", "statement": "The size a server gives for a key is the number of its values, and an error if these cannot be had.", "quantifier": "all indexes and keys", "why_tests_cant": "Errors depend on the state of files.", "anchors": ["src/storage/dbserv.c:iserver_get_size"]}
{"id": "C293", "title": "Answers are checked", "statement": "A network pool or index which asks for several OIDs or keys accepts an answer with one value for each, and reports an error for any other answer.", "quantifier": "all answers of servers", "why_tests_cant": "Servers can answer anything.", "anchors": ["src/drivers/netpool.c:network_pool_fetchn", "src/drivers/netindex.c:netindex_fetchn"]}
{"id": "C294", "title": "Remote values are the server's", "statement": "Values of several OIDs read through a network pool are those which the OIDs have in the server.", "quantifier": "all servers and lists of OIDs", "why_tests_cant": "What is cached or changed in the server depends on everything it did before.", "anchors": ["src/drivers/netpool.c:network_pool_fetchn", "src/storage/dbserv.c:server_fetch_oids"]}
{"id": "C295", "title": "Keys of network indexes", "statement": "The keys of a network index are those its server lists.", "quantifier": "all network indexes and answers", "why_tests_cant": "All answers are meant, including no keys at all.", "anchors": ["src/drivers/netindex.c:netindex_fetchkeys"]}
{"id": "C296", "title": "Clients and servers understand each other", "statement": "The operations which network pools and indexes ask for are defined by database servers, and give answers the clients can use.", "quantifier": "all operations and servers", "why_tests_cant": "It is about all servers.", "anchors": ["src/drivers/netpool.c:kno_init_netpool_c", "src/drivers/netindex.c:kno_init_netindex_c", "src/storage/dbserv.c:kno_init_dbserv_c", "src/drivers/netpool.c:init_network_pool"]}
{"id": "C297", "title": "Network pools have what the server says", "statement": "A network pool opens exactly if the server gives a base and a capacity, and has these; its load is the number which the server answers.", "quantifier": "all answers of servers", "why_tests_cant": "Servers can answer anything.", "anchors": ["src/drivers/netpool.c:init_network_pool", "src/drivers/netpool.c:network_pool_load"]}
{"id": "C298", "title": "Times are ordered", "statement": "For any two arguments that are accepted as moments (C299), time<? and time>? say which of them is earlier.", "quantifier": "all moments and ways to give them", "why_tests_cant": "All moments are meant.", "anchors": ["src/prims/timeprims.c:timestamp_lesser", "src/prims/timeprims.c:timestamp_greater", "src/prims/timeprims.c:get_timestamp"]}
{"id": "C299", "title": "Times can be given in several ways", "statement": "Every argument that denotes a moment is accepted as that moment, and every other one is an error.", "quantifier": "all arguments", "why_tests_cant": "All arguments are meant.", "anchors": ["src/prims/timeprims.c:get_timestamp"]}
{"id": "C300", "title": "Differences of times", "statement": "difftime gives the first moment minus the second; time-until and time-since are opposites.", "quantifier": "all moments and ways to give them", "why_tests_cant": "All moments are meant.", "anchors": ["src/prims/timeprims.c:timestamp_diff", "src/prims/timeprims.c:time_until", "src/prims/timeprims.c:time_since"]}
{"id": "C301", "title": "Past and future", "statement": "future? and past? are true exactly for moments more than the threshold after or before now; other arguments are errors.", "quantifier": "all arguments and thresholds", "why_tests_cant": "They depend on the moment of the call.", "anchors": ["src/prims/timeprims.c:futurep", "src/prims/timeprims.c:pastp", "src/prims/timeprims.c:kno_cmp_now"]}
{"id": "C302", "title": "Moving times", "statement": "timestamp+ and timestamp- move a moment by a number of seconds and undo each other; other arguments are errors.", "quantifier": "all arguments", "why_tests_cant": "All moments and numbers are meant.", "anchors": ["src/prims/timeprims.c:timestamp_plus_helper"]}
{"id": "C303", "title": "Timestamps from numbers", "statement": "A timestamp made from a flonum denotes the moment it gives, to the nanosecond.", "quantifier": "all flonums", "why_tests_cant": "The wrong cases are far away in time.", "anchors": ["src/prims/timeprims.c:timestamp_prim"]}
{"id": "C304", "title": "Dates can be set and read", "statement": "After a part of the date of a timestamp is stored it has that value, and the other parts are as before.", "quantifier": "all timestamps, slots and values, and all calendars", "why_tests_cant": "All dates are meant.", "anchors": ["src/prims/timeprims.c:xtime_set", "src/prims/timeprims.c:xtime_get"]}
{"id": "C305", "title": "Possible dates can be stored", "statement": "Storing a possible value for a part of a date works.", "quantifier": "all timestamps, slots and values, and all calendars", "why_tests_cant": "The wrong cases are far away in time.", "anchors": ["src/prims/timeprims.c:xtime_set"]}
{"id": "C306", "title": "Impossible dates are refused", "statement": "Storing an impossible value for a part of a date is an error and changes nothing.", "quantifier": "all timestamps, slots and values", "why_tests_cant": "All values are meant.", "anchors": ["src/prims/timeprims.c:xtime_set"]}
{"id": "C307", "title": "Parts of seconds", "statement": "The slots for milliseconds, microseconds and nanoseconds give the nearest whole number of these, less than a second.", "quantifier": "all timestamps", "why_tests_cant": "All fractions of a second are meant.", "anchors": ["src/prims/timeprims.c:xtime_get"]}
{"id": "C308", "title": "Seasons and times of day", "statement": "Every month has a season and every hour a time of day, and at most two of them.", "quantifier": "all months and hours", "why_tests_cant": "All months and hours are meant.", "anchors": ["src/prims/timeprims.c:xtime_get"]}
{"id": "C309", "title": "Durations in words add up", "statement": "What secs->string lists adds up to the duration, with positive counts, units in order, each as often as it fits.", "quantifier": "all whole numbers of seconds, precisions below a minute", "why_tests_cant": "All durations are meant.", "anchors": ["src/prims/timeprims.c:secs2string"]}
{"id": "C310", "title": "Durations to a precision", "statement": "secs->string with a precision lists nothing finer than that.", "quantifier": "all whole numbers of seconds and precisions", "why_tests_cant": "All durations are meant.", "anchors": ["src/prims/timeprims.c:secs2string"]}
{"id": "C311", "title": "Short durations add up", "statement": "The days, hours, minutes and seconds of secs->short add up to the duration.", "quantifier": "all whole numbers of seconds", "why_tests_cant": "All durations are meant.", "anchors": ["src/prims/timeprims.c:secs2short"]}
{"id": "C312", "title": "Time zone offsets", "statement": "Offsets are in hours up to 48 and in seconds up to two days, and more is an error; setting one sets it, and leaves the moment.", "quantifier": "all timestamps and offsets", "why_tests_cant": "All offsets are meant.", "anchors": ["src/prims/timeprims.c:tzvalueok", "src/prims/timeprims.c:xtime_set"]}
{"id": "C313", "title": "Segmenting at spaces", "statement": "segment without separators gives the words of a text: the longest runs of characters that are not spaces.", "quantifier": "all texts and notions of space", "why_tests_cant": "All texts are meant.", "anchors": ["src/text/texttools.c:whitespace_segment", "src/text/texttools.c:segment_prim"]}
{"id": "C314", "title": "Segmenting at separators", "statement": "segment with separators ends with parts that contain no separator and that with separators between them are the text; a separator that is not a string is an error.", "quantifier": "all texts and choices of separators", "why_tests_cant": "All texts are meant.", "anchors": ["src/text/texttools.c:dosegment", "src/text/texttools.c:segment_prim"]}
{"id": "C315", "title": "Words and punctuation", "statement": "getwords with #t gives the words and the punctuation of a text in order, each as long as can be, and loses nothing but spaces; with #f it gives the words of these.", "quantifier": "all texts and classes of characters", "why_tests_cant": "All texts are meant.", "anchors": ["src/text/texttools.c:kno_words2list", "src/text/texttools.c:skip_span", "src/text/texttools.c:skip_word", "src/text/texttools.c:getwords_prim"]}
{"id": "C316", "title": "Punctuation is kept by default", "statement": "Without a flag getwords gives the punctuation too.", "quantifier": "all texts", "why_tests_cant": "All texts are meant.", "anchors": ["src/text/texttools.c:getwords_prim"]}
{"id": "C317", "title": "Words in vectors", "statement": "words->vector gives the words that getwords gives, however many there are.", "quantifier": "all texts, classes of characters and flags", "why_tests_cant": "The buffer grows in several ways.", "anchors": ["src/text/texttools.c:kno_words2vector", "src/text/texttools.c:getwordsv_prim"]}
{"id": "C318", "title": "Fragments of word vectors", "statement": "vector->frags gives the runs of words with the sizes asked for, and those at the beginning and the end marked with #f, and nothing else.", "quantifier": "all vectors, windows and affixes", "why_tests_cant": "All vectors and windows are meant.", "anchors": ["src/text/texttools.c:vector2frags_prim"]}
{"id": "C319", "title": "Phrases from words", "statement": "seq->phrase puts a space between the words from the start to the end, either of which may count from the end of the sequence; places outside are errors.", "quantifier": "all sequences, starts and ends", "why_tests_cant": "All sequences and places are meant.", "anchors": ["src/text/texttools.c:seq2phrase_prim"]}
{"id": "C320", "title": "Phrases from choices", "statement": "For a sequence with choices seq->phrase gives the phrase of every way to choose.", "quantifier": "all sequences with choices", "why_tests_cant": "All sequences are meant.", "anchors": ["src/text/texttools.c:seq2phrase_prim", "src/text/texttools.c:seq2phrase_ndhelper"]}
{"id": "C321", "title": "Counting words", "statement": "count-words gives the number of words of a text.", "quantifier": "all texts and notions of space", "why_tests_cant": "All texts are meant.", "anchors": ["src/text/texttools.c:count_words"]}
{"id": "C322", "title": "Percentages of spaces", "statement": "isspace% gives the percentage of spaces in a text, rounded down.", "quantifier": "all texts and notions of space", "why_tests_cant": "The wrong case needs a very long text.", "anchors": ["src/text/texttools.c:isspace_percentage"]}
{"id": "C323", "title": "Leaving characters out", "statement": "disemvowel leaves out just the characters whose base character is a vowel, depunct just spaces and punctuation.", "quantifier": "all texts and sets of vowels", "why_tests_cant": "All texts are meant.", "anchors": ["src/text/texttools.c:disemvowel", "src/text/texttools.c:depunct"]}
{"id": "C324", "title": "Stripping markup", "statement": "strip-markup leaves the text of a document, with a space for each tag when asked for or by default.", "quantifier": "all documents", "why_tests_cant": "All documents are meant.", "anchors": ["src/text/texttools.c:strip_markup"]}
{"id": "C325", "title": "Columns of text", "statement": "columnize gives for each width the text of that column.", "quantifier": "all texts and widths", "why_tests_cant": "All texts are meant.", "anchors": ["src/text/texttools.c:columnize_prim"]}
{"id": "C326", "title": "Columns with parse functions", "statement": "columnize with parse functions gives what they give for the texts of their columns, and strings for columns without one.", "quantifier": "all texts, widths and functions", "why_tests_cant": "All texts are meant.", "anchors": ["src/text/texttools.c:columnize_prim"]}
{"id": "C327", "title": "Finding separators", "statement": "findsep gives the place of the first separator within the limits that is not escaped.", "quantifier": "all texts, separators, escapes and limits", "why_tests_cant": "All texts are meant.", "anchors": ["src/text/texttools.c:findsep_prim"]}
{"id": "C328", "title": "Splitting at separators", "statement": "splitsep gives the fields that are not empty between separators that are not escaped, within the limits.", "quantifier": "all texts, separators, escapes and limits", "why_tests_cant": "All texts are meant.", "anchors": ["src/text/texttools.c:splitsep_prim"]}
{"id": "C329", "title": "Reading backslashes", "statement": "unslashify gives what a text with backslashes spells between the limits; in particular it undoes putting backslashes before characters.", "quantifier": "all texts and limits", "why_tests_cant": "All texts are meant.", "anchors": ["src/text/texttools.c:unslashify_prim"]}
{"id": "C330", "title": "The form of soundex codes", "statement": "soundex gives the capital of the first letter and three digits, and does not depend on the case of letters.", "quantifier": "all texts", "why_tests_cant": "All texts are meant.", "anchors": ["src/text/phonetic.c:kno_soundex", "src/text/phonetic.c:soundex_class", "src/text/texttools.c:soundex_prim"]}
{"id": "C331", "title": "Soundex codes by the book", "statement": "soundex gives the standard soundex code: letters with the sound of the letter before, the first one too, do not count.", "quantifier": "all texts", "why_tests_cant": "All texts are meant.", "anchors": ["src/text/phonetic.c:kno_soundex", "src/text/phonetic.c:soundex_class"]}
{"id": "C332", "title": "Metaphones and the case of letters", "statement": "Texts that differ only in the case of letters have metaphones that differ only in the case of letters.", "quantifier": "all texts, with and without separators", "why_tests_cant": "All texts and all ways to write them are meant.", "anchors": ["src/text/phonetic.c:kno_metaphone"]}
{"id": "C333", "title": "Metaphones and double letters", "statement": "metaphone does not change when a letter is written twice.", "quantifier": "all texts and places in them", "why_tests_cant": "All texts are meant.", "anchors": ["src/text/phonetic.c:kno_metaphone"]}
{"id": "C334", "title": "Metaphones with separators", "statement": "metaphone+ gives what metaphone gives, with dots between some letters.", "quantifier": "all texts", "why_tests_cant": "All texts are meant.", "anchors": ["src/text/phonetic.c:kno_metaphone", "src/text/texttools.c:metaphone_plus_prim"]}
{"id": "C335", "title": "The letters of metaphones", "statement": "After its first character a metaphone has only the sixteen letters that stand for sounds, and spaces.", "quantifier": "all texts", "why_tests_cant": "All texts are meant.", "anchors": ["src/text/phonetic.c:kno_metaphone"]}
{"id": "C336", "title": "The rules of metaphone", "statement": "Letters come to sounds by the rules of metaphone: a B after an M at the end is silent, C before I is S, TIO is X, W is silent unless a vowel follows.", "quantifier": "all texts", "why_tests_cant": "The rules hold for some texts.", "anchors": ["src/text/phonetic.c:kno_metaphone"]}
{"id": "C337", "title": "Prefixes and suffixes", "statement": "is-prefix? and is-suffix? tell whether a text begins or ends with another.", "quantifier": "all pairs of texts", "why_tests_cant": "All texts are meant.", "anchors": ["src/text/texttools.c:is_prefix_prim", "src/text/texttools.c:is_suffix_prim"]}
{"id": "C338", "title": "First and last words", "statement": "has-word-prefix? and has-word-suffix? tell whether a text has another as its first or last words; firstword and lastword give the first and the last word.", "quantifier": "all texts and notions of space", "why_tests_cant": "All texts are meant.", "anchors": ["src/text/texttools.c:has_word_prefix", "src/text/texttools.c:has_word_suffix", "src/text/texttools.c:firstword_prim", "src/text/texttools.c:lastword_prim"]}
{"id": "C339", "title": "Last words after separators", "statement": "lastword with a string gives what comes after the last place where that is found, or the whole text.", "quantifier": "all texts and separators", "why_tests_cant": "A call that never ends is not observed to do so.", "anchors": ["src/text/texttools.c:lastword_prim"]}
{"id": "C340", "title": "Encoding entities", "statement": "encode-entities encodes just the characters asked for, so that they do not appear in the result and the text can be decoded again.", "quantifier": "all texts and sets of characters", "why_tests_cant": "All texts are meant.", "anchors": ["src/text/texttools.c:encode_entities", "src/text/texttools.c:encode_entities_prim"]}
