# Formal model of beingmeta/kno — design

The model is Lean 4 (4.33.0), under `lean/Verif/`, built by `lake build` in
`lean/`.  The C sources in `/repo` are read as text; nothing is compiled or run.

## Trusted base

* Lean's kernel, and the axioms `propext`, `Classical.choice`, `Quot.sound`
  (each theorem depends on at most these).  No axioms of our own, no `sorry`,
  no `native_decide`, no `bv_decide`.
* The reading of the C code: every definition of the model cites the file and
  lines it models and names its simplifications.
* Assumed outside the model: the C compiler, libu8, libc (`memcpy`, `qsort`,
  `mmap`, `fsync`, ...), the operating system's file semantics as described in
  the crash model below, correctness of mutexes, memory allocation succeeding.
* Not modelled anywhere: reference counting and memory reclamation, floating
  point arithmetic (doubles are opaque 64-bit patterns), logging, profiling,
  network drivers, compression libraries (opaque inverse pair), the evaluator's
  special forms.

## Layout

One directory per area.  `Model.lean` is the model of the code, `Spec.lean` the
independent specification (when it is more than a one-liner), `Lemmas.lean` the
helper lemmas, `Props.lean` the property theorems with their non-vacuity
`example`s, and counterexamples where the code violates the property.

## Conventions

* C integers are `Nat`/`Int`/`BitVec`/`UInt*` as the property requires; wherever
  wrap-around or truncation can be observed it is modelled explicitly.
* Pointers to mutable structures become values passed and returned; loops become
  structural recursion.  Undefined behaviour and error returns are distinct
  outcomes (`Except`, `Option`, or a dedicated constructor).
* When the code violates a property, the negation is proved with a concrete
  witness (theorem suffix `_violated`), and the part that does hold is proved
  under an explicit guard with suffix `_partial`.

## Properties: plan

| id | modelled | proof |
|----|----------|-------|
| C01 | `kno_write_varint`/`kno_read_varint` on byte lists | round trip by case split on the nine lengths; witness for n >= 2^63 |
| C02 | fixed-width big-endian writers/readers, the flip macros | arithmetic; witness for the 8-byte flip |
| C03 | `KNO_OUTBUF` as capacity + contents, grow loop | invariant over arbitrary write sequences |
| C04-C06 | the DType writer/reader as functions on byte lists over an inductive value type | structural induction |
| C06-C09 | the XType writer/reader, reference tables | structural induction; prefix-safety from the continuation form of the round trip |
| C10 | `__kno_cons_compare`, `lispval_compare`, `lispval_equal` over an inductive value type | induction; witness where they disagree |
| C11-C14 | quicksort, compress, merge, binary search, prechoice accumulation over an abstract lawful comparison | permutation/sortedness proofs, refinement to sets |
| C15-C21 | slotmaps, schemaps, hashtables, hashsets, generic dispatch | refinement to functions `Key -> Set`; invariants over op sequences |
| C22-C24 | OID base table with probing, sub-pool vectors, allocation | invariants over histories |
| C25-C27 | pool front end: cache, changes, disk; commit phases | refinement to `OID -> Value` |
| C28 | pool file as bytes; commit as a list of primitive writes; a crash keeps an arbitrary subset of them | every crash state recovers |
| C29 | chunk reference packing | bit arithmetic |
| C30-C33 | index front end: adds, drops, stores, cache, disk; commit | refinement to `Key -> Set`, interleavings |
| C40 | the same, with the schedule of `kindex.c` | what is on disk after a commit |
| C34, C41, C42 | `bloom.c` with the primitives of `dbprims.c`; any hash function | invariant: the bits set are those of the values added |
| C43–C46, C49, C50 | the bigint package of `numbers.c`, digit by digit, with the overflow of `int`s as an outcome | refinement: each operation computes the integer operation on what the digits stand for |
| C43–C48, C51 | integers and ratios as Lisp values (`kno_plus` … `kno_numcompare`), over the bigint package | refinement to the integers and the rationals |
| C35 | the walker in `methods.c` | invariant of DFS with a seen set; reachability |
| C36 | `ndcall`, `ndapply*`, `kno_call` | equality with the product/union specification |
| C52-C54 | `kindex.c`: fetching, `fetchn`, listing keys, `kindex_save`; any encoding of keys and values that can be read back | invariant: each bucket's entries stand for the values of its keys; induction over commits |
| C55 | `kindex_commit` phases over the crash model of `Verif/KPool/Crash` | invariant of a commit in progress; what is read does not depend on the header |
| C56 | Printer and parser as functions on lists of code points; what libu8 says about characters beyond ASCII, `strtod`, and the order of choices are parameters. Floats, entities, `\x` and `\u{` escapes and compound types with their own printers are not modelled | every printed text is a layout (C57), by induction on values |
| C57 | `Layout` specifies the texts of a value; reading as in C56 | each layout is read as the value, by mutual induction over layouts |
| C58 | `kno_unparse_arg` and `kno_parse_arg`, on top of C56 | decision logic and C56 |
| C59 | `KNO_STREAM` on a file: buffer, positions, directions, filling, flushing, growing, and the operations at positions and without the buffer | refinement to a file with a position, by induction over histories |
| C60 | closing and flushing, on top of C59 | as C59 |
| C61 | read-only streams | invariant by induction over histories |
| C62 | lock-free reference counts, recyclers of pairs and of blocks, any number of threads, one atomic operation at a time | invariant by induction over interleavings: the count in a header is the number of references, until the one thread that brings it to zero has it |
| C63 | as C62 | the same invariant; a measure that each step of a thread decreases |
| C64 | `probe_symbol`, `kno_make_symbol`, `kno_probe_symbol`, `grow_symbol_tables`, `mult_hash_bytes` (src/lisp/symbols.c) for any number of threads, one access to shared memory at a time | an invariant over all interleavings: every entry in every array, old or current, is right; every symbol is in the current array where it is looked for; there is an empty place; plus a run to the end for calls that do not overlap |
| C65 | as C64, with the array of names | the same invariant |
| C66 | sequences.c and seqprims.c with a branch for each kind of sequence (vectors, lists, strings as character codes, packets, secrets, vectors of numbers, compounds); functions as partial functions on values; errors and undefined behaviour apart | each function equals the one on the list of elements (`Seq.elts`), by induction over its loop |
| C67 | position, rposition, find, search, match? and position-if with their loops, `strchr`, `strrchr` and `strstr` as specified by C | first and last positions stated by quantifiers over positions (`First`, `Last`, `FirstSub`), induction over the loops |
| C68 | as C66, with secrets | case analysis, slices by C66 |
| C69 | the evaluator with its environments (`doeval`, `lisp_eval`, special forms, `lambda_call` with frame reuse, `kno_dynamic_lexenv`, `reset_env`, `kno_bind_value`, `kno_assign_value`) over a store of environments and a stack of frames | simulation: each environment of the evaluator stands for a frame of the definitional interpreter in `Spec.lean`; induction over the steps left |
| C70 | as C69; `scan` for a frame to reuse | induction over the ways in which stacks arise: waiting frames get strictly wider inwards |
| C71 | text matcher: `kno_text_domatch` and the operators of match.c, as operations on positions | induction over patterns: each operator matches exactly the relation which its pattern denotes |
| C72 | `kno_text_search` and the search functions of the operators | induction over patterns, together with C71 |
| C73 | text/gather, text/gather*, text/subst (with a string), text/slice | induction over the loops, from exactness of matching and searching; uniqueness of the list of occurrences |
| C74 | plain and aggregate indexes with keyslots and caches, `kno_index_frame`, `kno_finder` and what they call (`Verif/Finder`) | contents of the indexes kept as an invariant over histories; induction over nested aggregates |
| C75 | `kno_slotindex_merge` and `kno_index_merge`, by keyslots of both sides (`Verif/Finder`) | membership in the merged table, for each combination of keyslots |
| C76 | getting, testing, adding and dropping values of slots with methods, slot and test caches, dependencies and clearing (`Verif/Frames`) | invariant: what is cached is right for every store which agrees on what was recorded; clearing reaches everything recorded |
| C77 | `->json`: values, keys, escapes, flags (`Verif/Json`) | refinement: by induction on the value, what is printed is a text that the grammar gives for it; then C78 |
| C78 | `jsonparse`: values, vectors, tables, keys, strings, flags (`Verif/Json`), with the reader of `Verif/Text` | a grammar with meanings, independent of the reader; by strong induction on the number of steps the reader gives the meaning |
| C79 | the full comparison, `_kno_sort_helper`, `lispval_sort` in place with its scans, `sorted`/`rsorted` with key functions (`Verif/Sorting`) | the comparisons are consistent (opposite, transitive) on keys of all modelled types; invariant of the dividing loop; `qsort` is any function that sorts by consistent comparisons |
| C80 | `select_helper`, `pick-max`, `pick-min`, `max/sorted`, `min/sorted` | invariant over the elements: those kept are the best so far; guarded by keys on which the two comparisons agree |
| C81 | `largest`, `smallest`, `compare_lisp`, choices of magnitudes | invariant over the elements: the top ones are exactly those of extreme magnitude |
| C82 | `pick-n`, `getrange` with its 32-bit temporary, `pick>` | membership characterised exactly |
| C83 | `exists`, `forall` and their skiperrs variants | meaning of each result over all combinations, by induction on the arguments; `forall` by duality |
| C84 | `kno_cachecall`, `kno_xcachecall`, the table of caches with reference counts, thread caches, clearing and probing, over programs that call remembered functions (`Verif/Memo`) | invariant: every remembered value is that of the call (big-step semantics without memory), counts are right as long as there are no errors; induction on fuel |
| C85 | `kno_index_get` with thread cache, `delay`, prefetch and the rounds of `kno_ipeval_call` (`Verif/Memo`) | for programs that get one key after another each round fetches the next key; counterexamples for the rest |
| C86 | `kno_force_future`, `kno_change_future`, `force_eval_promise`, one read or write of shared state per step, any schedule (`Verif/Promises`) | invariant over steps of all threads; rank of places for progress; counterexample schedules |
| C87 | the file of a log index as bytes, `load_logindex`, `logindex_save`, opening and swapping out, over the DType model (`Verif/LogIndex`) | the file always holds an encoding of the list of all entries; replaying it is the specification map (refinement); `commit_as_seen` ties it to the commits of `Verif/Index` |
| C88 | the writes of `logindex_save` cut off after any number of bytes (`Verif/LogIndex`) | until the end of the log is written the old log is intact (a count of which some bytes are new is never too small); counterexamples for the rest |
| C89 | `kno_quasiquote` and its helpers over an evaluator which sees what was evaluated before (`Verif/Quasi`) | the walk, with its accumulator, equals a specification in the style of the Scheme reports, one pair at a time, by induction on the template; counterexamples for the templates where it does not |
| C90 | the forms of errfns.c for errors and cleanups, `call/cc`, and the check after a call, over a list of current exceptions and opaque actions (`Verif/Errors`) | refinement of a semantics in which errors and throws carry what they mean, by induction on programs with an invariant on the current exception and the continuations; cleanups are done for all programs; counterexamples for the cases excluded |
| C91 | `uri_output`, `uriencode` and `uridecode` (`Verif/Uri`) | encodings as an inductive relation; the encoder gives one, the decoder accepts exactly these, both by induction on the text |
| C92 | `add_query_param`, `form->uristring`, `scripturl`, `parse_query_string` with slots and protected names as parameters, the buffers of queries and cookies (`Verif/Uri`) | query strings as an inductive relation; the parser's result by induction on it, the makers' texts are in it; buffers by induction on the text; counterexamples for the cases excluded |
| C93 | the functions giving parts of URIs, `kno_parse_uri` and `unparseuri` without a base, the memory of `datauri` (`Verif/Uri`) | parts specified by splitting at delimiters; parsing of well-formed texts by induction on the path; parse of unparse; counterexamples for the cases excluded |
| C94 | as for C43, C44 and C48 | exactness theorems of these, without exclusions |
| C95 | as for C47 and C51 | exactness theorems of these, without exclusions |
| C96 | as for C49 | by induction on the digits |
| C97 | as for C13 | by the canonical form of each result |
| C98 | as for C14 | by induction on the history of additions |
| C99 | as for C15 | refinement to an abstract map by induction on the history |
| C100 | as for C86 | invariant over all schedules |
| C101 | as for C90 | by cases of the end of the body, over the trace of actions |
| C102 | as for C91 | both directions by induction |
| C103 | as for C35 | reachability by induction on the walk; termination by counting visited objects |
| C104 | as for C83 | by induction on the arguments |
| C105 | as for C02 and C03 | invariant by induction on the writes |
| C106 | as for C66 | by the elements of each kind |
| C107 | `kno_find_module` with the load lock, its mutex and condition variable, run by threads step by step; sources as lists of registering, using, finishing and failing (`Verif/Modules`) | invariant over all schedules without failed loads; a thread alone by induction on the rank of modules; threads which wait are shown to wait in every continuation; counterexample schedules |
| C108 | `use_module_helper` on the chain of tables of an environment (`Verif/Modules`) | by cases; counterexamples for modules used before and vectors in choices |
| C109 | as for C108 | by induction on the argument |
| C110 | `aggregate_fetch` and reads of the aggregate, on members which are indexes as in `Verif/Index` (`Verif/Aggregates`) | invariant over histories: an index which does not cache has nothing cached; reading twice gives the same |
| C111 | as for C110, with the aggregate's own cache | invariant over histories in which no cached key changes; counterexamples |
| C112 | `aggregate_prefetch` behind `kno_index_prefetch` (`Verif/Aggregates`) | from the invariants of the members and the aggregate; counterexample |
| C113 | `aggregate_fetchn` with its arrays, unwritten cells and writes past the end (`Verif/Aggregates`) | induction over the keys and the members; counterexamples, one for every state |
| C114 | `kno_index_keys`, `aggregate_fetchkeys` (`Verif/Aggregates`) | from the invariant of the index; counterexamples |
| C115 | `kno_add_to_aggregate_index`, `kno_index_swapout` (`Verif/Aggregates`) | induction over histories |
| C116 | `kno_getopt`, `getopt_evalfn` on nested options (`Verif/Options`) | induction over the options; counterexamples |
| C117 | the same on lists of pairs (`Verif/Options`) | induction over the list; counterexamples |
| C118 | `kno_merge_opts` (`Verif/Options`) | from C116 and the tables of the result; counterexamples |
| C119 | `opts_plus_prim` (`Verif/Options`) | induction over the arguments, with what has been gathered; counterexamples |
| C120 | `kno_testopt`, `boolopt` (`Verif/Options`) | induction over the list; counterexamples |
| C121 | `with_lock_evalfn`, `sync_lock`, `sync_read_lock`, releasing (`Verif/Threads`) | invariant over all schedules, progress by draining the threads inside; counterexamples |
| C122 | `_kno_thread_main`, `join_thread`, `threadfinish_prim` (`Verif/Threads`) | invariant over all schedules; counterexamples |
| C123 | the predicates on the same states (`Verif/Threads`) | from the invariant; counterexamples |
| C124 | `parallel_evalfn` with its threads (`Verif/Threads`) | invariant over all schedules |
| C125 | `sassign_evalfn` (`Verif/Threads`) | refinement to assignments in turn, over all schedules |
| C126 | `sassign_evalfn` (`Verif/Threads`) | progress by draining; counterexample |
| C127 | `get_join_wait` (`Verif/Threads`) | arithmetic; counterexample |
| C128 | `entify`, `decode_entities` (`Verif/Xml`) | round trip by induction |
| C129 | `attrib_entify`, `kno_convert_entities`, `kno_default_attribfn` (`Verif/Xml`) | round trip by induction; counterexamples |
| C130 | `open_markup`, `close_markup`, `kno_walk_xml` and what it calls (`Verif/Xml`) | the loop on a printed document with any rest behind it, by induction over documents; counterexamples |
| C131 | the same (`Verif/Xml`) | the same with C128 and C129; counterexample |
| C132 | `xmlparse_core` on any string (`Verif/Xml`) | invariant over the rounds of the loop; counterexamples |
| C133 | comments and CDATA in `kno_walk_xml` (`Verif/Xml`) | one round, for all strings; counterexamples |
| C134 | `kno_xmlout`, `get_markup_string` (`Verif/Xml`) | induction over documents; counterexamples |
| C135 | `begin_evalfn`, `prog1_evalfn`, `onbreak_evalfn`, `eval_body` over arbitrary effects (`Verif/Control`) | induction over the body; counterexamples |
| C136 | `and_evalfn`, `try_evalfn`, `tryif_evalfn` (`Verif/Control`) | refinement to the first clause of a kind, by induction |
| C137 | `if_evalfn`, `cond_evalfn`, `case_evalfn`, `when_evalfn`, `unless_evalfn` (`Verif/Control`) | decision logic; counterexamples |
| C138 | `while_evalfn`, `until_evalfn`, `testeval` (`Verif/Control`) | equivalence with a relation over rounds; counterexample |
| C139 | `doseq_evalfn`, `dolist_evalfn`, `forseq_evalfn`, `tryseq_evalfn` (`Verif/Control`) | refinement to a relation over elements, by induction |
| C140 | `dochoices_evalfn`, `forchoices_evalfn`, `filterchoices_evalfn`, `trychoices_evalfn` (`Verif/Control`) | the same; counterexample |
| C141 | `dosubsets_evalfn` (`Verif/Control`) | the same over blocks; a loop which does not end, by induction over its rounds |
| C142 | `doiter_evalfn` (`Verif/Control`) | induction over the elements drawn; counterexample |
| C143 | `or_evalfn` (`Verif/Control`) | as C136; counterexample |
| C144 | `dotimes_evalfn` (`Verif/Control`) | as C139; counterexample |
| C145 | `fileindex_fetch`, `fileindex_save`, `fetch_keydata` with and without cached offsets, `reserve_slotno`, values in linked pieces, 32-bit offsets (`Verif/FileIndex`) | invariant of the file kept by every commit, by an invariant of the search for slots; counterexamples |
| C146 | `fileindex_fetch` (`Verif/FileIndex`) | counting the slots on a path, all different for a prime size; counterexamples |
| C147 | `fetch_keydata`, `fetchn` (`Verif/FileIndex`) | decreasing measure over rounds, counting; loops which do not end, by induction |
| C148 | the same (`Verif/FileIndex`) | how far each key has got after each round, counting; counterexample |
| C149 | rollback files, `open_fileindex`, every prefix of the writes of a commit (`Verif/FileIndex`) | refinement to before or after; with C145 |
| C150 | the same, opened for reading only (`Verif/FileIndex`) | as C149 if no offset was written; counterexample |
| C151 | `fileindex_save` (`Verif/FileIndex`) | files which have only grown read the same |
| C152 | `fetchn`, `run_schedule` (`Verif/FileIndex`) | induction over the search |
| C153 | `fileindex_fetchkeys` (`Verif/FileIndex`) | invariant of C145; counterexample |
| C154 | the lock of an index (`Verif/FileIndex`) | decision logic; counterexample |
| C155 | `trim-spaces` on bytes in UTF-8 (`Verif/Strings`) | induction over the text from both ends; where characters begin |
| C156 | `stdspace`, `stdstring` (`Verif/Strings`) | invariant of the loop: words written so far; counterexamples |
| C157 | `upcase`, `downcase`, `capitalize`, `uppercase?`, `lowercase?` (`Verif/Strings`) | reading back UTF-8, induction |
| C158 | `has-prefix`, `has-suffix`, `strip-prefix`, `strip-suffix` on bytes (`Verif/Strings`) | UTF-8 is self-synchronising; refinement to lists of characters |
| C159 | `compare_strings`, `compare_strings_ci`, `docmp` (`Verif/Strings`) | refinement to alphabetical order, transitivity; counterexample |
| C160 | `string-subst` with strings, `strstr` (`Verif/Strings`) | induction over the length; self-synchronising; counterexample by induction |
| C161 | `string-append` (`Verif/Strings`) | induction; counterexample |
| C162 | `glom` (`Verif/Strings`) | invariant of the fold over arguments |
| C163 | `phrase-length` (`Verif/Strings`) | induction over the text in both states of the loop; counterexample |
| C164 | `ascii?`, `latin1?`, `empty-string?` (`Verif/Strings`) | shape of UTF-8, induction; counterexample |
| C165 | `startword` (`Verif/Strings`) | refinement to words; counterexample |
| C166 | `bigrams`, `trigrams` (`Verif/Strings`) | induction over the window; counterexample |
| C167 | `fixnuls` (`Verif/Strings`) | loop which does not end, by induction |
| C168 | `file_pool_fetch`, `_storen`, `_commit`, `_alloc`, `open_file_pool` (`Verif/FilePool`) | invariant over histories; general counterexample with offsets in memory |
| C169 | `file_pool_storen`, `kno_apply_head` (`Verif/FilePool`) | induction over the batch; what is before the end stays |
| C170 | commits as lists of changes, any prefix of them, and the rollback file (`Verif/FilePool`) | what is before the end stays; counterexample |
| C171 | the same without the rollback file (`Verif/FilePool`) | invariant for part of a batch; counterexample |
| C172 | `file_pool_fetchn` (`Verif/FilePool`) | from the invariant of C168; counterexample |
| C173 | `file_pool_setcache` (`Verif/FilePool`) | case analysis; general counterexample |
| C174 | processes, the lock of the file, its load and its time (`Verif/FilePool/Shared`) | invariants over schedules; counterexamples |
| C175 | the same | invariant over schedules; counterexample |
| C176 | the same | invariants over schedules; counterexample |
| C177 | the same, `kno_pool_unlock` and the `unlock` of drivers | induction over schedules: the lock is kept |
| C178 | `kno_register_config_x`, `init_config_val`, `record_config`, `set_config` (`Verif/Configs`) | what the table has after any settings; induction; counterexamples |
| C179 | `kno_config_get`, `record_config` (`Verif/Configs`) | the same; counterexample |
| C180 | `set_default_config` (`Verif/Configs`) | case analysis |
| C181 | `set_default_config`, `config_get` (`Verif/Configs`) | case analysis; counterexample |
| C182 | `kno_init_configs` (`Verif/Configs`) | general counterexample |
| C183 | `config_get`, `kno_register_config_lookup` (`Verif/Configs`) | induction over places; general counterexample |
| C184 | `kno_config_assignment`, `do_config_assignment` (`Verif/Configs`) | induction over assignments; counterexamples |
| C185 | `read_config` (`Verif/Configs`) | induction over entries; general counterexample |
| C186 | `kno_register_config_handler_alias` (`Verif/Configs`) | case analysis; counterexample |
| C187 | `config_intern` (`Verif/Configs`) | induction over names |
| C188 | `kno_interpret_config` (`Verif/Configs`) | case analysis; general counterexamples |
| C189 | `kno_boolconfig_set` (`Verif/Configs`) | case analysis; counterexample |
| C190 | `set_config`, `kno_config_get` (`Verif/Configs`) | case analysis |
| C191 | `lambda_setup`, `get_rest_arg` (`Verif/Calls`) | induction over parameters, to a relation between arguments and values |
| C192 | `_make_lambda`, `check_fcn_arity` (`Verif/Calls`) | induction over parameters; counterexample |
| C193 | `lambda_setup` (`Verif/Calls`) | induction over parameters |
| C194 | `lambda_setup`, `lambda_call` and the lock (`Verif/Calls`) | invariants over schedules; general counterexample |
| C195 | `scan_body` (`Verif/Calls`) | induction; general counterexample |
| C196 | `locals_evalfn` (`Verif/Calls`) | case analysis; general counterexample |
| C197 | `core_call`, `function_call`, `_make_lambda` (`Verif/Calls`) | case analysis; general counterexample |
| C198 | `TableOps/Model`: hashtable operations and the loops over other tables; induction over the keys | partial |
| C199 | same; keys before and after, by induction over the keys on every path | partial |
| C200 | same; success against possibility | partial |
| C201 | threads as lists of increments, two steps each except on hashtables; what is added is conserved under every schedule | partial |
| C202 | one loop for the three functions, with an invariant over the entries gone through | proved |
| C203 | filter over the entries | partial |
| C204 | the two bits of a table | partial |
| C205 | buckets and count | partial |
| C206 | the loop over the keys | partial |
| C207 | the loops over combinations, with errors | partial |
| C208 | the walk over the arguments with reads past their end as a distinct outcome | partial |
| C209 | `NumText/Model`: the digits of words and bigints, with writes past the buffer as a distinct outcome; digits against their value, and a bound on their number | partial |
| C210 | same; the loops as groups of three, by induction over the digits | partial |
| C211 | the reader on lists of characters; induction over groups of digits | partial |
| C212 | from C209 to C211 | partial |
| C213 | same reader, with the extents of the copies | partial |
| C214 | the loop over the digits after the point, by induction | partial |
| C215 | `u8itoa` with words that wrap around | partial |
| C216 | `OIDArith/Model`: the primitives on integers with the conversions of C; the references and tables of `Verif/OIDs` | partial |
| C217 | same; the halves as bits of a word | proved |
| C218 | same; sums and differences modulo 2^64 and 2^32 | partial |
| C219 | same; against membership in a range of addresses | partial |
| C220 | the text of a number (`Verif/NumText`) and `strtol` on lists of characters | partial |
| C221 | the number and offset in a reference, with any history of the tables | partial |
| C222 | `Virtual/Model`: the pool with its cache and load; induction over histories: the OIDs given are an interval | proved |
| C223 | same; invariant between the cache and the values that were set | partial |
| C224 | functions as parameters, with reads past the end of a vector as a distinct outcome | partial |
| C225 | the loops followed for any number of steps | partial |
| C226 | as C224 | partial |
| C227 | the pool with its cache and what the functions keep; invariant over histories | partial |
| C228 | `Requests/Model`: tables with contents and locks, the current request and the log; each operation against `acts` | proved |
| C229 | same, with taking a lock twice as a distinct outcome; invariant by induction over expressions | partial |
| C230 | induction over the body, against `runs` | partial |
| C231 | same model | partial |
| C232 | same model | partial |
| C233 | same model | partial |
| C234 | same model | partial |
| C235 | `Requests/Args`, with the parsers as parameters | proved |
| C236 | same | partial |
| C237 Values pushed on a history are numbered in order | `Verif/History` | Exact numbering by an invariant over pushes: the state is determined by the list of first occurrences. |
| C238 Numbers keep referring to their values | `Verif/History` | From the same invariant; the list of first occurrences only grows at its end. |
| C239 The references found for a value refer to it | `Verif/History` | Invariant over all operations that record no choice and ask for no number before it is given out; exact effect of one operation without conditions; counterexamples for both conditions. |
| C240 Values recorded under a name can be got by it | `Verif/History` | Violated for every name; the rest for numbers. |
| C241 Numbers in paths of references | `Verif/History` | Refinement to the elements of the value. |
| C242 Numbers outside are errors | `Verif/History` | Decision logic; violated at the length of every list and vector. |
| C243 Keys in paths of references | `Verif/History` | Decision logic, and induction over paths; violated for strings that are not keys. |
| C244 Replacing references in structures | `Verif/History` | Induction over structures; violated for references without values inside a structure. |
| C245 with-history uses the history it is given | `Verif/History` | Only that the outer history is kept holds. |
| C246 Lock functions decide about locks | `Verif/ProcStore` | Decision logic over the words returned; violated for errors and 0. |
| C247 Release functions decide about releases | `Verif/ProcStore` | Decision logic; numbers cut to 32 bits are left out. |
| C248 Commit functions of pools decide about commits | `Verif/ProcStore` | The sign of the result holds within 2^27; the number never does. |
| C249 Commit functions of indexes decide about commits | `Verif/ProcStore` | Decision logic; violated for answers that mean nothing. |
| C250 Load functions give the load | `Verif/ProcStore` | Decision logic; violated from 2^31 on. |
| C251 Fetching several one by one | `Verif/ProcStore` | Refinement to the single fetches, by induction. |
| C252 Fetching several at once | `Verif/ProcStore` | Exact for vectors of the right length; violated for shorter ones and errors of pools. |
| C253 Vectors given by functions are left alone | `Verif/ProcStore` | Violated for every vector; the rest of the heap is kept. |
| C254 Key functions give the keys | `Verif/ProcStore` | Holds with a function for fetching several; violated without. |
| C255 Sizes of keys | `Verif/ProcStore` | Decision logic; violated without functions. |
| C256 Sizes of many keys | `Verif/ProcStore` | Exact for all keys, by induction; violated for some keys and errors. |
| C257 Functions are there while pools use them | `Verif/ProcStore` | Invariant over all operations for pools with their own functions; violated for registered types. |
| C258 Compounds have what they are made of | `Verif/Compounds` | Round trip over all lists of elements. |
| C259 Reading an element is exact | `Verif/Compounds` | Decision logic; violated for offsets out of range divisible by four. |
| C260 compound-length is the number of elements | `Verif/Compounds` | Holds below 256; violated from there on. |
| C261 Setting an element is exact | `Verif/Compounds` | Exact result with a frame over all elements and flags. |
| C262 Modifying an element is exact | `Verif/Compounds` | Exact result for any modifier. |
| C263 Immutable compounds never change | `Verif/Compounds` | Invariant by induction over operations. |
| C264 Setting an element of several compounds | `Verif/Compounds` | Exact when each can be set, by induction; violated for errors and what is no compound. |
| C265 Keys of schemas | `Verif/Compounds` | Exact for keys of the schema; violated for others. |
| C266 No locks are left | `Verif/Compounds` | Invariant over operations where schemas are not longer than compounds; violated otherwise. |
| C267 sequence->compound keeps the elements | `Verif/Compounds` | Exact over all arguments. |
| C268 sequence->compound gives a sequence | `Verif/Compounds` | Round trip without annotations and below 127 with them; violated otherwise. |
| C269 make-xcompound gives what is asked for | `Verif/Compounds` | Exact over all arguments; violated for lengths. |
| C270 hastype? is about any | `Verif/Compounds` | Refinement to quantifiers. |
| C271 only-hastype? is about all | `Verif/Compounds` | Refinement for one type; violated for several. |
| C272 Comparisons compare neighbours | `Verif/CoreOps` | Exact outcome for all lists, by induction. |
| C273 Comparisons are those of values | `Verif/CoreOps` | Refinement to pairwise order for exact numbers and for finite flonums; violated for mixed and complex numbers and NaN. |
| C274 Opposite comparisons | `Verif/CoreOps` | Decision logic over the three outcomes. |
| C275 != is about being different | `Verif/CoreOps` | Holds for two (C274); violated for three. |
| C276 zero? is exact | `Verif/CoreOps` | Decision logic over kinds of numbers. |
| C277 eqv? is equality of numbers | `Verif/CoreOps` | Refinement for exact and finite numbers; violated for NaN and complex numbers. |
| C278 identical? is equality of choices | `Verif/CoreOps` | Sorted lists of the same elements are equal, by induction. |
| C279 equal? compares all pairs | `Verif/CoreOps` | Holds for single values; violated for choices. |
| C280 ->lisp parses words | `Verif/CoreOps` | Exact outcome for any parser; violated where it fails. |
| C281 parse-slotid gives symbols | `Verif/CoreOps` | Violated for every word. |
| C282 Servers give the OIDs they offer | `Verif/NetStore` | Exact outcome for every OID. |
| C283 Several OIDs at once | `Verif/NetStore` | Refinement to the values one by one; violated whenever an OID is cached or changed and the driver fetches several. |
| C284 Private OIDs stay private | `Verif/NetStore` | Holds for the first OID; violated for others. |
| C285 Loads over the network | `Verif/NetStore` | Holds for offered pools; violated for all others. |
| C286 Served pools are a set | `Verif/NetStore` | Invariant by induction over configurations. |
| C287 Configured pools are served | `Verif/NetStore` | By induction over the values of a configuration. |
| C288 Failed configurations change nothing | `Verif/NetStore` | Holds for single values; violated for choices. |
| C289 Served pools are described | `Verif/NetStore` | Pointwise, by induction. |
| C290 Many keys at once | `Verif/NetStore` | Exact outcome, by induction. |
| C291 Many keys of a table | `Verif/NetStore` | Holds for pairs; violated for every list with another key. |
| C292 Sizes over the network | `Verif/NetStore` | Holds without errors; violated with. |
| C293 Answers are checked | `Verif/NetStore` | Holds for the right length; violated for every other. |
| C294 Remote values are the server's | `Verif/NetStore` | Composition of C283 and C293. |
| C295 Keys of network indexes | `Verif/NetStore` | Holds for named indexes with keys; violated otherwise. |
| C296 Clients and servers understand each other | `Verif/NetStore` | Violated for all operations but one, and for that one's answer. |
| C297 Network pools have what the server says | `Verif/NetStore` | Decision logic over answers. |
| C298 Times are ordered | `Verif/Times` | Refinement to the order of moments. |
| C299 Times can be given in several ways | `Verif/Times` | Exact outcome; violated for strings before 1970. |
| C300 Differences of times | `Verif/Times` | Exact outcome; violated for flonums. |
| C301 Past and future | `Verif/Times` | Refinement for whole thresholds; violated for fractions and bad arguments. |
| C302 Moving times | `Verif/Times` | Exact outcome and round trip; violated for bad bases. |
| C303 Timestamps from numbers | `Verif/Times` | Bounds on seconds and nanoseconds; violated outside 32 bits. |
| C304 Dates can be set and read | `Verif/Times` | Round trip for any calendar; violated for months and short years. |
| C305 Possible dates can be stored | `Verif/Times` | Holds for moments of 31 bits; violated around them. |
| C306 Impossible dates are refused | `Verif/Times` | Decision logic; violated for hours. |
| C307 Parts of seconds | `Verif/Times` | Nearest numbers; violated for `microsecond` and at the end of a second. |
| C308 Seasons and times of day | `Verif/Times` | Decision logic over months and hours. |
| C309 Durations in words add up | `Verif/Times` | By induction over the listing. |
| C310 Durations to a precision | `Verif/Times` | Holds when the unit is listed; violated when not. |
| C311 Short durations add up | `Verif/Times` | Arithmetic. |
| C312 Time zone offsets | `Verif/Times` | Exact outcome. |
| C313 Segmenting at spaces | `Verif/Words` | Refinement to the runs of a text; violated for texts that end in a space. |
| C314 Segmenting at separators | `Verif/Words` | By induction over the text; violated for the empty separator. |
| C315 Words and punctuation | `Verif/Words` | Refinement to the longest words, by induction over the text. |
| C316 Punctuation is kept by default | `Verif/Words` | Holds with `#t`; violated without a flag. |
| C317 Words in vectors | `Verif/Words` | Invariant of the buffer. |
| C318 Fragments of word vectors | `Verif/Words` | Exact membership for sizes from one; violated for others. |
| C319 Phrases from words | `Verif/Words` | Exact outcome; violated for negative starts. |
| C320 Phrases from choices | `Verif/Words` | Violated; holds without choices. |
| C321 Counting words | `Verif/Words` | Refinement to the runs of a text. |
| C322 Percentages of spaces | `Verif/Words` | Bounds; violated for long texts. |
| C323 Leaving characters out | `Verif/Words` | Exact outcome; violated outside ASCII. |
| C324 Stripping markup | `Verif/Words` | By induction over documents; violated for the default, entities and CDATA. |
| C325 Columns of text | `Verif/Words` | Exact outcome by induction over the widths. |
| C326 Columns with parse functions | `Verif/Words` | Exact outcome; violated for short sequences and empty columns. |
| C327 Finding separators | `Verif/Words` | Exact outcome without escapes; violated with them and for limits. |
| C328 Splitting at separators | `Verif/Words` | Refinement to the runs of a text without escapes; violated with them and for limits. |
| C329 Reading backslashes | `Verif/Words` | Round trip and exact outcome; violated for backslashes at the end. |
| C330 The form of soundex codes | `Verif/Phonetic` | Exact outcome by induction over the text; violated for empty texts and letters of several bytes. |
| C331 Soundex codes by the book | `Verif/Phonetic` | Refinement to the standard code; violated for a second letter with the sound of the first. |
| C332 Metaphones and the case of letters | `Verif/Phonetic` | Simulation between two runs, by induction over the text. |
| C333 Metaphones and double letters | `Verif/Phonetic` | By induction over the text before the letter. |
| C334 Metaphones with separators | `Verif/Phonetic` | Simulation between the runs with and without separators. |
| C335 The letters of metaphones | `Verif/Phonetic` | Invariant of the output, by induction over the text. |
| C336 The rules of metaphone | `Verif/Phonetic` | Holds for the letters with one sound; violated for B, C, T and W. |
| C337 Prefixes and suffixes | `Verif/TextPrims` | Equivalence by induction over the prefix; violated for texts with NULs. |
| C338 First and last words | `Verif/TextPrims` | Equivalence and exact outcome; violated for NULs and for spaces at the ends. |
| C339 Last words after separators | `Verif/TextPrims` | Violated: the loop never ends when the separator is found, by induction over its turns. |
| C340 Encoding entities | `Verif/TextPrims` | By induction over the text; violated for decoding and for characters given in strings. |

## Disagreements between the code and the properties

Each is a theorem with suffix `_violated`.

* **C01** `varint_roundtrip_violated`: a value of 2^63 or more loses its top bit: the
  longest form written has nine groups of seven bits.
* **C02** `flipWord8_involutive_violated`: the portable 64-bit byte swap of bufio.h
  mixes up its two upper bytes; swapping twice does not give the value back.
* **C03** `runOps_failed_flush_violated`: after a failed flush the buffer goes on
  accepting bytes that are never written.
* **C10** `complex_equal_violated`, `complex_trans_violated`, `complex_magnitude_violated`:
  `kno_numcompare` tests the first argument for being complex twice, so every bigint is
  `EQUAL?` to every complex number, and complex numbers of the same magnitude are equal.
  `nan_equal_violated`: a NaN equals every flonum. `secret_equal_violated`: a packet and a
  secret with the same bytes are `EQUAL?` but ordered apart. `opaque_cycle_violated`: opaque
  compounds are compared by address and others by contents, giving a cycle.
  `prechoice_compare_violated`, `prechoice_agree_violated`: an accumulating choice is equal
  to its settled form but not ordered like it. `string_nul_violated`: strings with embedded
  NULs are compared up to the NUL only. `maxfixnum_equal_violated`: integer addition and
  subtraction give a bigint for `KNO_MAX_FIXNUM`, which is not `EQUAL?` to the fixnum.
* **C11** `initChoice_inPlace_violated`: a choice of more than
  `kno_bigchoice_threshold` elements that was filled in place (as the XType reader
  does) is sorted by merging a vector into itself; elements are lost.
  `initChoice_bigEmpty_violated`: above the same threshold the empty choice is kept as
  an element. `initChoice_noRealloc_violated`: without `REALLOC` equal elements give a
  choice object of size one.
* **C13** `difference_pointer_violated`: the skipping search in
  `compute_choice_difference` computes addresses outside the vector (undefined in C).
  `intersection_emptyAccumulator_violated`, `intersection_skips_violated`: accumulators
  with fewer than two elements make `kno_intersection` read uninitialised memory or
  ignore an argument. `subset_empty_violated`: the empty choice is not contained in
  anything.
* **C14** `add_emptyAccumulator_violated`, `add_sameSingleton_violated`,
  `initPre_zero_violated`: adding an accumulator that holds nothing ends in `abort()`;
  adding one that holds just the current value gives a choice object with one element;
  an accumulator created with size 0 writes outside its vector.
* **C15** `slotmap_reports_change_violated`: the operations report whether a slot was made
  or found, not whether anything changed: adding a second value reports 0, dropping an
  absent value reports 1.
* **C16** `schemap_heapKeys_violated`: slots are looked up by address, so an equal string
  does not find its slot.
* **C17** `hashtable_emptyKey_violated`: `test` on the empty key returns the constant
  `KNO_EMPTY` as an integer, i.e. true. `hashtable_deadwood_violated`: a value discarded by
  `kno_remove_deadwood` is still counted, and `replace` revives it.
* **C20** `hashset_dropAbsent_violated`: dropping something absent from a bucket with
  several elements decrements the element count; at zero the set answers as if empty.
  `hashset_merge_violated`, `hashset_intern_violated`: merging and interning do not count
  new elements. `hashset_copy_violated`: copies never set the bucket count.
* **C19** `schemap_hash_violated`: schemaps are `EQUAL?` by contents but hashed by address.
  `string_nul_hash_violated`: `EQUAL?` stops at a NUL byte, the hash does not.
  `number_hash_violated`: NaNs and complex numbers inherit the faults listed under C10.
* **C18** `eqtable_search_violated`: in a bucket of four or more keys the search by address
  takes the first key that is not less for the one sought. `eqtable_contents_violated`: a
  bucket with one key is searched by contents. `eqtable_growth_violated`: growing the table
  moves keys to the buckets of their contents, where they are not found, and merges
  objects with the same contents. Proved for immediate keys and buckets of up to three.
* **C21** `drop_accumulated_violated`: `DROP!` takes an accumulating choice for a single key
  and drops nothing. `add_bare_violated`: types without an `add` method accept one key but
  not a choice. `test_bare_violated`: on types without a `test` method only the first key
  is looked at when no value is given.
* **C04** `default_violated`: `#default` cannot be written, and its code is written for
  another constant. `schemap_violated`: a schemap comes back as a slotmap.
  `compound_vector_violated`: a compound whose only element is a vector comes back with the
  vector's elements. `compound_uuid_violated`: the tag `uuid` is taken over by UUIDs.
  `hashtable_empty_violated`: entries with an empty value are skipped without being counted,
  so the reader runs into the bytes that follow. `big_character_violated`: characters beyond
  24 bits. `mystery_256_violated`, `mystery_kno_violated`: unknown packages of exactly 256
  bytes, and vectors of the package 0x42. `Serialisable` (lean/Verif/DType/Spec.lean)
  excludes exactly these.
* **C05** `truncated_vector_violated`: EOD is not one of the values the reader treats as an
  error, so a truncated vector comes back with EOD among its elements.
  `truncated_string_violated`: a vector cut inside a string frees an interior pointer.
  `truncated_hashtable_violated`: a hashtable cut inside a key can come back without any
  marker. What is proved: for values without hashtables no clean value is ever returned; for
  values not made of others, EOD or an error is returned.
* **C06** `compound_size_violated`: the results of writing the tag and sole element of a
  compound are added up without being checked.
* **C06** (XType) `vector_size_violated`: members of vectors that cannot be written are
  passed over, without their bytes being counted, and success is reported.
  `schemap_size_violated`: a failed value takes one off the size.
* **C07** `void_violated`: `#void` comes back as `#qvoid`. `uuid_violated`: UUIDs have no
  writer. `schemap_violated`: schemaps come back as slotmaps (with the same entries:
  `schemap_as_slotmap_partial`). `hashset_violated`: the loop reading a hashset never
  increments its counter. `xtype_compound_violated`: a compound tagged `xtype` is replaced by
  what its packet encodes. `Serialisable` (lean/Verif/XType/Spec.lean) excludes these.
* **C08** `embed_growing_violated`: an embedded table is written before the value adds to it.
  `no_room_violated`: a table set up with no room is "doubled" to no room and then written
  to. `copy_violated`: copies of tables copy the elements but not their number.
* **C09** `truncated_vector_violated`, `truncated_string_violated`,
  `truncated_slotmap_violated`, `truncated_slotmap_dangling_violated`,
  `truncated_compound_violated`, `truncated_reference_violated`: as for C05; a missing
  length is used as a length of -1; a slotmap that could not be read is returned instead
  of the error. What is proved: no value without a marker is returned for values without
  slotmaps, hashtables and empty compounds, and values not made of others report EOD or an
  error when there is no reference table.
* **C22** `many_buckets_violated`: references have 16 bits for the number of a bucket, but the
  table takes 2^18: the first address of the 65537th bucket gets the reference of the address
  1. `full_violated`: when the table is full the error code is used as the number of a bucket
  and a reference to some other address is made.
* **C23** `overlap_accepted_violated`: pools that overlap within a bucket are accepted, and
  can make addresses unresolvable. `straddle_violated`, `remainder_violated`: the part of a
  pool in its last bucket is not entered if the pool is small and crosses into it or is large
  and does not fill it. `rejected_entered_violated`: a pool that is rejected stays entered for
  the buckets before the conflict. `huge_violated`: beyond 2^31 addresses the computation of
  buckets overflows. `Placed` (lean/Verif/Registry/Spec.lean) excludes these.
* **C37** `race_violated`, `race_same_violated`: the lock for the table of buckets is never
  taken; two threads get the same reference for different addresses, or different ones for
  the same address.
* **C24** `negative_violated`: `allocate-oids` accepts numbers up to 2^32-1 and passes them as
  `int`; a negative request takes OIDs off the load, which are then handed out again.
  `wrap_violated`: the test for room overflows in pools near 2^32. `commit_race_violated`: a
  kpool or bigpool commit writes back the load it read when it began, so what was allocated
  since is handed out again. `zero_violated`: the zero pool has no test for room.
  `mem_last_violated`: pools in memory refuse the last address.
* **C25** (`Verif/Pools`): the model is one pool with its table of changes, its cache and what
  the driver would fetch.  `reads_partial` is refinement of every history of guarded
  operations to a map from OIDs to values.  Violated: an OID read before it is allocated stays
  cached as unallocated, and reads so again once its entry among the changes is committed
  (`unallocated_cached_violated`); a read that overlaps with a set and a commit puts the old
  value in the cache (`reader_race_violated`); pools without locks keep what is set in the
  cache only, where swapping out loses it (`nolock_swapout_violated`), and never look there if
  they do not cache (`nolock_uncached_violated`); a thread's cache is not updated by
  `set_oid_value` (`threadcache_violated`).
* **C26** (`Verif/Pools`): violated when an OID is named that has no entry among the changes:
  `pick_writes` has `#void` for it, which `savep` does not reject
  (`commit_unmodified_violated`); and when the sync phase fails, as `pool_docommit` returns
  what the write phase did (`sync_failure_violated`).
* **C27** (`Verif/Pools`): violated: `kno_pool_unlock` with a negative flag resets the whole
  table of changes (`discard_all_violated`).
* **C38** (`Verif/Pools/Multi`): `apply_poolop` adds up positive results only, so that a failure
  is not reported if there is more than one OID (`failure_hidden_violated`, for every input).
* **C28** (`Verif/KPool`): a pool's file is its bytes, a commit is the list of things done to the
  files, in order, and `Crash.lean` says what a crash leaves of them: any bytes of writes since
  the last sync may be missing.  `crash_recovers_partial` is for every point of a commit and any
  number of crashes while recovering.  Violated: opening for reading only does not recover
  (`readonly_violated`); `kno_write_rollback` returns 1 when it could not save the rollback file
  (`rollback_failure_violated`, `failed_grows_violated`); the file is unlocked before the
  rollback file is removed, so a process that opens it in between undoes the commit
  (`open_race_violated`).  Renaming is taken to be durable; if it is not,
  `rollback_failure_violated` applies.  `commit_2phase` is never set; if it were,
  `two_phase_violated`: the first value of the pool would be overwritten.
* **C29** (`Verif/KPool/Refs`): violated for sizes of 2^24 and more with 40-bit references, whose
  conversion fails with a result that nobody looks at (`b40_size_violated`), for sizes of 2^32
  (`b64_size_violated`), and for tables of more than 4GB, as positions are computed in 32 bits
  (`shared_ref_violated`).
* **C39** (`Verif/KPool`): added for what the driver stores.  `history_stores_partial` is for any
  sequence of commits.  Violated for values of 16MB and more in pools with 40-bit references
  (`large_value_violated`, for every pool), and for values that cannot be written, which are
  logged and stored as no value while the commit succeeds (`unwritable_value_violated`).
* **C30** (`Verif/Index`): `reads_partial` is for all histories of edits, reads, prefetches and
  commits; `reads_edits_partial` has no side conditions but leaves out the inline addition,
  merging and prefetching.  Violated: the inline `kno_index_add` does not take the value out of
  the pending drops (`add_after_drop_violated`; `addInline_reads_iff` says exactly when), and
  `kno_index_merge` leaves the cache alone (`merge_violated`).
* **C31** (`Verif/Index`): violated for a key with a pending store and pending drops: the value
  is written, but the drops stay and what is left of the store hides the file, and is written
  over it by the next commit (`commit_stored_drop_violated`); with two such keys `remove_keyvals`
  skips the second one (`commit_skipped_violated`).  `kindex.c` sorts its schedule with `qsort`
  by bucket only, which may put the additions to a key before the replacement its drops were
  turned into (`commit_unstable_violated`); the positive theorems assume the order of a key's
  entries is kept.
* **C32** (`Verif/Index`): `concurrent_partial` has any operations of other threads at three
  points of the commit (after the snapshot, after the merge, after the write).  Violated: a store
  to a key being committed (`store_during_commit_violated`), a store and an addition
  (`add_during_commit_violated`), a drop from a stored key between snapshot and merge, which reads
  the live tables (`drop_during_commit_violated`).
* **C33** (`Verif/Index`): violated for keys with pending stores (`prefetch_violated`,
  `prefetch_several_violated`): the driver's values are cached as if there were no store.
* **C40** (`Verif/Index`): added for what is on disk after a commit.
* **C34** (`Verif/Bloom`): proved for filters with at least one bit.  The sizes are computed from
  the number of entries and the error rate; `(make-bloom-filter 1 0.7)` has one hash and no bits, and
  every use of it divides by zero (`no_bits_violated`).  Through the C interface, adding with the check
  flag stops at the first value found (`add_and_check_violated`).  The bytes are changed without a
  lock: with two threads a bit can be lost (`threads_violated`).
* **C41** (`Verif/Bloom`): holds for single values.  For choices the result is the other way round
  (`add_choice_violated`), and the count is always 0 (`count_violated`).
* **C42** (`Verif/Bloom`): fails for every filter (`restore_dump_violated`): the error rate is read
  from the integer before it and the bytes from the flonum.
* **C35** (`Verif/Walk`): `walk_visits` is for every walk, the rest for the queries made of walks.
  A node is a value, OIDs and tables being told apart; what a slot of an OID holds is any function
  (no slot changes during a walk).  `get*` with several slots makes one walk per slot, and does not
  return what is reached by a mixed path (`getstar_several_violated`).  Slotmaps and schemaps are
  accepted as roots, then read as if they were OIDs (`slotmap_root_violated`).  An error on the way
  counts as a path (`path_error_violated`) and is ignored by `kno_get_basis`
  (`basis_error_violated`), which also takes values that are no OIDs for OIDs
  (`basis_value_violated`).  `kleene+` drops roots even where a cycle leads back to them
  (`kleenePlus_violated`).  Walks recurse: for any stack there is a chain that overflows it
  (`deep_violated`).  `inherit` as called from Scheme also returns the frames themselves; not
  modelled.
* **C36** (`Verif/Apply`): the specification is the list of calls, each a transformation of any
  state, made in order up to the first abort.  Violated: traced functions are called twice for each
  combination (`traced_violated`; an `else` is missing in `core_call`); prechoices given to
  `kno_call` are passed whole (`prechoice_violated`; the evaluator simplifies them first), and a
  prechoice of functions is an error (`prechoice_handler_violated`); a choice of functions called
  with only quoted choices passes them quoted (`quoted_violated`, reached from compiled calls,
  `vm.c`); a function that only asks not to be pruned is not iterated either (`xprune_violated`),
  and is pruned inside a choice of functions (`prune_choice_violated`).
* **C43, C44** (`Verif/Bigint`): the bigint package computes exactly what it should, for all sizes,
  with no overflow (`add_exact`, `subtract_exact`, `multiply_exact`, `divide_exact`,
  `quotient_exact`, `remainder_exact`): long division is proved with its guesses and the step which
  adds the divisor back.
* **C50** (`Verif/Bigint`): `-2^63` cannot be made a bigint (its negation overflows,
  `ofLong_violated`) nor converted back (`toLong_violated`); the unsigned word `2^64 - 1` becomes -1
  (`ofULong_violated`).  All other words are right.
* **C49** (`Verif/Bigint`): digits survive the round trip in every radix below 2^15
  (`digits_roundtrip`).  Radix 2^15 passes the check of the radix but not that of the scaling
  functions.  A digit equal to the radix is accepted when reading (`ofDigits_violated`).
* **C43** (`Verif/Numbers`): `(+ a b c d e)` and `(- a b c d e)` of fixnums add in a `long long`,
  which five fixnums near the end of their range overflow (`plusPrim_violated`,
  `minusPrim_violated`).  `*` notices in time, even though it computes its limit in an `int`
  (`timesPrim_exact`).
* **C44** (`Verif/Numbers`): `(remainder 5 0)` divides by zero, and `(quotient b 0)` for a bigint
  follows a null pointer (`remainderPrim_violated`, `quotientPrim_violated`).
* **C45** (`Verif/Numbers`): `kno_plus`, `kno_subtract` and `kno_multiply` compare with the ends of the
  fixnums strictly, so that a result equal to one of them is a bigint, which is not `equal?` to the
  fixnum (`canonical_violated`).
* **C47** (`Verif/Numbers`): `make_rational` looks for a denominator of 1 before it makes the
  denominator positive: `(/ 4 -2)` is the ratio -2/1 (`divide_violated`); and it does not make it
  positive if one of the parts is a bigint (`divide_negative_violated`).  The values are exact.
* **C48** (`Verif/Numbers`): `(lcm 0 0)` is an error (`lcm_violated`).
* **C51** (`Verif/Numbers`): `(pow 0 5)` is 1 (`powPrim_violated`); `round` compares the remainder with
  half of the denominator rounded down, and a negative remainder is always below it: `(round 4/3)` is
  2 and `(round -5/3)` is -1 (`roundPrim_violated`).
* **C52** (`Verif/KIndex`): `history_partial` is for 32-bit and 40-bit references.  `b64_violated`:
  `kindex_save` has `offtype = KNO_B40` where it means a comparison (kindex.c:2220), so that with
  64-bit references it reads the buckets it is to change in the wrong place, and the other keys of
  those buckets are lost.  `readd_violated`: `parse_keybucket` leaves `ke_vref` uninitialised for a
  key without values, and adding two or more values to it writes that as the place of the rest.
  `large_bucket_violated`: a bucket of 16MB or more is written to a 40-bit table as nothing.
  `unknown_slot_violated`: a pair whose slot is not in the index's table is taken to have no
  values; keys get their slots into it when they are committed.  `update_keybucket` returns -1
  when the file is too large, which `kindex_save` does not check; the model has that as undefined.
  What `qsort`, which is not stable, may do is hypothesis `Sorts.order`
  (`Kno.Index.commit_unstable_violated` for the opposite).  Assumed of the encoding: `Lawful`; that
  `validate_xtype`, which `kindex_fetch` skips values with, does not know all type codes is left
  out, so that keys after such a value in a bucket cannot be fetched, though `fetchn` can.
* **C53** (`Verif/KIndex`): partial only because C52 is.
* **C54** (`Verif/KIndex`): `no_values_violated`: keys are listed after all their values are gone.
  `duplicates_violated`: values added again count again.  `fetchSize_violated`: `kindex_fetchsize`
  reads the number of values and two more numbers before the key, which comes first.
* **C55** (`Verif/KIndex`): `crash_keys_violated`: the number of keys is written to the header after
  the only `fsync`, and then the rollback file is removed.  Where the number is lost and was 0, no
  keys are listed.  Two-phase commits (`commit_2phase`) are as for C28.
* **C56** (`Verif/Text`): `number_name_violated`: symbols whose names are numbers are printed without
  bars and read as numbers.  `dot_name_violated`: the symbol `.` makes a pair of a list.
  `bar_name_violated`: names with `|` or `\` get no bars; names that begin with `;` or `@` are read
  as comments and OIDs.  `unquote_oid_violated`: `(unquote @1/2)` prints as `,@1/2`, which is
  `(unquote* 1/2)`.  `char_violated`: characters over 65535 print as five or more digits after `#\u`
  and are not read.  `fixnum_limit_violated`: the limits of fixnums are read as bigints.
  `stale_violated`: `errno` is not cleared before `strtoll`, so that bigints of 62 or 63 bits are read as
  symbols if it was set before.  `const_violated`: `#blank` disappears from lists, `#eof` and errors
  make reading a list fail.
* **C57** (`Verif/Text`): `block_violated`: the character after a block comment is lost.
  `line_violated`: a comment right after an atom is part of it.  `continuation_violated`: after
  `\` at the end of a line in a string, the next character is not read as what it is.
  `separator_violated`: `1__2` is read as 1.
* **C58** (`Verif/Text`): `mark_violated`: strings that begin with `:`, `'`, `\` or `|` are not
  escaped.  `negative_violated`: nor is `-5`.  `trailing_violated`: after a word that begins with a sign,
  white space and one more character are lost.
* **C59** (`Verif/Streams`): the histories of `stream_partial` are those of safe operations.  For each unsafe
  kind there is a history that goes wrong.  `write_after_read_violated`: `kno_set_direction` drops what was
  read ahead without going back, so that `kno_writebuf` after reading writes elsewhere.  `end_violated`:
  `kno_endpos` of a reading stream returns the end but stays.  `flush_violated`, `set_buf_violated`:
  `kno_flush_stream` and `kno_setbufsize` of a reading stream skip what was read ahead.
  `stream_write_violated`: `kno_stream_write` and `kno_write_ints` write before what is waiting in the buffer.
  `append_violated`: they do not advance `stream_maxpos`, so that the end is later taken to be where it was.
  `stream_read_violated`, `stream_read_end_violated`: `kno_stream_read` and `kno_read_ints` read after what
  was read ahead, leave a buffer that does not belong to the position, and do not return at the end of the
  file.  `read_at_violated`, `read_at_end_violated`: the words-at-position readers do not see what is waiting,
  and move when they fail.  `gap_violated`: a block of a gap is not read.  `write_at_violated`: the
  words-at-position writers write beyond a buffer that is nearly full.
* **C61** (`Verif/Streams`): `read_only_violated`: the words-at-position writers succeed on read-only streams.
* **C62** (`Verif/Refs`): headers have 25 bits for the count.  `kept_partial` and `unchanged_partial` ask that there are
  never more than 2^25 - 2 references to one value (which holds for all histories of at most that many operations,
  `within_short`).  `kept_violated`: two threads that each make one more reference to a string with 2^25 - 1 of them
  make the count wrap to 1; it is then freed while it is held.  `raised_violated`, `raised_decref_violated`: with
  2^25 - 1 references to anything but a string, the next `kno_incref` or `kno_decref` takes it for freed and raises.
  Only the lock-free form is modelled, not the one with locks; recyclers of tables, procedures, pools and other
  types with finalisers are not; atomic operations are sequentially consistent.
* **C63** (`Verif/Refs`): `freed_violated`: a string with 2^25 references looks static, and is never freed.
* **C64** (`Verif/Symbols`): (1) `probe_symbol` runs without the lock and reads `kno_symbol_entries` and
  `table_size` one after the other; when `grow_symbol_tables` gets in between, it looks for the symbol
  with the new size in the old array, beyond its end (`size_violated`).  (2) After its loop ended at an
  empty place, `probe_symbol` reads that place again to see whether the symbol was found; when another
  thread has entered a symbol there in the meantime, that symbol is returned, whatever its name: two
  names become one symbol (`reread_violated`).  (3) Names are compared by `strncmp`, up to a zero byte,
  but hashed whole: of two names of equal length that differ only after a zero, some are one symbol and
  some are not, depending on the size of the table (`zero_same_violated`).  The theorems ask that no
  other thread gets between these two pairs of accesses (`CalmAll`), which is so when calls do not
  overlap (`alone_calmly`), and that names have no zero bytes.
* **C65** (`Verif/Symbols`): `kno_make_symbol` copies a name with `strdup`, up to its first zero byte,
  but keeps the whole length: the string of a symbol with a zero in its name goes beyond the copy
  (`zero_name_violated`).
* **C66** (`Verif/Seqs`): a slice of a list with its start after its end is the empty list, while it is an
  error for vectors and a negative size for strings and vectors of numbers (`slice_violated`); compounds
  are sequences but have no slices (`slice_compound_violated`); `kno_reverse` fills `tmp` with the reversed
  elements but makes vectors of numbers of `elts` (`reverse_nums_violated`); a string before a packet is
  cut to bytes (`append_violated`); `kno_removeif` takes errors of its test for true
  (`remove_if_violated`); `some?` takes the empty choice for true in strings only (`some_violated`).
* **C67** (`Verif/Seqs`): `kno_position` uses `strchr` for ASCII and ignores the end of the range, and finds
  the terminating zero (`position_end_violated`, `position_zero_violated`); for vectors of numbers it goes
  to the end of the vector, or backwards without end (`position_nums_violated`); lists are compared with
  `LISP_EQUAL`, vectors with overlap (`position_choice_violated`); `kno_rposition` looks at the last
  character of the whole string, from a byte offset (`rposition_violated`), and returns an
  uninitialised variable for empty ranges (`rposition_empty_violated`); strings that only start in the
  range are found (`search_string_violated`), `memcmp` goes beyond packets (`search_packet_violated`),
  the generic search computes the end of its range from the position and the length of the key
  (`search_list_violated`); `match?` compares the prefix with itself (`match_violated`);
  `interpret_range_args` takes a negative end for `len-start`, and the loop over lists includes the end
  (`position_if_violated`).
* **C68** (`Verif/Seqs`): `rest` calls `kno_slice` with a negative end, for which the result for a secret is a
  packet (`secret_rest_violated`).
* **C69** (`Verif/Envs`): `let`, `let*`, `letrec` and `do` without variables skip their body and give no value
  (`empty_let_violated`); assignments to a `do` variable without update expression are lost when a closure was
  made in the same round, because the value in the C frame is used and not that of the heap copy
  (`do_assignment_violated`); a variable bound twice by `let*` or `letrec` has its first value, or its last one if a
  closure was made in between (`letrec_twice_violated`); `let*` is evaluated as `letrec`, so that procedures see
  variables which are bound later (`let_star_violated`).  Not proved: that the evaluator, given enough steps,
  returns whenever the program has a value.  Not modelled: choices as arguments, macros, `nd` and synchronised
  procedures, types of parameters, profiles, environments with exports, freeing of environments.
* **C70** (`Verif/Envs`): the stacks considered are those of `Spec.Built`; that the evaluator makes no others is by
  inspection of `eval`, `call` and `loop`.  Procedures of the primitive `apply` and arguments are not in tail position.
* **C71** (`Verif/TextMatch`): `opt` does not try leaving out what matches (`opt_violated`); `(+ p)` with `p` matching
  empty text does not (`plus_violated`); characters do not ignore case (`char_case_violated`); strings and classes match
  beyond the limit (`limit_violated`); `(isvowel)` and `(chars ..)` match at the end of a text (`class_end_violated`,
  `chars_end_violated`); a greedy `and` without a common match gives the empty text (`greedy_and_violated`); greedy parts
  of sequences are not reconsidered (`greedy_violated`).  `MOk` excludes these, and the theorems are with the limit at the
  end of the text.  Not modelled: symbols (recursive grammars), closures, regular expressions, `(*)` looking ahead,
  extraction, bindings, diacritics and spacing, words, hash sets, length limits, UTF-8 (positions count characters).
* **C72** (`Verif/TextMatch`): searching fails for ASCII characters (`search_char_violated`), for strings ignoring case
  (`search_case_violated`), for `not` and `not>` (`search_not_violated`), for `pref` (`search_pref_violated`), for `bol`
  with carriage returns (`search_bol_violated`) and for `eol` and `eos` at the end (`search_end_violated`).  Searching for
  an `and` whose first pattern matches at the end of the text and whose second does not calls itself for ever; `SOk`
  excludes that.
* **C73** (`Verif/TextMatch`): with a limit, `text/subst` and `text/slice` return text beyond it (`subst_limit_violated`,
  `slice_limit_violated`).  Replacements by patterns and functions are not modelled; separators which match empty text
  are excluded for `text/slice`.
* **C74** (`Verif/Finder`): a plain index with a keyslot takes frames under other slotids and does not find them
  (`indexed_not_found_violated`); an aggregate which caches loses, in the second search, what aggregates inside it gave
  (`found_once_violated`) and does not see what is indexed later (`stale_aggregate_violated`); indexing through an
  aggregate fails when the first part without a keyslot is read only, even if another part would take the frame
  (`writable_passed_over_violated`).  Drops, front indexes, tables which are not indexes, prefetching and values taken
  from the frame itself are not modelled.
* **C75** (`Verif/Finder`): nothing is merged when both have the same keyslot (`merge_same_keyslot_violated`: the index's
  own additions are merged into it), when only the source has a keyslot (`merge_from_keyslot_violated`: the source is
  merged into itself), or when both have several (`merge_choices_violated`); what is merged stays invisible under keys
  which were cached (`merge_cached_violated`).  Merging from aggregates is not modelled.
* **C76** (`Verif/Frames`): proved for methods which only get slots without methods.  A method which gets a slot whose
  values are cached already has no dependency recorded and its result stays when they change (`nested_stale_violated`);
  a dependency on a test is recorded as a list and looked for as a dotted list (`tested_stale_violated`); results of
  test methods are never cleared (`test_method_stale_violated`); what a method computes for another slot while it is
  itself asked for, and is taken to have no values, is cached (`mutual_order_violated`).  Add and drop effects, delayed
  evaluation, errors in methods and other threads are not modelled.
* **C77** (`Verif/Json`): choices are printed as vectors and the empty choice as `[]` (`choice_violated`); characters from
  0x10000 on are printed with more than four digits, of which four are read (`astral_violated`); symbols come back as
  strings with a colon unless `colonize` is set (`symbol_violated`); string keys without white space come back as
  symbols, keys with capital letters, escapes or a first character of Lisp come back as others or not at all
  (`keys_roundtrip_violated`); with `colonize` a string that begins with a colon gets a backslash too many and one that
  begins with a line end loses it (`colonize_violated`); strings are cut at NUL, and a table all of whose values are
  void is printed as `}` (`cut_violated`).  Timestamps, conversion functions, inexact numbers and the flags for time
  and warnings are not modelled.
* **C78** (`Verif/Json`): within brackets a character that begins no value is read for ever, each time as an empty string,
  until memory runs out (`vector_hangs_violated`, for every such character and everything after it); strings without an
  end, elements without commas, the empty text and words are accepted, a member without a colon makes the result `#eod`,
  which is not an error (`accepts_violated`); surrogate pairs are read as two characters (`surrogates_violated`); escapes
  in keys are read as their letters, and keys such as `"@id"` and `":a"` make the result `#eod` (`keys_violated`).
  Fractions and exponents are outside the model.
* **C79** (`Verif/Sorting`): packets are compared only as far as the first goes (past the end of the second), so three
  packets can have no order (`packet_order_violated`); `sorted` of a single element does not apply the key function, so
  its failure goes unnoticed (`sorted_single_violated`).  NaNs, complex numbers, strings with NUL bytes, compounds and
  tables as keys, and the lexical, collated and pointer orders are outside the theorems.
* **C80** (`Verif/Sorting`): whether an element is better than the worst one kept is decided by comparing tagged machine
  words, so -1 is taken as larger than 3 (`pick_negative_violated`) and 0.5 as larger than 2 (`pick_mixed_violated`);
  when all elements are asked for, `max/sorted` and `min/sorted` do not sort (`max_sorted_all_violated`).
* **C81** (`Verif/Sorting`): magnitudes of different types are compared by their type codes, so 1/2 is larger than 3
  (`largest_types_violated`); for a choice of magnitudes of which one fails, that magnitude is returned as if it were the
  result (`largest_magnitudes_violated`).
* **C82** (`Verif/Sorting`): `getrange` with bounds the wrong way around truncates the larger to 32 bits
  (`getrange_wide_violated`); `pick-n` ignores the offset when all elements are asked for (`pick_n_offset_violated`) and
  reads outside of the choice when the offset is past its end (`pick_n_past_violated`).
* **C83** (`Verif/Sorting`): `exists/skiperrs` returns the error after all when no argument is a choice
  (`skiperrs_single_violated`).
* **C84** (`Verif/Memo`): on an error `kno_xcachecall` gives back the reference to the cache table (cachecall.c:55-57)
  and `kno_cachecall` does so again (73), so the table is freed while still in `fcn_caches`: the next call of the
  function uses freed memory (`error_frees_table_violated`), with recursion already the same call
  (`nested_error_frees_table_violated`).  VOID results are never remembered (`void_not_remembered_violated`); EQUAL
  arguments share results (`equal_arguments_violated`).  Clearing one call leaks a reference to the table (83-94).
* **C85** (`Verif/Memo`): `kno_index_get` stores the `{}` that stands for a key put aside in the thread cache
  (indexes.h:358-361), and fetching two keys or more fills only the index's own cache (indexes.c:628-648), so the next
  round finds `{}` and IPEVAL returns that (`ipeval_two_keys_violated`).  Keys of an index that does not cache are never
  fetched (`ipeval_uncached_index_violated`); errors caused by the placeholders end the evaluation
  (`ipeval_error_violated`); `cachecall` remembers values computed from placeholders (`ipeval_remembers_wrong_violated`);
  the array of delayed keys has 1024 places and is not checked (`ipeval_full_violated`).  Nested IPEVAL, pools and
  tracing (above level 1 `delay`ed fetches are logged instead of done, indexes.c:2225-2230) are not modelled.
* **C86** (`Verif/Promises`): a thread that comes to force a promise while another is evaluating it waits for the lock,
  then finds the promise final and is given the error FutureFinalized although there is a value
  (`forced_during_evaluation_violated`).  After an evaluation ended in an error the first forcing is an error, later ones
  return the exception object as the value (`exception_as_value_violated`).  Not modelled: promises whose expression
  forces them (the lock is held during evaluation: deadlock), callbacks (which get a null pointer for the result),
  reference counts (`make-promise` does not take a reference to its value), weak memory.
* **C87** (`Verif/LogIndex`): a key to which `{}` was stored is listed among the keys, and an index without keys says
  its key is `{}` (`keys_violated`).  Not modelled: `logindex_save` ignores changes to the metadata; `char op` is
  compared with 0, so where `char` is unsigned drops are read as additions; `load_logindex` does not check what it reads;
  a load while another thread saves.
* **C88** (`Verif/LogIndex`): the count and the end of the log are written together but not atomically: if the end is
  written in part, part of the commit is there (`torn_end_violated`).  Nothing is synchronised: if the header gets to the
  disk and the entries do not, the file is extended with zeros, which are read as entries of three bytes each, and later
  complete commits are lost (`unsynced_violated`).
* **C89** (`Verif/Quasi`): a quasiquotation in the tail of a list does not raise the level (`tail_level_violated`); an
  unquotation in the tail of a nested template loses the list around its argument (`nested_tail_violated`); splicing in
  a vector of a nested template is always an error (`nested_vector_violated`); `(unquote* a b)` in a vector and
  `(quasiquote a b)` in a template are accepted and `b` is dropped (`arity_violated`); an error in computing a key of a
  slotmap is lost (`key_error_violated`).
* **C90** (`Verif/Errors`): an error pending while the cleanups of an `unwind-protect` run is lost when one of them
  catches an error of its own (`pending_error_violated`), and catching the result then follows a null pointer
  (`pending_error_crash_violated`), as does `(catcherr (break))` (`catch_break_violated`); `ignore-errors` and
  `report-errors` swallow breaks (`ignore_break_violated`); `report-errors` ignores the value it is told to return
  (`report_value_violated`); throws out of `irritant` and the default of `ignore-errors` are swallowed
  (`throw_swallowed_violated`); a throw replaced by another arrives at the wrong `call/cc` (`throw_target_violated`), or
  makes its continuation unusable (`throw_again_violated`); a throw out of a cleanup becomes an error
  (`cleanup_throw_violated`); the error of the last part of a `dynamic-wind` may be hidden (`after_error_violated`);
  every throw leaves a made-up error current, after which matching text fails (`throw_error_left_violated`); text cannot
  be matched in cleanups after an error (`cleanup_match_violated`).  libu8 is not in the sources: taking all current
  exceptions, pushing one and restoring are assumed to do what their names say.
* **C91** (`Verif/Uri`): `uriencode` reads its input up to the first NUL, so the rest of a packet or string is left out
  (`encode_nul_violated`).
* **C92** (`Verif/Uri`): several values of one parameter are written without an `&` between them and read back as one
  (`form_values_violated`); an empty value at the end is not among the parameters (`form_empty_violated`); a parameter
  without `=` is stored under the name of the one before it (`query_bare_violated`); in the value of a parameter whose
  name is hidden or protected an `=` starts a new name (`query_equals_violated`); a secret given alone to `scripturl`
  comes out in a plain string (`scripturl_secret_violated`) and a secret address is dropped (`scripturl_base_violated`);
  the option for colons works the other way round (`form_colon_violated`); a cookie with neither `=` nor `;` is
  terminated one byte past its buffer (`cookie_buffer_violated`).  Results which are records of names are not modelled,
  nor are the tables given to `scripturl+`.
* **C93** (`Verif/Uri`): a `?` in a fragment starts a query (`fragment_violated`); a colon anywhere ends a scheme
  (`scheme_violated`); `urihost` gives the port with the host (`host_port_violated`), and nothing without a slash after it
  (`host_end_violated`); `uripath` signals an error for a slash in the query of a URI without a path (`path_violated`);
  parsing loses the first character of a host after `user@` (`parse_userinfo_violated`), leaves the port with the host
  when no path follows (`parse_port_violated`), takes each escaped byte for a character (`parse_utf8_violated`), reads
  past the end after a `%` there (`parse_end_violated`), and parses only four schemes (`parse_scheme_violated`);
  unparsing writes the query in place of the fragment (`unparse_fragment_violated`); every data URI made of a string is
  written two bytes past its memory (`datauri_violated`, for all strings).  `mergeuris`, `mkuripath` and parsing relative
  to a base are not modelled.
* **C107** (`Verif/Modules`): a thread which finds a module registered but not finished waits for that with
  `module_wait_lock`, which it then takes a second time: it is never answered, in any continuation (`wait_ends_violated`,
  `concurrent_violated`), and when it was woken up no thread ever loads a module again (`no_more_loads_violated`); two
  modules using each other make a single thread wait for itself (`circular_violated`); a thread waiting for a load which
  fails waits for ever (`failed_load_violated`); after a failed load two threads may load a module at once
  (`one_loader_violated`); of a list of alternatives only the first is tried (`alternatives_violated`).  Also seen, but
  not modelled: `kno_module_finished` never clears the lock, as it takes `VOID` for false.  Registration under file names,
  reloading and updating are not modelled; a failed load ends the properties proved for all schedules.
* **C108** (`Verif/Modules`): a module used before is not moved, and stays behind one used in between
  (`use_again_violated`); in a choice whatever comes after a vector is not used (`use_choice_violated`).
* **C111** (`Verif/Aggregates`): nothing tells an aggregate that a member has been edited, so what it has cached stays
  (`stale_violated`, `stale_drop_violated`).
* **C112** (`Verif/Aggregates`): `aggregate_prefetch` asks the drivers of the members, so that pending edits are not seen,
  and caches that (`prefetch_violated`).
* **C113** (`Verif/Aggregates`): the value of a cached key is written one place too far: past the end when it is the last
  key (`fetch_last_cached_violated`, in every state), otherwise into the value of the next (`fetch_first_cached_violated`);
  pending edits are not seen (`fetch_pending_violated`).
* **C114** (`Verif/Aggregates`): with keys on disk a pending store of a new key is not listed (`keys_store_violated`); keys
  whose values are all dropped (`keys_drop_violated`) or which nothing is stored for (`keys_empty_store_violated`) are.
  Not modelled of aggregates: errors from members, aggregates within aggregates (two within each other are not prevented),
  the array of members growing (the old array is kept on a list after `realloc` has freed it), concurrent extension.
* **C116** (`Verif/Options`): an empty choice within options is an error, though `opts?` allows it (`getopt_empty_violated`);
  `#default` as a value counts as none except in the last table (`getopt_default_violated`).
* **C117** (`Verif/Options`): the value of an entry which is passed over is itself searched: a number or string is an error
  (`alist_value_violated`), a symbol is a flag (`alist_symbol_violated`), a table is looked into (`alist_table_violated`).
* **C118** (`Verif/Options`): a list of options which begins with a flag becomes an entry of the merged list
  (`merge_flag_violated`); the empty choice makes an error (`merge_empty_violated`).
* **C119** (`Verif/Options`): names before the first options override them (`opts_plus_order_violated`), though those after
  some options are overridden (`opts_plus_inconsistent_violated`); names given twice have both values
  (`opts_plus_twice_violated`).
* **C120** (`Verif/Options`): `testopt` does not look into lists within lists (`testopt_nested_violated`); errors
  (`testopt_error_violated`) and empty lists in lists (`testopt_nil_violated`) count as true.  Not modelled of options:
  OIDs as tables, three-argument `testopt`, reference counts (so neither leaks nor use after freeing).
* **C121** (`Verif/Threads`): when an expression in a `with-lock` is aborted the lock is released in the loop and again behind
  it (`abort_releases_twice_violated`, for every such body), which may release the lock of another thread, so that two more
  are inside together (`exclusion_violated`).
* **C122** (`Verif/Threads`): the thread is marked as done before its result is stored: `thread/finish` in between gives
  nothing (`finish_window_violated`); a value other than 0 left in `errno` makes the result vanish on every schedule
  (`finish_errno_violated`); two threads which wait call `pthread_join` twice (`finish_two_violated`); VOID is given to nobody
  the first time and as an exception the second time (`finish_void_violated`).
* **C123** (`Verif/Threads`): for a while `thread/finished?` is true for a thread which came to an error (`finished_violated`)
  and `thread/exited?` is true without a result (`exited_violated`).
* **C126** (`Verif/Threads`): a `sset!` within a `sset!` waits for ever, and with it all others (`sset_nested_violated`).
* **C127** (`Verif/Threads`): the nanoseconds are added without a carry, so that `pthread_timedjoin_np` may refuse the time
  (`timeout_flonum_violated`).  Not modelled of threads: cancelling and terminating, condition variables, options of threads,
  threads which cannot be started, reference counts.
* **C129** (`Verif/Xml`): `strchr` converts the character to a byte: characters beyond U+00FF whose lowest byte is that of a
  special character or 0 (U+4E00, U+0126, ...) are not written at all (`value_dropped_violated`); a value which begins with `#`
  is not decoded when it is read (`value_hash_violated`).
* **C130** (`Verif/Xml`): a tag has room for 32 items, attributes behind the 31st are lost without an error
  (`elements_many_violated`); names are written as they are (`elements_names_violated`).
* **C132** (`Verif/Xml`): `<>` reads before the buffer, `</>` uses an item which was not set, `</top>` frees the outermost
  node, which is on the stack (`parse_defined_violated`, whatever follows).
* **C133** (`Verif/Xml`): the first `>` in a comment is lost (`comment_violated`), comments which begin or end with it give an
  error constant as content or lose their last characters (`comment_short_violated`), as CDATA sections which end with it do
  (`cdata_violated`); comments are put out escaped, which reading does not undo (`comment_written_violated`).
* **C134** (`Verif/Xml`): texts read with the option `decode` are put out without escaping them again
  (`unparse_decoded_violated`); attributes without a value are put out as `a="":#f""` (`unparse_flag_violated`).  In the model
  attributes are a list, in the program a choice: their order, and attributes given twice, are left out, which is why
  `unparse_partial` is for elements with at most one.  Not modelled of XML: namespaces, HTML, the options sloppy, slotify,
  crushspace, nocontents and autoclose, values which are not strings, named entities other than as a parameter.
* **C135** (`Verif/Control`): `begin` and `prog1` return `#break` instead of void and of the saved value; the check in `prog1`
  comes after one which is true of `#break` too (`begin_break_violated`, `prog1_break_violated`).  What evaluating an argument
  makes of `#break` is not modelled.
* **C137** (`Verif/Control`): a test which is `{}` is true for `cond`, false for `when`, and makes `if` return `{}` where void is
  documented (`branches_empty_violated`); `when` and `unless` return the value of the body (`when_void_violated`); `case` compares
  with `KNO_EQ`, so that clauses for strings and large numbers are never taken (`case_equal_violated`).
* **C138** (`Verif/Control`): the documentation has the loops return the value of the last test; they return void
  (`until_value_violated`).
* **C140** (`Verif/Control`): `do-choices` returns the value of the last round (`doChoices_void_violated`).
* **C141** (`Verif/Control`): the loop of `do-subsets` does not count any further after `#break` or an error, nor does it end: it
  evaluates the same block for ever (`doSubsets_break_violated`); sizes which are not positive are not refused
  (`doSubsets_size_violated`).
* **C142** (`Verif/Control`): the result of calling the iterator is not checked for errors (`doiter_error_violated`).
* **C143** (`Verif/Control`): `or` passes over `{}` (`or_empty_violated`).
* **C144** (`Verif/Control`): limits from 2³¹ up to 2³² become negative numbers (`dotimes_large_violated`).
* **C145** (`Verif/FileIndex`): a key which is a pair whose slotid is not among the slotids of the index is stored but reads as
  empty, `redundantp` being asked by the reading side only (`contents_slotids_violated`); positions are kept in 32 bits and not
  checked, so that in a file of four gigabytes a key just committed is looked for in the wrong place
  (`contents_size_violated`); if a key which has no values on disk is added to and dropped from in one commit the addition
  is lost, as `fetchn` forgets what is pending for keys with no values (`contents_add_and_drop_violated`).
* **C146** (`Verif/FileIndex`): the search stops with an error after 257 mismatches, which commits do not respect, so that a key
  can be committed which cannot be read (`reading_far_violated`, in `Verif/FileIndex/Far.lean`); a key which is not in a full
  table gives an error instead of no values (`reading_full_violated`).
* **C147** (`Verif/FileIndex`): with cached offsets, `fetch_keydata` loops for ever when all slots are newly taken
  (`commit_cached_violated`); `fetchn`, which `commit_drops` uses, has no limit and loops for ever on a full table
  (`commit_drop_violated`).
* **C148** (`Verif/FileIndex`): unless the number of slots is prime, paths miss slots which are free (`commit_succeeds_violated`).
  Proved for up to 127 keys; the code gives up after 257 rounds without progress, of which a key needs two for each slot.
* **C149** (`Verif/FileIndex`): writes are taken to reach the disk in order (the code does not `fsync`), and the rollback file to
  appear complete.
* **C150** (`Verif/FileIndex`): a file opened for reading only is not rolled back, and may show some keys as before and others as
  after a commit which did not end (`crash_readonly_violated`).
* **C153** (`Verif/FileIndex`): keys all of whose values were dropped are listed (`keys_violated`).
* **C154** (`Verif/FileIndex`): `fileindex_fetchkeys` does not unlock the index, and the lock is not recursive: every later call
  waits for ever (`calls_violated`).
* **C156** (`Verif/Strings`): with `keepvertical`, `stdspace` removes the last byte of a text which ends in a paragraph mark, which
  may be one of several bytes, leaving a string which is not UTF-8 (`stdspace_violated`); in `stdstring` a modifier sets `white`
  to 0 although nothing is written, so that two spaces, or one at the beginning or end, are left (`stdstring_violated`).
* **C159** (`Verif/Strings`): `string!=?` compares neighbours only; strings with a NUL are compared up to it (`compare_violated`).
* **C160** (`Verif/Strings`): with an empty pattern `string-subst` does not end (`subst_violated`).
* **C161** (`Verif/Strings`): `u8_puts` stops at a NUL (`append_violated`).
* **C163** (`Verif/Strings`): the empty string has one word; two or more spaces at the end count as one more
  (`phrase_length_violated`).
* **C164** (`Verif/Strings`): `latin1?` does not look at the last character and compares with 0x100 (`latin1_violated`).
* **C165** (`Verif/Strings`): after white space the word begins with the second character of the text, and if it is the only word
  the whole text is given (`startword_violated`).
* **C166** (`Verif/Strings`): `get_stdchar` reads on after a modifier before its loop reads again: one character is lost
  (`grams_violated`).
* **C167** (`Verif/Strings`): the loop of `fixnuls` does not advance past a NUL, so it never ends, writing all the time
  (`fixnuls_violated`).
* Not modelled, but seen in `stringprims.c`: `yes?` returns the C integer of `kno_boolstring` as if it were a value, and reads symbols
  as strings; `strmatch?` without its third argument is always an error.
* **C168** (`Verif/FilePool`): with offsets in memory (cache level 2), `file_pool_storen` ends by cutting 4 * (capacity + 1) bytes off
  the file, "the saved recovery information", which is no longer written: whatever is committed in so few bytes is lost, and
  with it what came before (`contents_violated`, for every pool and batch). `contents_partial` is about pools without.
* **C170** (`Verif/FilePool`): for the same reason putting back the head after a crash does not bring back values (`crash_violated`).
* **C171** (`Verif/FilePool`): a file opened for reading is not rolled back: part of a commit is seen (`read_only_crash_violated`);
  each OID which is not new reads as before or after (`read_only_crash_partial`).
* **C172** (`Verif/FilePool`): OIDs which are not allocated are `unallocated` alone, empty with others, and with offsets in memory
  make the call fail (`fetchn_violated`).
* **C173** (`Verif/FilePool`): lowering the cache level takes the lock of the pool and does not give it back (`setcache_violated`).
* **C174** (`Verif/FilePool`): `lock_file_pool` calls `read_file_pool_load` to bring the load up to date after it has the lock; but this
  returns the load in memory because the stream is locked. Two processes get the same OIDs (`file_oids_distinct_violated`). For
  kpools and bigpools the load is read again if the file was written after the time in its header, which is that of its
  making: in that second, and only then, the same happens (`kpool_oids_distinct_violated`).
* **C175** (`Verif/FilePool`): `unlock_filestream` sets the flag `KNO_STREAM_FILE_LOCKED` again instead of clearing it: a process which
  has once asked a file pool for its load never locks it afterwards (`one_writer_violated`).
* **C176** (`Verif/FilePool`): a commit to a file pool writes the load in memory, which may be lower than that in the file
  (`load_grows_violated`).
* **C177** (`Verif/FilePool`): `kno_pool_unlock` and `finish_commit` call the driver before they drop the changes, and the drivers give
  the lock back only if there are no changes: it is kept until the process ends (`lets_others_violated`). How long the operating
  system holds such a lock if other descriptors of the file are closed is not modelled.
* **C178** (`Verif/Configs`): a handler for a single value is given the last element of the list of settings made before it was
  registered, "the latest" says a comment; but the list has the latest first (`single_value_violated`). The same value set twice
  is recorded once (`same_setting_violated`). A list found in a file or the environment is recorded as it is, and taken for
  several settings (`found_list_violated`). Registering again does not pass on settings (`registered_again_violated`).
  `settings_reach_handler_partial` is about handlers for several values, which accept them, and settings of which the first two differ.
* **C179** (`Verif/Configs`): without a handler `(config n)` gives the list in which settings are recorded: `(2 1)` after setting 1 and 2,
  and `((1))` after setting `(1)` (`last_set_violated`, `all_values_partial`).
* **C181** (`Verif/Configs`): once settings are initialised, `config-default!` only looks at what has been set or read before: a default
  hides what the environment or a file says (`found_before_default_violated`).
* **C182** (`Verif/Configs`): `kno_init_configs` has a local variable `n_config_handlers`, which is 0: it goes through no handlers
  (`init_violated`, for all states; `default_handler_violated`).
* **C183** (`Verif/Configs`): `kno_register_config_lookup` takes its lock a second time, instead of giving it back, when the place is there
  (`place_again_violated`).
* **C184** (`Verif/Configs`): after an escaped separator the search starts again at the same place, for ever if another separator
  follows (`escaped_separator_violated`); otherwise the `\` becomes part of the value (`escape_kept_violated`). Strings with separators
  are taken apart (`quoted_separator_violated`); an empty assignment ends the text (`empty_assignment_violated`).
* **C185** (`Verif/Configs`): `read_config` keeps not what setting returns but whether that is negative, and then asks whether this is
  negative: errors are never reported (`file_errors_violated`) and failures are counted as entries made (`file_count_violated`).
  Tables `#[…]` are taken for comments (`file_table_violated`).
* **C186** (`Verif/Configs`): whether the other name has its own handler is asked of the handler of the target
  (`alias_conflict_violated`).
* **C188** (`Verif/Configs`): the default of `#:config` is looked for in the value which is not there (`config_macro_violated`); `#:env` of a
  symbol with a default frees the name of the symbol (`env_macro_violated`).
* **C189** (`Verif/Configs`): a comma is missing between "f" and "#f" (`yes_no_violated`).
* **C192** (`Verif/Calls`): the least number of arguments is the place of the first optional parameter: a required parameter after it
  need not be given (`required_violated`).
* **C194** (`Verif/Calls`): the lock is taken before the arguments are seen to, and not given back when one has the wrong type or a default
  fails: from then on every call waits for ever (`sync_free_violated`, for all procedures and schedules).
* **C195** (`Verif/Calls`): whether a name in `(locals …)` has a value is asked of the body (`KNO_PAIRP(scan)`): without one, the rest of the
  empty list is read (`locals_without_value_violated`).
* **C196** (`Verif/Calls`): `locals_evalfn` takes the values of the frame, also when the frame has a copy, from which variables are read
  once a procedure has been made (`locals_assign_violated`).
* **C197** (`Verif/Calls`): `core_call` has no `else` after calling a traced function: it is called again (`called_once_violated`). The attribute
  `choiceop` replaces the flags of a procedure instead of adding to them, so that it is called as if it were another kind of function
  (`convention_violated`).
* **C198** (`Verif/TableOps`): a key of a slotmap or schemap whose value is empty makes the update fail with a type error, while a hashtable takes it as a key without a value (`update_empty_violated`).
* **C199** (`Verif/TableOps`): `table-increment-existing!` uses the plain increment on hashtables, so it adds the missing keys (`existing_increment_violated`).
* **C200** (`Verif/TableOps`): `kno_hashtable_iterkeys` looks at the outcome of an operation only until the first one which had something to do; later errors are dropped (`update_several_violated`). On other tables the result of `kno_store` is not looked at, so updates of read-only slotmaps or of slots a schemap does not have are reported as done (`update_silent_violated`).
* **C201** (`Verif/TableOps`): on slotmaps and schemaps the value is read and stored under two separate locks, so increments from two threads can be lost (`increments_slotmap_violated`). Hashtables are proved right for every schedule.
* **C203** (`Verif/TableOps`): keys at the threshold are returned, though the documentation says larger (`table_skim_violated`).
* **C204** (`Verif/TableOps`): `(table-writable! t #t)` makes the table read-only, and `(table-modified! t)` clears the flag documented to default to true (`set_writable_violated`, `set_modified_violated`).
* **C205** (`Verif/TableOps`): the optional argument of `hashset-elts` is only compared with `#f`, so leaving it out empties the hashset, and its count stays (`hashset_elts_violated`).
* **C206** (`Verif/TableOps`): `map->table` does not look at whether the function failed or `kno_add` turned its result down (`map_table_violated`).
* **C207** (`Verif/TableOps`): with several slotids and a single table, an error counts as found (`ftest_violated`).
* **C208** (`Verif/TableOps`): without an index the second walk starts at 1 instead of 0, pairs values with slots, and always reads past the arguments (`xfind_background_violated`, for every such call).
* **C209** (`Verif/NumText`): negative fixnums in base 8 and 16 are written as 64-bit words, and other negative numbers are written in base 10 whatever the base (`text_negative_hex_violated`, `text_negative_binary_violated`); zero is written as nothing in the bases which go through bigints (`text_zero_violated`); beyond base 16 there are question marks (`text_large_base_violated`); in bases 2 to 5 long numbers are written past the end of the buffer (`text_overrun_violated`), and so are flonums of 10^255 and more (`text_large_flonum_violated`); a rational is written as nothing (`text_rational_violated`), and flonums have six decimals, so that different ones have the same text (`text_small_flonum_violated`).
* **C210** (`Verif/NumText`): the separator of a bigint is cut to a byte: U+202F becomes a slash (`text_separator_violated`); fixnums have separators in base 10 and in bases which go through bigints, but not in base 8 and 16 (`text_separator_base_violated`).
* **C211** (`Verif/NumText`): two separators end the number and the rest is ignored (`read_separators_violated`); anything after a separator at the beginning is 0 (`read_underscore_violated`); in bases 11 to 15 the letters are not digits (`read_base_violated`); a value of `errno` left by something else makes integers from 2^61 to 2^63 unreadable (`read_errno_violated`); `#i` never works, because the letter is read again (`read_inexact_violated`).
* **C212** (`Verif/NumText`): -1 in base 16 is read back as 2^64 - 1 (`write_read_violated`); the exceptions of C209 and C211 apply.
* **C213** (`Verif/NumText`): with a space before it the last character of the denominator is lost, so that " 1/25" is 1/2 (`read_fraction_violated`); with as many spaces as the denominator has characters, plus one, the length of the copy is negative (`read_fraction_overrun_violated`).
* **C214** (`Verif/NumText`): the digits after the point are added to a negative whole part: "#e-1.5" is -1/2 (`read_exact_violated`); without a digit before the point there is no number (`read_exact_point_violated`).
* **C215** (`Verif/NumText`): a bigint from -2^64 to -2^63 loses its sign (`itoa_violated`).
* **C216** (`Verif/OIDArith`): the address of an OID below 2^32 is taken from its reference: that of the OID with address 5 is reported as 1310723, or as something else when other OIDs were made before it (`oid_addr_low_violated`, `oid_addr_history_violated`); addresses from 2^63 on are reported as negative numbers (`oid_addr_high_violated`); `make-oid` of an integer from 2^63 on is the OID with address 0 (`make_oid_large_violated`), and that of a negative fixnum an OID near the end (`make_oid_negative_violated`).
* **C218** (`Verif/OIDArith`): `oid-plus` takes the increment modulo 2^32, so that adding 2^31 subtracts it (`oid_plus_violated`); sums go on at the other end of the addresses (`oid_plus_wraps_violated`, `make_oid_offset_violated`); `oid-minus` gives the distance without its sign (`oid_minus_sign_violated`, `plus_minus_violated`), and negative numbers for distances from 2^63 on (`oid_minus_large_violated`).
* **C219** (`Verif/OIDArith`): OIDs of a pool that goes on past a multiple of 2^32 are not found in it, and others are (`oid_offset_pool_violated`, `oid_offset_wraps_violated`); nor are the OIDs of large pools from 2^31 on (`oid_offset_capacity_violated`); an OID before another one may be found to be after it (`oid_offset_base_violated`).
* **C220** (`Verif/OIDArith`): an OID before the base is read back as one after it (`hex_oid_before_violated`); one 2^31 after the base is written with sixteen digits and read as another (`hex_oid_far_violated`), and those 2^32 apart are written alike (`hex_oid_same_violated`); any text without hexadecimal digits at its beginning is the base itself (`hex_oid_text_violated`).
* **C221** (`Verif/OIDArith`): with a size which does not divide 2^20 ranges overlap (`oid_base_overlap_violated`); with a size above 2^20 the address is returned without being made into a reference (`oid_base_raw_violated`); with a size of 0 there is a division by zero (`oid_base_zero_violated`).
* **C223** (`Verif/Virtual`): the values of a pool in memory are only in its cache, so that swapping out loses them all, also when they were committed and when the pool was made not to be swapped: the cache is cleared before that is looked at (`mem_swapout_violated`); the first OID that is not allocated is reported to be empty (`mem_unallocated_violated`); an OID that was read before it was allocated is reported not to be allocated afterwards (`mem_read_before_violated`); the last OID of a pool is never given (`mem_alloc_last_violated`).
* **C224** (`Verif/Virtual`): the key that is a vector is passed as it is instead of the vector made of it, so that its value is that of its first element (`index_fetch_vector_violated`); for an empty vector the element after its end is returned (`index_fetch_empty_violated`); a function that gives a vector shorter than that of the keys is read past its end (`fetch_short_violated`).
* **C225** (`Verif/Virtual`): the loops over the changes do not advance, so that committing any change never ends (`index_save_violated`).
* **C226** (`Verif/Virtual`): an OID for which the function gives nothing is reported as unallocated when fetched alone, but has the empty choice as its value when fetched with others (`pool_fetch_violated`).
* **C227** (`Verif/Virtual`): the function for saving is never called, and values that were committed are lost with the cache (`pool_never_saved_violated`, `pool_commit_lost_violated`).
* **C229** (`Verif/Requests`): for `#t`, and for a value that is refused, the new slotmap is locked when it is made and again because it is a slotmap; POSIX allows this to wait forever (`new_request_violated`).
* **C231** (`Verif/Requests`): a request that ends clears the current request instead of going back to the outer one, so that the rest of the outer body finds no slots and what it stores is lost (`nested_requests_violated`); so does a request given as `#t` to go on with the outer one (`continued_request_violated`).
* **C232** (`Verif/Requests`): the test for a usable table looks at the current request where it should look for a hashtable, so that a hashtable is refused unless a slotmap is the current request: the body runs with a new slotmap instead (`hashtable_request_violated`); an error in the expression for the request is taken as a value that is refused and the body is evaluated (`request_error_violated`).
* **C233** (`Verif/Requests`): a request takes over the log there was, and ends it, also that of an outer request (`request_log_violated`).
* **C234** (`Verif/Requests`): after an error before the last expression the new request, and the output to a buffer that was freed, stay in place; an error of the last expression is not noticed (`output_error_violated`).
* **C236** (`Verif/Requests`): with several values texts are parsed in spite of `%` (`raw_texts_violated`); `+5` is a number only among other values, and a text without characters among other values becomes the end-of-file object, because `strchr` finds the end of the text (`same_among_others_violated`).
* **C239** (`Verif/History`): a number may be asked for before it has been given out
  (src/sys/history.c:90-105 does not look at `top`); it is then given out again for another value,
  and both are found under it.  A reference taken from a choice is dropped from the elements of the
  choice and not from the choice itself, whose key is a quoted choice (98), and is still found for
  it.
* **C240**: `kno_history_ref` (src/sys/history.c:59-68) only takes fixnums, while names are accepted
  when recording; and `kno_eval_histref` tests the root and not the value for errors (217), so that
  a reference by name gives `(quote <error>)`.  A value with a name and no number gets no number
  when it is pushed.
* **C242**: the tests at src/sys/history.c:246 and 262 are `>` where they should be `>=`: the length
  of a list leads to the car of the empty list, and that of a vector to an error value which is
  taken for the element.
* **C243**: when a string is not a key of a table, the string that is put in upper case and tried
  next is the table and not the path element (src/sys/history.c:278).
* **C244**: errors inside a structure are put into it (src/sys/history.c:376-440).
* **C245**: `with-history` only looks whether its argument is a fixnum, and makes a new history
  always (src/eval/repl.c:50-52); errors in the argument are only noticed when they are `VOID` (43).
* **C246** (`Verif/ProcStore`): `procpool_lock` returns the Lisp value itself for errors and fixnums
  (src/storage/procpool.c:204-205): an error is 61 and 0 is 2, which lock the OID.
* **C248**: `procpool_commit` applies `KNO_INT` to a Lisp value (src/storage/procpool.c:290): n comes
  back as 16n+10, which is negative from 2^27 on.
* **C249**: `procindex_commit` returns 1 after setting an error (src/storage/procindex.c:341-344).
* **C250**: a load up to 2^32-1 is accepted and returned as an `int` (src/storage/procpool.c:328-329).
* **C252**: the length of the vector is not looked at (src/storage/procpool.c:183,
  src/storage/procindex.c:191); after an error the vector of OIDs is released a second time
  (src/storage/procpool.c:179).
* **C253**: the elements of the vector are replaced by `VOID` although the function may keep it
  (src/storage/procpool.c:185, src/storage/procindex.c:193, 223).
* **C254**: the function looked for is that for fetching several (src/storage/procindex.c:207).
* **C255**: without a function for sizes the one for fetching is applied without looking whether there
  is one (src/storage/procindex.c:141-142), as fetching itself does (131).
* **C256**: the filter is not used (src/storage/procindex.c:267-299), and `kno_index_keysizes` does not
  look for -1 (src/storage/indexes.c:838-843).
* **C257**: the functions of a registered type are shared by its pools
  (src/storage/procpool.c:68-69) and released with each (360-372).
* **C259** (`Verif/Compounds`): the offset itself, not a Lisp number, is the irritant of the range error
  (src/eval/typeops.c:734, 738): an offset divisible by four is read as an address
  (src/sys/errobjs.c:167).
* **C260**: `compound_length` uses `KNO_BYTE2LISP` (src/eval/typeops.c:674), which keeps eight bits.
* **C264**: compounds before the one that cannot be changed have been changed
  (src/eval/typeops.c:783-791); a single thing which is not a compound is not looked at (794).
* **C265**: the offset -1 of a key that is not in the schema passes `offset<compound_length`
  (src/lisp/compounds.c:207-208, 214-215).
* **C266**: when a key's offset is past the end of a mutable compound the read lock is kept
  (src/lisp/compounds.c:206-212).
* **C268**: for `#t` as offset the sequence starts with the annotations (src/eval/typeops.c:1033-1034);
  127 with annotations makes -128 of the signed char (1038); annotations that are neither `#t` nor a
  table are written without room for them (1042-1045, 1062).
* **C269**: the offset is not compared with the number of elements (src/eval/typeops.c:979-981), which
  makes a sequence of negative length (src/lisp/sequences.c:67).
* **C271**: a match sets `matched=0` (src/eval/typeops.c:500), and one thing has to be of all the types
  (509-513).
* **C273** (`Verif/CoreOps`): `kno_numcompare` never finds an exact number and a flonum equal
  (src/lisp/numbers.c:2665-2669), finds NaN equal to every flonum (2648), and tests `COMPLEXP(x)` twice
  (2655), so that the difference of a real and a complex number counts as 0.
* **C275**: only neighbours are compared (src/eval/coreops.c:270-277).
* **C277**: NaN and complex numbers as for C273 (src/eval/coreops.c:203-205).
* **C279**: `equal?` is declared with `KNO_NDCALL` (src/eval/coreops.c:45), against its documentation.
* **C280**: the error of the parser is returned (src/eval/coreops.c:454), against the documentation.
* **C281**: the primitive calls `kno_parse_arg` (src/eval/coreops.c:492), not `kno_parse_slotid`.
* **C283** (`Verif/NetStore`): OIDs cached or changed in the server are left out of what is fetched, but
  the answer is made with the length of the request (src/storage/dbserv.c:94-101): values are missing, the
  others are in the wrong places and the rest is read past the end of the array.
* **C284**: only the first OID's pool is tested (src/storage/dbserv.c:87-90).
* **C285**: `kno_oid2pool` can be `NULL`, and whether the pool is served is not tested
  (src/storage/dbserv.c:60-61).
* **C288**: the values before a bad one stay served (src/storage/dbserv.c:241-245).
* **C291**: the first argument is used as an index without a test (src/storage/dbserv.c:203).
* **C292**: the error object has choice size 1 (src/storage/dbserv.c:171).
* **C293**: the length of the answer is not tested (src/drivers/netpool.c:199-202,
  src/drivers/netindex.c:134-136).
* **C295**: the arguments of `kno_service_call` are swapped (src/drivers/netindex.c:149), and an empty
  answer counts as one key (164-166).
* **C296**: the clients' names (src/drivers/netpool.c:344-348, src/drivers/netindex.c:320-323) are not those
  of the server (src/storage/dbserv.c:344-387), and `init_network_pool` reads a table where the server
  sends a vector of tables.
* **C299** (`Verif/Times`): a negative moment counts as a failure of the parser
  (src/prims/timeprims.c:263-267).
* **C300**: for one flonum the difference is the other way round (src/prims/timeprims.c:360-364).
* **C301**: `kno_cmp_now` returns `KNO_ERROR` as an `int` (src/prims/timeprims.c:477), which is positive, and
  the threshold is an `int` (496, 511).
* **C302**: `get_timestamp` can give `NULL` (src/prims/timeprims.c:320-321).
* **C303**: doubles are converted to `unsigned int` (src/prims/timeprims.c:164).
* **C304**: months are stored minus one (src/prims/timeprims.c:994) and read as they are (688).
* **C305**: the moment is kept in an `int` (src/prims/timeprims.c:983,1049-1050).
* **C306**: hours are tested against 32 (src/prims/timeprims.c:1001).
* **C307**: only the plural `microseconds` divides by 1000, and rounding can give 1000 milliseconds
  (src/prims/timeprims.c:921-924).
* **C310**: a unit whose count is 0 does not end the listing, and years never do
  (src/prims/timeprims.c:1242-1304).
* **C313** (`Verif/Words`): after the last word `skip_whitespace` gives the end of the text, not NULL, and a
  string is made of it (src/text/texttools.c:122-126).
* **C314**: `strstr` finds the empty string at once and the scan does not move (src/text/texttools.c:139,151).
* **C316**: the flag must be `#t`, though the documentation says it is so when unspecified
  (src/text/texttools.c:411).
* **C318**: a suffix begins with the word at the length less the least size, without those after it
  (src/text/texttools.c:489-494); a prefix longer than the vector is `(#f)` (478); a size of zero reads
  beyond the vector (491); a vector of one word has no affixes (470-472); for an empty vector and no window
  the size is -1, an error (465-468).
* **C319**: a negative start is refused before it is counted from the end (src/text/texttools.c:551,558).
* **C320**: `forward_char` is given the phrase so far and an index of the sequence, so elements are used
  again, or memory after the phrase is read (src/text/texttools.c:609); words that are not strings are errors (600-603).
* **C322**: the product is an `int` (src/text/texttools.c:635).
* **C323**: with ASCII vowels every other character is dropped (src/text/texttools.c:763).
* **C324**: the flag must be `#t` (src/text/texttools.c:804); entities are read before the test for `<` (808-809);
  the test for CDATA has `<` for `!` (813).
* **C326**: after the last parse function the sequence of them is taken as one (src/text/texttools.c:854-856);
  empty columns are not parsed (862-865).
* **C327**: a character more is skipped after an escaped separator (src/text/texttools.c:2558-2559); escapes of
  escapes do not count (2557); the limit is compared with the scan, not the place found (2554).
* **C328**: as for C327 (src/text/texttools.c:2594-2595); a text without separators is given whole (2607).
* **C329**: after a backslash a character is read without regard to the limit or the end
  (src/text/texttools.c:2642-2647).
* **C330** (`Verif/Phonetic`): an empty text has no first character and -1 is written (src/text/phonetic.c:51-53);
  the length is counted in bytes (56), so that after a first letter of several bytes there are fewer digits.
* **C331**: the first letter itself and not its class is compared with the next class (src/text/phonetic.c:54,59).
* **C336**: the test for a B at the end drops it unless an M comes before (src/text/phonetic.c:124); `CI` is
  compared with three characters, so it is found at the end only (141); `sio`, `sia`, `tia` and `tio` are in small letters
  and the buffer in capitals (225,236); `strchr` finds the NUL at the end among the vowels, so a final W, Y or H is not silent (193,250).
* **C337** (`Verif/TextPrims`): `strncmp` ends at a NUL (src/text/texttools.c:2422,2440).
* **C338**: as for C337 (src/text/texttools.c:2064,2070,2094,2098); a space at the end stays with the last word (2150), and one at
  the beginning makes the first word empty (2118).
* **C339**: the next search begins at the place just found, not after it (src/text/texttools.c:2142).
* **C340**: entities are written without a semicolon (src/text/texttools.c:211,217), so that `<5` and the character 605 are
  encoded alike; the character 128 is neither below nor above 128 (209-210); characters of strings are added only if they
  are among those to encode already (254).

## Reading the seeded-bug log

Each line of `seeded/LOG.jsonl` is one attempt: an edit of the model in a scratch copy.

* `theorems_failed` lists the property theorems that no longer hold or whose proofs depend on a step that fails.
  A proof that fails is not by itself evidence that the statement is false of the edited model.
* `survived` marks edits under which every property theorem was still proved. `tightened` then names the
  theorem strengthened for it. Where `tightened` is empty, the edit or `breaks` field says why no claim
  is broken, or that the gap is real and still open (one case: silent first letters in C336).
* `note` marks attempts without a result: after the edit some definition no longer elaborated, or a definition
  could not be repaired by leaving out proofs, so the theorems could not be checked. They say nothing
  about the strength of the theorems. Lines with `note` were left out of earlier versions of the log; those
  still on record have been put back at the end of the list they were missing from, so their order is not
  the order of the attempts.
* The lists of edits prepared for some areas were not run to their end. Only attempts in the log were made.
