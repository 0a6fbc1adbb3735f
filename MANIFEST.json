{
 "claims": [
  {
   "property": "C01",
   "status": "proved",
   "theorems": [
    "Verif.Queue.queue_fifo"
   ],
   "note": "all capacities > 0, all histories of append/get/remove/search"
  },
  {
   "property": "C02",
   "status": "proved",
   "theorems": [
    "Verif.Queue.queue_fifo",
    "Verif.Queue.queue_iterate_destroy"
   ],
   "note": "search via queue_fifo; iterate and destroy in every reachable state"
  },
  {
   "property": "C03",
   "status": "partial",
   "theorems": [
    "Verif.Queue.queue_free_index_partial",
    "Verif.Queue.queue_free_index_then_append_loses",
    "Verif.Queue.queue_free_index_tail"
   ],
   "note": "code defect: append after free_index is lost (refuted with a witness); proved for histories without append after free_index"
  },
  {
   "property": "C04",
   "status": "proved",
   "theorems": [
    "Verif.Stack.stack_lifo",
    "Verif.Stack.stack_iterate",
    "Verif.Stack.stack_destroy",
    "Verif.Stack.stack_dup"
   ],
   "note": "pointer-level model, arbitrary failing allocator and copy handler"
  },
  {
   "property": "C05",
   "status": "proved",
   "theorems": [
    "Verif.Chain.chain_history"
   ],
   "note": "pointer-level model of MLN_CHAIN_FUNC_DEFINE"
  },
  {
   "property": "C06",
   "status": "partial",
   "theorems": [
    "Verif.Array.array_history_partial",
    "Verif.Array.array_zero_capacity_diverges"
   ],
   "note": "code defect: with initial capacity 0 the growth loop never ends (proved); everything else proved for positive capacity without size overflow"
  },
  {
   "property": "C07",
   "status": "proved",
   "theorems": [
    "Verif.Base64.encode_eq_rfc",
    "Verif.Base64.decode_encode"
   ],
   "note": "all nonempty byte strings"
  },
  {
   "property": "C08",
   "status": "proved",
   "theorems": [
    "Verif.Base64.decode_safe",
    "Verif.Base64.decode_empty_ub"
   ],
   "note": "all nonempty inputs; the empty input reads in[-1] (proved as undefined)"
  },
  {
   "property": "C09",
   "status": "proved",
   "theorems": [
    "Verif.Md5.md5_split"
   ],
   "note": "all messages, all splittings; digest equals RFC 1321 loop specification"
  },
  {
   "property": "C10",
   "status": "proved",
   "theorems": [
    "Verif.Sha1.sha1_split"
   ],
   "note": "all messages, all splittings; digest equals FIPS 180-4 specification"
  },
  {
   "property": "C11",
   "status": "proved",
   "theorems": [
    "Verif.Sha256.sha256_split",
    "Verif.Sha256.safeAdd_eq",
    "Verif.Sha256.fipsK_roots"
   ],
   "note": "all messages, all splittings; digest equals FIPS 180-4 specification"
  },
  {
   "property": "C12",
   "status": "partial",
   "theorems": [
    "Verif.Md5.md5_tobytes",
    "Verif.Md5.md5_tostring",
    "Verif.Sha1.sha1_tobytes",
    "Verif.Sha1.sha1_tostring",
    "Verif.Sha256.sha256_tostring",
    "Verif.Sha256.sha256_tobytes_partial",
    "Verif.Sha256.sha256_tobytes_overrun"
   ],
   "note": "code defect: mln_sha256_tobytes overruns the buffer by one byte for len 20, 24, 28 (proved); everything else proved"
  },
  {
   "property": "C13",
   "status": "proved",
   "theorems": [
    "Verif.Aes.decrypt_encrypt",
    "Verif.Aes.init_ok",
    "Verif.Aes.init_bad"
   ],
   "note": "any round-key array, all blocks, all three sizes; other sizes are refused by mln_aes_init"
  },
  {
   "property": "C14",
   "status": "proved",
   "theorems": [
    "Verif.Des.des_inv",
    "Verif.Des.des3_inv",
    "Verif.Des.desBuf_roundtrip",
    "Verif.Des.des3Buf_roundtrip",
    "Verif.Des.desBuf_spec",
    "Verif.Des.des3Buf_spec"
   ],
   "note": "all sub-keys, blocks and messages, both directions; messages of other lengths come back completed with the fill byte"
  },
  {
   "property": "C15",
   "status": "proved",
   "theorems": [
    "Verif.Rc4.rc4_roundtrip",
    "Verif.Rc4.calc_calc",
    "Verif.Rc4.calc_stream",
    "Verif.Rc4.init_perm",
    "Verif.Rc4.init_empty"
   ],
   "note": "all nonempty keys, all data; also equality with the textbook key stream"
  },
  {
   "property": "C16",
   "status": "proved",
   "theorems": [
    "Verif.Rs.rs_decode_sound",
    "Verif.Rs.inverse_spec",
    "Verif.Rs.toM_mmul",
    "Verif.Rs.rs_decode_too_few"
   ],
   "note": "The table arithmetic is proved to be a field (Verif.Rs.GF); Gauss elimination is proved to return a left inverse. With fewer than n fragments left the code reads behind the end of the vector (rs_decode_too_few): no result is returned in the model, undefined behaviour in C."
  },
  {
   "property": "C17",
   "status": "partial",
   "theorems": [
    "Verif.Rs.rs_recover_one_partial",
    "Verif.Rs.rs_recover_two_partial",
    "Verif.Rs.rs_recover_any_false"
   ],
   "note": "Proved for one parity vector (every n) and two parity vectors (n up to 255). Refuted for k>=3 with n>=11, k>=4 with n>=7, k>=5 with n>=4, k>=9 with n>=2, and k>=2 with n>=256: the parity rows are integer powers truncated to a byte, not field powers. The remaining small sizes are open."
  },
  {
   "property": "C18",
   "status": "partial",
   "theorems": [
    "Verif.Str.strcmp_zero",
    "Verif.Str.constStrcmp_zero",
    "Verif.Str.strncmp_zero",
    "Verif.Str.constStrncmp_zero",
    "Verif.Str.strseqcmp_zero",
    "Verif.Str.strcmp_same_buffer"
   ],
   "note": "code defect: two strings that share the data pointer compare equal whatever their lengths (proved); proved for distinct buffers"
  },
  {
   "property": "C19",
   "status": "partial",
   "theorems": [
    "Verif.Str.strcmp_not_antisymm",
    "Verif.Str.strcmp_cyclic",
    "Verif.Str.strseqcmp_not_antisymm",
    "Verif.Str.strcmp_order_partial",
    "Verif.Str.strcmp_key_partial",
    "Verif.Str.strseqcmp_lex_partial"
   ],
   "note": "code defects: strcmp is not antisymmetric and is cyclic on the word path, strseqcmp returns 1 for empty against nonempty in both directions (all proved); total orders proved on ASCII strings / lengths outside the word path, and lexicographic order for nonempty strings"
  },
  {
   "property": "C20",
   "status": "proved",
   "theorems": [
    "Verif.Str.kmp_spec",
    "Verif.Str.kmp_found_iff",
    "Verif.Str.kmp_none_iff",
    "Verif.Str.kmp_empty"
   ],
   "note": "all texts and nonempty patterns; an empty pattern writes outside the table (proved as undefined)"
  },
  {
   "property": "C21",
   "status": "proved",
   "theorems": [
    "Verif.Str.slice_spec",
    "Verif.Str.slices_unique",
    "Verif.Str.slice_bounds",
    "Verif.Str.slice_content",
    "Verif.Str.slice_free_end"
   ],
   "note": "all strings and separator sets; allocation failure (which leaks) is not modelled"
  },
  {
   "property": "C22",
   "status": "proved",
   "theorems": [
    "Verif.RbTree.rbtree_refines",
    "Verif.RbTree.rbtree_search",
    "Verif.RbTree.rbtree_successor"
   ],
   "note": "Pointer-level model of insert, delete, search, successor, both repair loops and rotations; every legal history from mln_rbtree_new, every comparator that is an order."
  },
  {
   "property": "C23",
   "status": "proved",
   "theorems": [
    "Verif.RbTree.rbtree_balanced"
   ],
   "note": "Red-black rules stated on the pointers; the search is shown to finish within 2*log2(n+1) steps down."
  },
  {
   "property": "C24",
   "status": "partial",
   "theorems": [
    "Verif.RbTree.rbtree_iterate_partial",
    "Verif.RbTree.rbtree_iterate_each_once",
    "Verif.RbTree.rbtree_iterate_after_abort",
    "Verif.RbTree.rbtree_abort_leaves_flag",
    "Verif.RbTree.rbtree_ready_after_abort_false"
   ],
   "note": "Exactly-once in insertion order is proved for every handler that deletes any present nodes. Readiness after an abort is refuted: if the handler deletes the current node and aborts, the flag stays set and the next iteration visits the first node twice. Handlers that insert are not covered."
  },
  {
   "property": "C25",
   "status": "proved",
   "theorems": [
    "Verif.Fheap.exec_spec",
    "Verif.Fheap.history",
    "Verif.Fheap.minimum_spec",
    "Verif.Fheap.drain_spec",
    "Verif.Fheap.insert_spec",
    "Verif.Fheap.extract_spec",
    "Verif.Fheap.decrease_spec"
   ],
   "note": "every legal history from the empty heap against a bag of (node, key) pairs with any total preorder, for heaps of fewer than fib(67) nodes; emptying the heap gives all nodes with keys going up; inserted nodes are initialised ones"
  },
  {
   "property": "C26",
   "status": "partial",
   "theorems": [
    "Verif.Fheap.delete_partial",
    "Verif.Fheap.delete_refused",
    "Verif.Fheap.delete_wrong"
   ],
   "note": "holds when the minimum value is below every other key; refuted for every heap where the key of the node is below the minimum value and not least, and for every heap that holds another key below the minimum value: another node is removed"
  },
  {
   "property": "C27",
   "status": "proved",
   "theorems": [
    "Verif.Fheap.roots_fit",
    "Verif.Fheap.degree_lt",
    "Verif.Fheap.exec_spec"
   ],
   "note": "every root of every represented heap with fewer than fib(67) nodes has a degree below 65 and no operation leaves the table; nodes inserted again without initialisation are C98"
  },
  {
   "property": "C28",
   "status": "partial",
   "theorems": [
    "Verif.Hash.hash_refines_partial",
    "Verif.Hash.hash_search_inserted",
    "Verif.Hash.update_fresh_uaf"
   ],
   "note": "Proved for every history when the table is not expandable, and for every history without mln_hash_update when it is. Refuted with mln_hash_update: on every fresh expandable table the first mln_hash_update of a new key uses the bucket pointer taken before the table was replaced (use after free)."
  },
  {
   "property": "C29",
   "status": "partial",
   "theorems": [
    "Verif.Hash.hash_iterate_partial",
    "Verif.Hash.visit_all",
    "Verif.Hash.visit_filter",
    "Verif.Hash.iterate_stale",
    "Verif.Hash.iterate_remove_stop",
    "Verif.Hash.iterate_skips"
   ],
   "note": "Proved for tables that do not resize, distinct keys and handlers that keep or remove the visited entry. Refuted: after a resize, removing the visited entry uses a bucket pointer of the freed table; a handler that removes and stops leaves a dead entry that hides a later insertion of the same key from mln_hash_search. Missing: handlers that insert or remove other entries."
  },
  {
   "property": "C30",
   "status": "partial",
   "theorems": [
    "Verif.Hash.hash_len_partial",
    "Verif.Hash.hash_len_fixed",
    "Verif.Hash.hash_len_explodes"
   ],
   "note": "Never zero and below 2^32: proved for every history (without mln_hash_update if expandable). The constant factor is refuted: every expandable table (calc_prime 0) has a history after which two entries sit in 1073741823 buckets."
  },
  {
   "property": "C31",
   "status": "partial",
   "theorems": [
    "Verif.Bn.add_spec",
    "Verif.Bn.sub_spec_partial",
    "Verif.Bn.sub_negative_abort"
   ],
   "note": "code defect: subtracting a larger-magnitude negative from a negative of the same length aborts (proved for every such pair); addition proved for all numbers whose sum fits, subtraction for all other pairs"
  },
  {
   "property": "C32",
   "status": "proved",
   "theorems": [
    "Verif.Bn.mul_spec"
   ],
   "note": "all pairs whose product fits in 257 limbs"
  },
  {
   "property": "C33",
   "status": "partial",
   "theorems": [
    "Verif.Bn.div_mag",
    "Verif.Bn.div_spec_partial",
    "Verif.Bn.div_negative",
    "Verif.Bn.div_zero",
    "Verif.Bn.div_oob",
    "Verif.Bn.div_unique"
   ],
   "note": "Proved for a positive divisor or an exact division. Refuted by theorem div_negative for every negative divisor that does not divide (the remainder has the wrong sign), and by div_oob for a full width dividend with an unnormalised top limb, where the code reads past the limb array."
  },
  {
   "property": "C34",
   "status": "partial",
   "theorems": [
    "Verif.Bn.pwr_mod_partial",
    "Verif.Bn.pwr_mod_exact_partial",
    "Verif.Bn.pwr_one",
    "Verif.Bn.pwr_zero",
    "Verif.Bn.pwr_negative",
    "Verif.Bn.pwr_mod_zero",
    "Verif.Bn.pwr_spec",
    "Verif.Bn.bitTestApi_spec"
   ],
   "note": "Proved for exponents of at least 2 and operands within the size limit. pwr_one and pwr_zero prove that exponents 1 and 0 return the unreduced base and 1 whatever the modulus is."
  },
  {
   "property": "C35",
   "status": "partial",
   "theorems": [
    "Verif.Bn.leftShift_partial",
    "Verif.Bn.rightShift_partial",
    "Verif.Bn.shift_large",
    "Verif.Bn.rightShift_oob"
   ],
   "note": "Proved for every count below 8224. shift_large proves that larger counts leave the number unchanged; rightShift_oob proves that a full width number shifted right by 1 to 31 bits reads past the limb array."
  },
  {
   "property": "C36",
   "status": "partial",
   "theorems": [
    "Verif.Bn.assign_hex",
    "Verif.Bn.assign_hex_refuse",
    "Verif.Bn.assign_dec",
    "Verif.Bn.assign_dec_long",
    "Verif.Bn.assign_oct_partial",
    "Verif.Bn.toText_spec",
    "Verif.Bn.text_roundtrip_partial",
    "Verif.Bn.text_roundtrip_large"
   ],
   "note": "Hexadecimal and decimal literals and the text output are proved. assign_oct_partial proves that an octal literal is read correctly exactly when all digits before the last three are zero (code defect); text_roundtrip_large proves that the text of every number from 10^2056 on is refused on input."
  },
  {
   "property": "C37",
   "status": "partial",
   "theorems": [
    "Verif.Bn.i2osp_spec",
    "Verif.Bn.os2ip_spec",
    "Verif.Bn.octet_roundtrip",
    "Verif.Bn.octet_roundtrip_compare"
   ],
   "note": "The value round trips for every accepted length. octet_roundtrip_compare proves that the number read back compares equal exactly when the length was minimal, so the comparison part fails for every longer length (code defect)."
  },
  {
   "property": "C38",
   "status": "partial",
   "theorems": [
    "Verif.Bn.absCompare_spec",
    "Verif.Bn.compare_spec_partial",
    "Verif.Bn.compare_negative"
   ],
   "note": "code defect: two negative numbers of the same length are ordered by magnitude, reversed (proved for every such pair); the order is right for all other pairs"
  },
  {
   "property": "C39",
   "status": "partial",
   "theorems": [
    "Verif.Bn.extendEuclid_partial",
    "Verif.Bn.extendEuclid_zero"
   ],
   "note": "Proved for positive operands when the second has at most 256 limbs and the first is readable by the division (see div_oob for what happens otherwise)."
  },
  {
   "property": "C40",
   "status": "proved",
   "theorems": [
    "Verif.Prime.generate_spec",
    "Verif.Prime.generate_least",
    "Verif.Prime.generate_ends",
    "Verif.Prime.randScope_spec",
    "Verif.Prime.witness_prime"
   ],
   "note": "Bases are any values between 1 and the candidate; randScope_spec shows rand_scope yields only such values. Above 2^30 + 3 the fixed result is below n (generate_ends)."
  },
  {
   "property": "C41",
   "status": "partial",
   "theorems": [
    "Verif.Json.json_round_trip_partial",
    "Verif.Json.decode_text",
    "Verif.Json.enc_txt",
    "Verif.Json.round_trip_empty",
    "Verif.Json.ordered_ascii"
   ],
   "note": "Proved for every value without an empty array, with keys that the comparison orders (7-bit keys are: ordered_ascii) and with integers of absolute value up to 2^53 (doubles abstract, exact on these); decode_text: every text of the grammar Txt decodes to its value. round_trip_empty: the empty array comes back as an array of one element."
  },
  {
   "property": "C42",
   "status": "partial",
   "theorems": [
    "Verif.Json.string_safe_partial",
    "Verif.Json.string_overflow"
   ],
   "note": "Proved for literals without a raw NUL byte; string_overflow: a \\u escape of code 2048 or more followed by two or more raw NUL bytes overruns the buffer."
  },
  {
   "property": "C43",
   "status": "partial",
   "theorems": [
    "Verif.Json.json_array_partial",
    "Verif.Json.array_empty",
    "Verif.Json.array_empty_blank",
    "Verif.Json.array_comma"
   ],
   "note": "Proved for one or more elements. The text [] gives length 1, [ ] is rejected, a trailing comma adds an element."
  },
  {
   "property": "C44",
   "status": "partial",
   "theorems": [
    "Verif.Json.path_index_partial",
    "Verif.Json.index_reversed",
    "Verif.Json.path_index_wrong"
   ],
   "note": "The digits are read backwards: proved for components equal to their reversal (in particular one digit), refuted for every component of two different digits."
  },
  {
   "property": "C45",
   "status": "proved",
   "theorems": [
    "Verif.Asn1.decode_safe",
    "Verif.Asn1.header_safe",
    "Verif.Asn1.decode_truncated",
    "Verif.Asn1.length_shift_undefined"
   ],
   "note": "Left shifts that C leaves undefined (more than four length bytes, or four with the top bit set) give an arbitrary value; decode_safe holds for all of them. Stack depth is not modelled."
  },
  {
   "property": "C46",
   "status": "proved",
   "theorems": [
    "Verif.Asn1.decode_build",
    "Verif.Asn1.build_der",
    "Verif.Asn1.decode_der",
    "Verif.Asn1.lengthFill_spec",
    "Verif.Asn1.encodePrim_spec",
    "Verif.Asn1.tag_default"
   ],
   "note": "Allocations succeed. addContent_after_failure and merge_failure_overflow prove what a failed one does: later calls write out of bounds."
  },
  {
   "property": "C47",
   "status": "partial",
   "theorems": [
    "Verif.WebSocket.parse_generate_partial",
    "Verif.WebSocket.parse_wire_partial",
    "Verif.WebSocket.generate_spec",
    "Verif.WebSocket.parse_close_collision",
    "Verif.WebSocket.closeGenerate_ignores_status"
   ],
   "note": "Code defects: a masked close frame whose status equals the upper half of the key does not round-trip (parse_close_collision, for every such frame); 64-bit lengths use shifts that C leaves undefined, parse_wire_partial needs them to map 0 to 0; mln_websocket_close_generate ignores its status argument."
  },
  {
   "property": "C48",
   "status": "partial",
   "theorems": [
    "Verif.WebSocket.parse_complete_partial",
    "Verif.WebSocket.parse_header_only",
    "Verif.WebSocket.parse_cut_content",
    "Verif.WebSocket.parse_cut_length",
    "Verif.WebSocket.parse_cut_length8",
    "Verif.WebSocket.parse_cut_key"
   ],
   "note": "Proved for frames complete in one buffer. Code defect: a field that is only partly received is read past the end of the buffer (parse_cut_*, for every such frame)."
  },
  {
   "property": "C49",
   "status": "proved",
   "theorems": [
    "Verif.Time.time2utc_spec",
    "Verif.Time.utc2time_spec",
    "Verif.Time.utc2time_time2utc",
    "Verif.Time.time2utc_valid",
    "Verif.Time.time2utc_next_day",
    "Verif.Time.time2utc_next_second",
    "Verif.Time.dateOf_surj",
    "Verif.Time.dateOf_inj",
    "Verif.Time.monthDays_spec",
    "Verif.Time.time2utc_negative"
   ],
   "note": "all t >= 0 against a day-by-day Gregorian calendar; before the epoch the fields go negative (witness)"
  },
  {
   "property": "C50",
   "status": "partial",
   "theorems": [
    "Verif.Time.adjust_spec",
    "Verif.Time.adjust_instant_partial",
    "Verif.Time.adjust_utc2time_partial",
    "Verif.Time.adjust_month_oob"
   ],
   "note": "code defect: a month above 12 indexes outside mon_days (proved for every such input); proved for months 1..12, days >= 1 and all other non-negative fields"
  },
  {
   "property": "C51",
   "status": "partial",
   "theorems": [
    "Verif.Time.s2time_utc_eq",
    "Verif.Time.s2time_gen_eq",
    "Verif.Time.utc_fields",
    "Verif.Time.gen_fields",
    "Verif.Time.s2time_rejects",
    "Verif.Time.s2time_utc_partial",
    "Verif.Time.s2time_gen_partial",
    "Verif.Time.gen_roundtrip",
    "Verif.Time.utc_roundtrip_partial",
    "Verif.Time.s2time_day_zero",
    "Verif.Time.s2time_month_zero",
    "Verif.Time.utc_year_2000"
   ],
   "note": "code defects: day 00 accepted, month 00 reads out of range, instants of the year 2000 encode to a string the parser rejects (all proved); the exact behaviour is characterised for every string"
  },
  {
   "property": "C52",
   "status": "partial",
   "theorems": [
    "Verif.Cron.cron_matches_partial",
    "Verif.Cron.cron_stuck",
    "Verif.Cron.cron_month_over",
    "Verif.Cron.cron_day31",
    "Verif.Cron.cron_period_only_before",
    "Verif.Cron.cron_not_next",
    "Verif.Cron.cron_day_and_weekday",
    "Verif.Cron.field_listing"
   ],
   "note": "The full claim is false for the code. Proved for all bases: for stars and lists (days up to 28, every month, not both day and weekday) the result matches, is not before the base, and equals the base exactly when the base matches and the minute is a list. Refuted: a matching base is returned unchanged; a list of months already over reads outside mon_days; day 31 in a 30-day month gives the 1st; a lone period goes back; the result need not be the next match. Missing: matching for periods and month lists."
  },
  {
   "property": "C53",
   "status": "partial",
   "theorems": [
    "Verif.Gc.collect_exact",
    "Verif.Gc.new_ready",
    "Verif.Gc.add_ready",
    "Verif.Gc.suspect_ready",
    "Verif.Gc.remove_ready",
    "Verif.Gc.merge_ready",
    "Verif.Gc.foreign_lost"
   ],
   "note": "Proved for every graph, root set and suspect set in which the reachable items of other collectors are not suspected (in particular if there is one collector); also termination, each item freed once, and the collector is ready again. Refuted otherwise: an item reachable only through a suspected item of another collector is freed (foreign_lost). Callbacks that call mln_gc_remove are not modelled."
  },
  {
   "property": "C54",
   "status": "partial",
   "theorems": [
    "Verif.File.file_cache_partial",
    "Verif.File.refused_node_dangles",
    "Verif.File.path_cached_twice"
   ],
   "note": "Proved for 7-bit paths when the tree node of a file is never refused. Refuted otherwise: a refused node leaves freed memory in the list of unused files (refused_node_dangles, in every state); two paths whose 4-byte words differ by 2^31 break the order of the tree and a held path is cached twice (path_cached_twice)."
  },
  {
   "property": "C55",
   "status": "partial",
   "theorems": [
    "Verif.ThreadPool.pool_once",
    "Verif.ThreadPool.pool_counters",
    "Verif.ThreadPool.create_fails_stuck",
    "Verif.ThreadPool.pool_die_uaf"
   ],
   "note": "Exactly once and FIFO: proved for every schedule in which no handler ends its own thread (pool_die_uaf: then the child reads the freed pool). Counters: proved as long as pthread_create succeeds; create_fails_stuck: after a failure the member stays registered and mln_thread_pool_run never returns."
  },
  {
   "property": "C56",
   "status": "proved",
   "theorems": [
    "Verif.IoThread.iothread_no_use_after_free",
    "Verif.IoThread.iothread_delivery",
    "Verif.IoThread.iothread_once",
    "Verif.IoThread.iothread_wakeup",
    "Verif.IoThread.iothread_wakeup_locked",
    "Verif.IoThread.iothread_recv_drains",
    "Verif.IoThread.iothread_feedback"
   ],
   "note": "For clients whose feedback argument is 0 or odd and that release a kept message after the receive returned (see C73 for the others). Handlers that call send themselves are not modelled."
  },
  {
   "property": "C57",
   "status": "proved",
   "theorems": [
    "Verif.SpinLock.spin_mutual_exclusion",
    "Verif.SpinLock.spin_available",
    "Verif.SpinLock.spin_busy"
   ],
   "note": "Sequentially consistent memory (both builtins are full barriers)."
  },
  {
   "property": "C58",
   "status": "partial",
   "theorems": [
    "Verif.Fec.recover_one",
    "Verif.Fec.restored_eq",
    "Verif.Fec.encode_recovers",
    "Verif.Fec.group_wrap",
    "Verif.Fec.generate_wrap",
    "Verif.Fec.encode_remainder",
    "Verif.Fec.decode_late"
   ],
   "note": "Proved for every group of 1 to 48 packets of 12 to 1442 bytes whose numbers do not pass 65535, every arrival order with repetitions, older packets and later ones inside the mask; byte for byte if the packet has version 2 and the SSRC of the last packet of the group. Refuted: numbers passing 65535 (group_wrap: every such group is undefined behaviour in the encoder), a count that is no multiple of the group size (encode_remainder), a packet numbered behind the mask among the received ones (decode_late)."
  },
  {
   "property": "C59",
   "status": "partial",
   "theorems": [
    "Verif.Alloc.pool_history",
    "Verif.Alloc.pool_history_shm",
    "Verif.Alloc.alloc_ok",
    "Verif.Alloc.free_ok",
    "Verif.Alloc.held_apart",
    "Verif.Alloc.meta_safe",
    "Verif.Alloc.aligned",
    "Verif.Alloc.clsOf_spec",
    "Verif.Alloc.alloc_wraps"
   ],
   "note": "Proved for every history on every tower of pools (over malloc or shared memory), requests below 2^61 bytes: no overlap among blocks of all levels, no allocator record inside a block, alignment 8 over malloc. Refuted for sizes of 2^64 - 147 and more: the size computation wraps and a chunk of at most 144 bytes is used (alloc_wraps)."
  },
  {
   "property": "C60",
   "status": "partial",
   "theorems": [
    "Verif.Alloc.cap_history",
    "Verif.Alloc.cap_respected",
    "Verif.Alloc.cap_large_partial",
    "Verif.Alloc.cap_not_returned",
    "Verif.Alloc.cap_leak"
   ],
   "note": "The limit is never exceeded (every history), and blocks above 2 MB are taken back exactly. Refuted: a freed block of up to 2 MB leaves its chunk charged (cap_not_returned, chunks go back after 1024 emptyings only), and a request the parent refuses stays charged for ever (cap_leak)."
  },
  {
   "property": "C61",
   "status": "partial",
   "theorems": [
    "Verif.Shm.shm_history",
    "Verif.Shm.shm_alloc",
    "Verif.Shm.shm_free",
    "Verif.Shm.shm_disjoint",
    "Verif.Shm.search_spec",
    "Verif.Shm.allowed_spec",
    "Verif.Shm.setBitmap_spec",
    "Verif.Shm.large_wraps",
    "Verif.Shm.small_pool_useless"
   ],
   "note": "Proved for every history with requests below 2^64 - 4200 bytes, including that a refusal means no free run and no gap (Full). Refuted for larger requests (large_wraps); a pool of between 2 MB + 1 KB and 2 MB + 2 KB is accepted and can hold nothing (small_pool_useless)."
  },
  {
   "property": "C62",
   "status": "proved",
   "theorems": [
    "Verif.BigEndian.decode_encode",
    "Verif.BigEndian.encode_spec",
    "Verif.BigEndian.decode_spec",
    "Verif.BigEndian.encode_wide"
   ],
   "note": "all values, up to eight bytes; more bytes are undefined shifts (proved)"
  },
  {
   "property": "C63",
   "status": "partial",
   "theorems": [
    "Verif.Rsa.public_private_partial",
    "Verif.Rsa.private_public_partial",
    "Verif.Rsa.long_text_refused",
    "Verif.Rsa.empty_text",
    "Verif.Rsa.decrypted_nonempty"
   ],
   "note": "Proved for one block of text of at least one octet and moduli of at most 4096 bits that are not too small for their octet length; both exponentiation paths. Refuted for the empty text (empty_text).."
  },
  {
   "property": "C64",
   "status": "proved",
   "theorems": [
    "Verif.Aes.encrypt_fips",
    "Verif.Aes.gmul_ginv",
    "Verif.Aes.init_short"
   ],
   "note": "all keys and blocks; specification written from FIPS 197"
  },
  {
   "property": "C65",
   "status": "proved",
   "theorems": [
    "Verif.Des.des_fips"
   ],
   "note": "all keys and blocks; specification written from FIPS 46-3"
  },
  {
   "property": "C66",
   "status": "partial",
   "theorems": [
    "Verif.Str.strcasecmp_zero_partial",
    "Verif.Str.strcasecmp_zero_text",
    "Verif.Str.strcasecmp_nul"
   ],
   "note": "code defect: bytes after an embedded NUL are ignored (witness); exact behaviour characterised, the property proved for strings without NUL"
  },
  {
   "property": "C67",
   "status": "proved",
   "theorems": [
    "Verif.Str.trim_spec",
    "Verif.Str.trimmed_unique",
    "Verif.Str.trim_idem",
    "Verif.Str.upper_spec",
    "Verif.Str.lower_spec",
    "Verif.Str.case_length",
    "Verif.Str.case_idem",
    "Verif.Str.strcasecmp_lower"
   ],
   "note": "all strings and masks"
  },
  {
   "property": "C68",
   "status": "proved",
   "theorems": [
    "Verif.Str.concat_spec",
    "Verif.Str.concat_size"
   ],
   "note": "all optional strings"
  },
  {
   "property": "C69",
   "status": "partial",
   "theorems": [
    "Verif.Bn.dup_partial",
    "Verif.Bn.dup_zeroed",
    "Verif.Bn.dup_add_wrong"
   ],
   "note": "Sign, length, limbs in use and comparison are proved. dup_add_wrong shows the code defect: addition reads the limbs above the length, which the duplicate leaves uninitialised. With zeroed memory the duplicate is identical (dup_zeroed)."
  },
  {
   "property": "C70",
   "status": "proved",
   "theorems": [
    "Verif.Asn1.setof_canonical",
    "Verif.Asn1.setofCmp_sort"
   ],
   "note": "qsort is any function that returns a sorted permutation."
  },
  {
   "property": "C71",
   "status": "proved",
   "theorems": [
    "Verif.Asn1.bitContent_spec"
   ],
   "note": ""
  },
  {
   "property": "C72",
   "status": "partial",
   "theorems": [
    "Verif.Asn1.encodePrim_spec",
    "Verif.Asn1.encodeCons_spec",
    "Verif.Asn1.merge_spec",
    "Verif.Asn1.addContent_after_failure",
    "Verif.Asn1.merge_failure_overflow"
   ],
   "note": "Proved when allocations succeed. Code defect: after a failed allocation in mln_asn1_encode_add_content or mln_asn1_encode_merge the next call writes past its buffer (proved for every such state)."
  },
  {
   "property": "C73",
   "status": "partial",
   "theorems": [
    "Verif.IoThread.iothread_no_use_after_free",
    "Verif.IoThread.iothread_even_feedback_use_after_free",
    "Verif.IoThread.iothread_early_release_use_after_free"
   ],
   "note": "Holds under the client rules of C56. Refuted for every even non-zero feedback value (the field has one bit) and for a release that comes before the receiver has looked at the message again."
  },
  {
   "property": "C74",
   "status": "partial",
   "theorems": [
    "Verif.SpinLock.spin_xchg_mutual_exclusion_partial",
    "Verif.SpinLock.spin_xchg_trylock_inverted",
    "Verif.SpinLock.spin_xchg_mutual_exclusion_false",
    "Verif.SpinLock.spin_xchg_lock_lost",
    "Verif.SpinLock.spin_xchg_available_partial"
   ],
   "note": "Proved for lock and unlock alone. Refuted with trylock: its result is inverted against the manual, so it reports success on a taken lock and takes a free lock while reporting failure."
  },
  {
   "property": "C75",
   "status": "proved",
   "theorems": [
    "Verif.Cron.cron_not_before",
    "Verif.Cron.cron_strictly_later",
    "Verif.Cron.cron_every_minute",
    "Verif.Cron.cron_too_short"
   ],
   "note": ""
  },
  {
   "property": "C76",
   "status": "proved",
   "theorems": [
    "Verif.Hash.hash_frees_once"
   ],
   "note": ""
  },
  {
   "property": "C77",
   "status": "proved",
   "theorems": [
    "Verif.Hash.hash_refines"
   ],
   "note": ""
  },
  {
   "property": "C78",
   "status": "proved",
   "theorems": [
    "Verif.Json.json_encode_safe",
    "Verif.Json.encode_huge"
   ],
   "note": ""
  },
  {
   "property": "C79",
   "status": "partial",
   "theorems": [
    "Verif.Json.decode_safe_partial",
    "Verif.Json.decode_open",
    "Verif.Json.decode_exponent",
    "Verif.Json.string_overflow"
   ],
   "note": "Proved for texts without NUL byte, without ten digits in a row and not ending in a blank; an opening brace followed by blanks only reads behind the text, an exponent of ten digits overflows an int."
  },
  {
   "property": "C80",
   "status": "proved",
   "theorems": [
    "Verif.Json.policy_enforced"
   ],
   "note": ""
  },
  {
   "property": "C81",
   "status": "proved",
   "theorems": [
    "Verif.Json.json_object_map",
    "Verif.Json.update_get",
    "Verif.Json.search_get"
   ],
   "note": "The object is the list of its pairs in the order of insertion; C325 shows that the red-black tree is such a list for 7-bit keys."
  },
  {
   "property": "C82",
   "status": "proved",
   "theorems": [
    "Verif.ThreadPool.pool_counters"
   ],
   "note": ""
  },
  {
   "property": "C83",
   "status": "proved",
   "theorems": [
    "Verif.ThreadPool.pool_worker",
    "Verif.ThreadPool.max_wraps"
   ],
   "note": "max_wraps: with max = 2^32 - 1 there is never a child."
  },
  {
   "property": "C84",
   "status": "partial",
   "theorems": [
    "Verif.ThreadPool.add_fails_partial",
    "Verif.ThreadPool.add_fails_queued",
    "Verif.ThreadPool.add_fails_handled"
   ],
   "note": "Holds when the allocation of the resource node fails; refuted whenever the allocation of the member or pthread_create fails: the resource stays queued and is handled."
  },
  {
   "property": "C85",
   "status": "partial",
   "theorems": [
    "Verif.Alloc.realloc_same",
    "Verif.Alloc.realloc_other_overrun"
   ],
   "note": "Proved for blocks of the same pool. Refuted for blocks of another pool that are larger than the new block: the whole old block is copied over its end."
  },
  {
   "property": "C86",
   "status": "partial",
   "theorems": [
    "Verif.Alloc.available_pool",
    "Verif.Shm.available_partial",
    "Verif.Shm.available_empty",
    "Verif.Shm.available_two"
   ],
   "note": "Proved for pools over malloc or another pool, and for a shared pool with one bitmap block. Refuted for an empty shared pool (available_empty) and for two bitmap blocks (available_two)."
  },
  {
   "property": "C87",
   "status": "partial",
   "theorems": [
    "Verif.Fec.decode_safe_partial",
    "Verif.Fec.decode_overrun",
    "Verif.Fec.decode_late"
   ],
   "note": "Safe when there is not exactly one FEC packet. Refuted: every FEC packet of 26 bytes with one mask bit and a protection length over 1472 overruns the buffer (decode_overrun); a media packet behind the mask gives a negative shift (decode_late)."
  },
  {
   "property": "C88",
   "status": "proved",
   "theorems": [
    "Verif.Fec.recover_none",
    "Verif.Fec.recover_many"
   ],
   "note": ""
  },
  {
   "property": "C89",
   "status": "partial",
   "theorems": [
    "Verif.Gc.clean_garbage_partial",
    "Verif.Gc.live_cut"
   ],
   "note": "Proved if no freed item refers to one that stays. Refuted: an item in use that refers to itself and is referred to by a freed item loses its reference (live_cut)."
  },
  {
   "property": "C90",
   "status": "proved",
   "theorems": [
    "Verif.File.file_open_answers",
    "Verif.File.file_close_evicts"
   ],
   "note": ""
  },
  {
   "property": "C91",
   "status": "proved",
   "theorems": [
    "Verif.File.file_cache_partial",
    "Verif.File.file_destroy_closes"
   ],
   "note": ""
  },
  {
   "property": "C92",
   "status": "partial",
   "theorems": [
    "Verif.Rsa.keyGenerate_spec",
    "Verif.Rsa.generated_round_trip_partial",
    "Verif.Rsa.generated_useless",
    "Verif.Rsa.keyGenerate_refused",
    "Verif.Rsa.short_modulus_useless"
   ],
   "note": "For 89 to 4096 bits, when the two numbers drawn are prime: the keys satisfy the RSA equations (keyGenerate_spec); proved to decrypt for bits of 19 to 31 modulo 32 and for multiples of 64; refuted for bits of 1 to 17 modulo 32 and for moduli one bit longer than a multiple of 32: no cipher text decrypts (generated_useless). Open: bits of 18 modulo 32 and above 4096."
  },
  {
   "property": "C93",
   "status": "partial",
   "theorems": [
    "Verif.Rsa.padding_from_first"
   ],
   "note": "Refuted for every rand_r: each octet of the padding seeds the next, so the first determines all others."
  },
  {
   "property": "C94",
   "status": "partial",
   "theorems": [
    "Verif.Rsa.public_private_partial"
   ],
   "note": "Refuted: for every key pair and text covered, the buffer of the caller holds the padded plain text afterwards."
  },
  {
   "property": "C95",
   "status": "partial",
   "theorems": [
    "Verif.Bn.prime_partial",
    "Verif.Bn.rounds_prime",
    "Verif.Bn.prime_refused",
    "Verif.Bn.randomPrime_spec",
    "Verif.Bn.witness_spec"
   ],
   "note": "Proved for widths of 3 to 4096 bits. Widths of 4097 to 4112 bits are accepted by the code but the modular power is only covered up to 4096 bits."
  },
  {
   "property": "C96",
   "status": "partial",
   "theorems": [
    "Verif.Bn.candidates_few"
   ],
   "note": "Refuted for every rand_r and every width that is no multiple of 32: at most 2^32 candidates."
  },
  {
   "property": "C97",
   "status": "partial",
   "theorems": [
    "Verif.Bn.prime_composite",
    "Verif.Bn.prime_partial"
   ],
   "note": "Refuted with a witness (25 is returned for bases drawn as 7); proved is that the number passed the strong test for the bases drawn."
  },
  {
   "property": "C98",
   "status": "partial",
   "theorems": [
    "Verif.Fheap.retime_safe_partial",
    "Verif.Fheap.retime_overflow",
    "Verif.Fheap.retime_overflow_history",
    "Verif.Fheap.step_cases"
   ],
   "note": "holds for at most 65 nodes; refuted for every heap of 66 or more nodes: the extracted node keeps its degree, and renewing the timeout that is due next with later and later times always ends with a write beside the table of 65 on the stack"
  },
  {
   "property": "C99",
   "status": "proved",
   "theorems": [
    "Verif.Regexp.matches_inside",
    "Verif.Regexp.left_over",
    "Verif.Regexp.here_good"
   ],
   "note": "for every pattern and flag of the whole matcher"
  },
  {
   "property": "C100",
   "status": "proved",
   "theorems": [
    "Verif.Regexp.equal_items",
    "Verif.Regexp.match_items"
   ],
   "note": "mln_reg_equal for every pattern of plain bytes, escapes and dots that does not end in an escaped dollar sign; mln_reg_match for plain bytes and dots, patterns with escapes are C101, bytes above 127 are C102"
  },
  {
   "property": "C101",
   "status": "partial",
   "theorems": [
    "Verif.Regexp.match_items",
    "Verif.Regexp.match_lost"
   ],
   "note": "holds for patterns of plain bytes and dots; refuted for every pattern with an escape: the search stops when less text is left than the pattern has bytes, and the second of two adjacent matches is lost"
  },
  {
   "property": "C102",
   "status": "partial",
   "theorems": [
    "Verif.Regexp.equal_items",
    "Verif.Regexp.equal_high"
   ],
   "note": "holds for bytes below 128; refuted for every pattern with a byte above 127 among plain items: it is found in no text at all (char taken as signed)"
  },
  {
   "property": "C103",
   "status": "partial",
   "theorems": [
    "Verif.Regexp.equal_items",
    "Verif.Regexp.dollar_value",
    "Verif.Regexp.empty_value"
   ],
   "note": "holds for patterns of single bytes that do not end in an escaped dollar sign; refuted for all that do: the value is the number of bytes left behind the match; for the empty pattern it is the length of the text"
  },
  {
   "property": "C104",
   "status": "partial",
   "theorems": [
    "Verif.Regexp.count_digit_partial",
    "Verif.Regexp.count_text",
    "Verif.Regexp.limit_base11",
    "Verif.Regexp.count_larger",
    "Verif.Regexp.count_refused",
    "Verif.Regexp.equal_open",
    "Verif.Regexp.equal_open_digit"
   ],
   "note": "holds for one digit, also for x{N,}; counts are read in base 11, so x{N} is refused on a text of N bytes x for every N from 10 on"
  },
  {
   "property": "C105",
   "status": "partial",
   "theorems": [
    "Verif.Regexp.star_everywhere",
    "Verif.Regexp.star_keeps",
    "Verif.Regexp.plus_found",
    "Verif.Regexp.dot_question"
   ],
   "note": "refuted: a pattern that starts with a starred item is found in every text; x+r is found in every text of nothing but x, for every r; x*x has no match in x; .? takes no byte but 170"
  },
  {
   "property": "C106",
   "status": "partial",
   "theorems": [
    "Verif.Regexp.or_skips",
    "Verif.Regexp.or_found"
   ],
   "note": "refuted for every pattern x|yz: the expression after the last alternative is skipped unread, x|yz is found in y"
  },
  {
   "property": "C107",
   "status": "partial",
   "theorems": [
    "Verif.Regexp.stale_captures",
    "Verif.Regexp.match_items"
   ],
   "note": "holds for patterns without groups made of plain bytes and dots; refuted for (x)y on every text without xy: one string is reported per x"
  },
  {
   "property": "C108",
   "status": "partial",
   "theorems": [
    "Verif.Regexp.equal_items",
    "Verif.Regexp.match_items",
    "Verif.Regexp.count_text",
    "Verif.Regexp.endless"
   ],
   "note": "holds for patterns of single bytes and for counted bytes; refuted: (x*)* never returns on any text that has a byte other than x"
  },
  {
   "property": "C109",
   "status": "proved",
   "theorems": [
    "Verif.Http.parse_chunks",
    "Verif.Http.parse_split",
    "Verif.Http.parse_ends"
   ],
   "note": "for every chain, state and allocation outcome; a handler must look at bytes only, and for the cut into calls must leave the mark of complete headers when it asks for more; the end is shown for the parser on bytes with memory for the line buffers"
  },
  {
   "property": "C110",
   "status": "partial",
   "theorems": [
    "Verif.Http.parse_no_error",
    "Verif.Http.parse_bad_line",
    "Verif.Http.generate_unknown"
   ],
   "note": "refuted: without a handler mln_http_parse never returns M_HTTP_RET_ERROR (the precedence of = and == in line 137); every first line that is neither request nor status line gives M_HTTP_RET_DONE with the type unknown, and generating such a message follows a pointer that was never set; what holds is that the error field is set to 400"
  },
  {
   "property": "C111",
   "status": "proved",
   "theorems": [
    "Verif.Http.generate_spec",
    "Verif.Http.writeAll_spec",
    "Verif.Http.write_spec"
   ],
   "note": ""
  },
  {
   "property": "C112",
   "status": "partial",
   "theorems": [
    "Verif.Http.generate_spec",
    "Verif.Http.generate_twice"
   ],
   "note": "holds after a message with a body; refuted for every message without one: the tail given back is NULL and is followed by the next call"
  },
  {
   "property": "C113",
   "status": "proved",
   "theorems": [
    "Verif.Http.round_trip",
    "Verif.Http.parse_message"
   ],
   "note": "with memory; a uri that is not set arrives as /; the text of a response arrives as that of the table"
  },
  {
   "property": "C114",
   "status": "partial",
   "theorems": [
    "Verif.Http.round_trip",
    "Verif.Http.value_splits",
    "Verif.Http.value_injects"
   ],
   "note": "holds for values on one line; refuted: a value with a line end in it is the same message as one with two fields, for every message and every second field"
  },
  {
   "property": "C115",
   "status": "proved",
   "theorems": [
    "Verif.Http.set_get",
    "Verif.Http.iterator_spec",
    "Verif.Http.hit_spec"
   ],
   "note": ""
  },
  {
   "property": "C116",
   "status": "partial",
   "theorems": [
    "Verif.Http.get_spec",
    "Verif.Http.bucket_case",
    "Verif.Http.get_other_case"
   ],
   "note": "refuted: a field is found exactly when the numbers of capital letters agree modulo 31 (the bucket is computed with case), so a name of fewer than 31 letters with another number of capital letters is never found, and setting it adds a second field"
  },
  {
   "property": "C117",
   "status": "partial",
   "theorems": [
    "Verif.Http.remove_all_partial",
    "Verif.Http.remove_stops",
    "Verif.Http.fieldRemove_spec"
   ],
   "note": "holds when every field of the name has a value; refuted for every table where the first field of the name has none: nothing is removed"
  },
  {
   "property": "C118",
   "status": "partial",
   "theorems": [
    "Verif.Http.status_wraps",
    "Verif.Http.status_wrong"
   ],
   "note": "the number is read modulo 2^32 for every list of digits; 4294967496 is read as 200"
  },
  {
   "property": "C119",
   "status": "proved",
   "theorems": [
    "Verif.Http.headline_sound",
    "Verif.Http.field_sound"
   ],
   "note": ""
  },
  {
   "property": "C120",
   "status": "partial",
   "theorems": [
    "Verif.Conn.send_prefix",
    "Verif.Conn.send_good_partial",
    "Verif.Conn.empty_last_lost",
    "Verif.Conn.send_drops",
    "Verif.Conn.send_value"
   ],
   "note": "for every queue and socket the bytes taken are a prefix of those queued and either the rest is still queued or the queue is empty; nothing is lost when all buffers are in memory and none is empty and marked last; refuted otherwise: a queue that begins with such a buffer is dropped whole"
  },
  {
   "property": "C121",
   "status": "partial",
   "theorems": [
    "Verif.Conn.finish_partial",
    "Verif.Conn.finish_wrong"
   ],
   "note": "holds for a socket that takes all that is offered; refuted for every buffer marked last of which the socket takes a part only"
  },
  {
   "property": "C122",
   "status": "partial",
   "theorems": [
    "Verif.Conn.file_behind_partial",
    "Verif.Conn.file_lost",
    "Verif.Conn.file_behind_lost",
    "Verif.Conn.send_nonblock"
   ],
   "note": "holds for a file behind a buffer in memory on a socket that blocks; refuted for every queue that begins with a file: it is dropped; on a socket that does not block also for every file behind a buffer in memory"
  },
  {
   "property": "C123",
   "status": "proved",
   "theorems": [
    "Verif.Conn.recv_spec",
    "Verif.Conn.recv_value"
   ],
   "note": "bytes received when the allocation or the temporary file fails are not counted"
  },
  {
   "property": "C124",
   "status": "proved",
   "theorems": [
    "Verif.Lex.token_lexeme",
    "Verif.Lex.token_total",
    "Verif.Lex.run_lexes",
    "Verif.Lex.read_write"
   ],
   "note": "memory never runs out; read never fails"
  },
  {
   "property": "C125",
   "status": "proved",
   "theorems": [
    "Verif.Lex.numType_iff",
    "Verif.Lex.token_lexeme",
    "Verif.Lex.token_total",
    "Verif.Lex.byte_kinds"
   ],
   "note": ""
  },
  {
   "property": "C126",
   "status": "partial",
   "theorems": [
    "Verif.Lex.line_partial",
    "Verif.Lex.last_line",
    "Verif.Lex.line_false",
    "Verif.Lex.file_false",
    "Verif.Lex.command_line"
   ],
   "note": "holds for a token that something follows in a single input without preprocessing; refuted: every word or number that ends a buffer, and the end itself, is reported in line 1, in files without the name of the file; the newline that ends #if, #define, #undef is not counted"
  },
  {
   "property": "C127",
   "status": "partial",
   "theorems": [
    "Verif.Lex.token_lexeme",
    "Verif.Lex.eof_inside",
    "Verif.Lex.err_inside",
    "Verif.Lex.eof_swallowed"
   ],
   "note": "holds for texts without the bytes 254 and 255; refuted: the byte 255 is the end of the input wherever it stands (and more tokens follow), behind a word it disappears; the byte 254 makes token fail"
  },
  {
   "property": "C128",
   "status": "partial",
   "theorems": [
    "Verif.Lex.token_total",
    "Verif.Lex.pp_next",
    "Verif.Lex.define_hangs",
    "Verif.Lex.recursion_hangs"
   ],
   "note": "holds without preprocessing, and with preprocessing for every text that has a next token; refuted: #define or #undef with any name at the end of the input, and a macro whose text is the macro itself, never return"
  },
  {
   "property": "C129",
   "status": "proved",
   "theorems": [
    "Verif.Lex.pp_next",
    "Verif.Lex.macroValue_ok",
    "Verif.Lex.refines_else",
    "Verif.Lex.refines_endif",
    "Verif.Lex.refines_if",
    "Verif.Lex.refines_ifSkip"
   ],
   "note": "for texts made of tokens, #if, #else, #endif, #define (also over several lines), #undef (in branches that are taken) and macros, each with blanks as in the specification Next; #include is not part of it"
  },
  {
   "property": "C130",
   "status": "partial",
   "theorems": [
    "Verif.Lex.pp_next",
    "Verif.Lex.undef_always",
    "Verif.Lex.ignored_undef",
    "Verif.Lex.ignored_include",
    "Verif.Lex.ignored_unknown"
   ],
   "note": "holds for tokens, #if, #else, #endif and #define (rules skip, ifSkip, elseSkip, defineSkip of Next); refuted: #undef is executed in every branch, files are included and macros looked up in branches that are not taken"
  },
  {
   "property": "C131",
   "status": "partial",
   "theorems": [
    "Verif.Lex.token_total",
    "Verif.Lex.err_inside",
    "Verif.Lex.redefine"
   ],
   "note": "holds without preprocessing for texts without the bytes 254 and 255; refuted: the byte 254, and #define of any macro that is defined already"
  },
  {
   "property": "C132",
   "status": "proved",
   "theorems": [
    "Verif.Regexp.equal_elems"
   ],
   "note": "members of classes are plain bytes other than the minus sign, escapes and ranges of plain bytes below 128; other bytes are C135 and C102; classes are not repeated"
  },
  {
   "property": "C133",
   "status": "proved",
   "theorems": [
    "Verif.Regexp.equal_plus",
    "Verif.Regexp.plus_needs",
    "Verif.Regexp.equal_alts"
   ],
   "note": "for plain bytes; what follows them is C105 and C106"
  },
  {
   "property": "C134",
   "status": "partial",
   "theorems": [
    "Verif.Regexp.caret_inside",
    "Verif.Regexp.caret_byte",
    "Verif.Regexp.dollar_inside"
   ],
   "note": "holds for ^ and texts without the byte A7; refuted: x^ is found in x followed by the byte A7 (the code of the caret), and x$r is found in x for every r"
  },
  {
   "property": "C135",
   "status": "partial",
   "theorems": [
    "Verif.Regexp.equal_elems",
    "Verif.Regexp.dot_class"
   ],
   "note": "holds for plain bytes; refuted: [.], [+], [*], [?], [$] and [|] are found in every text, even in the empty one"
  },
  {
   "property": "C136",
   "status": "proved",
   "theorems": [
    "Verif.Expr.run_eval",
    "Verif.Expr.parses"
   ],
   "note": "for texts without the bytes 254 and 255 that end in a blank; numbers as in C140; doubles are an unknown function of their text; memory does not run out"
  },
  {
   "property": "C137",
   "status": "partial",
   "theorems": [
    "Verif.Expr.if_then",
    "Verif.Expr.if_no_else",
    "Verif.Expr.else_taken"
   ],
   "note": "holds for a condition that is true; refuted: with a false condition the whole text fails, and if another if..else follows its else branch is run in its place without its condition being evaluated"
  },
  {
   "property": "C138",
   "status": "partial",
   "theorems": [
    "Verif.Expr.run_eval",
    "Verif.Expr.loop_at_end"
   ],
   "note": "holds for texts that end in a blank; refuted: loop a do b end without anything behind it runs b once and then fails, for every callback"
  },
  {
   "property": "C139",
   "status": "partial",
   "theorems": [
    "Verif.Expr.result_usable_partial",
    "Verif.Expr.result_string",
    "Verif.Expr.result_name"
   ],
   "note": "holds if no value is a string constant and the callback gives strings of its own; refuted for every text that is a string constant and for the handler of the manual, which returns the name it is given"
  },
  {
   "property": "C140",
   "status": "partial",
   "theorems": [
    "Verif.Expr.run_eval",
    "Verif.Expr.valInit_const",
    "Verif.Expr.dec_large",
    "Verif.Expr.hex_large",
    "Verif.Expr.oct_long",
    "Verif.Expr.digit_value"
   ],
   "note": "holds for numbers below 2^63 of at most 1023 digits; refuted: larger decimal numbers give 2^63-1, hexadecimal numbers of more than 64 bits give -1, digits behind the 1023rd are ignored"
  },
  {
   "property": "C141",
   "status": "partial",
   "theorems": [
    "Verif.Expr.if_open",
    "Verif.Expr.then_open",
    "Verif.Expr.else_open",
    "Verif.Expr.loop_open",
    "Verif.Expr.call_open",
    "Verif.Expr.ns_open",
    "Verif.Expr.loose_call",
    "Verif.Expr.comma_var",
    "Verif.Expr.comma_const",
    "Verif.Expr.if_without_then",
    "Verif.Expr.loop_without_do",
    "Verif.Expr.word_alone"
   ],
   "note": "holds for calls, conditions and loops that are not closed, with every content: the text fails; refuted: any number of commas, also none, between arguments is taken for one; a comma at the end is passed over behind a variable and refused behind a constant; a namespace without a name is null"
  },
  {
   "property": "C142",
   "status": "partial",
   "theorems": [
    "Verif.Expr.file_eval_partial",
    "Verif.Expr.file_loop",
    "Verif.Expr.rewind_file",
    "Verif.Expr.rewind_outside"
   ],
   "note": "holds for files of every length without loops; refuted: of two nested loops the outer one is not repeated once the inner one has been; a single rewind inside of the buffer comes back to its place"
  },
  {
   "property": "C143",
   "status": "proved",
   "theorems": [
    "Verif.Expr.token_spell",
    "Verif.Expr.quoted_body"
   ],
   "note": ""
  },
  {
   "property": "C144",
   "status": "proved",
   "theorems": [
    "Verif.Err.code_ret",
    "Verif.Err.message_ret",
    "Verif.Err.error_round",
    "Verif.Err.ret_int"
   ],
   "note": "for texts shorter than the buffer by two bytes"
  },
  {
   "property": "C145",
   "status": "partial",
   "theorems": [
    "Verif.Err.error_round",
    "Verif.Err.errorString_ok",
    "Verif.Err.errorString_overflow",
    "Verif.Err.errorString_short",
    "Verif.Err.file_outside"
   ],
   "note": "holds for texts shorter than the buffer by two bytes; refuted: with a text as long as the buffer or longer the byte 0 is written behind the end, with one shorter by a byte the last byte is missing; an index that is not in the table of files is looked up outside of it"
  },
  {
   "property": "C146",
   "status": "partial",
   "theorems": [
    "Verif.Err.ret_zero_partial",
    "Verif.Err.ret_zero"
   ],
   "note": "holds with a table of messages; refuted: without one RET(0) is an error everywhere"
  },
  {
   "property": "C147",
   "status": "proved",
   "theorems": [
    "Verif.Matrix.mul_product",
    "Verif.Matrix.mul_sizes"
   ],
   "note": "doubles are elements of an ordered field: no rounding"
  },
  {
   "property": "C148",
   "status": "proved",
   "theorems": [
    "Verif.Matrix.inverse_ok",
    "Verif.Matrix.inverse_singular",
    "Verif.Matrix.inverse_sizes"
   ],
   "note": "doubles are elements of an ordered field: no rounding"
  },
  {
   "property": "C149",
   "status": "partial",
   "theorems": [
    "Verif.Matrix.inverse_sizes",
    "Verif.Matrix.inverse_ok",
    "Verif.Matrix.inverse_destroys"
   ],
   "note": "holds for matrices that are not square; refuted: whenever there is a result the argument has become the unit matrix"
  },
  {
   "property": "C150",
   "status": "partial",
   "theorems": [
    "Verif.Matrix.inverse_fails",
    "Verif.Matrix.inverse_small",
    "Verif.Matrix.inverse_null"
   ],
   "note": "NULL is given only if a column without an entry of 1e-6 or more is left; refuted: every matrix with entries below 1e-6 in the first column, for every size also invertible ones"
  },
  {
   "property": "C151",
   "status": "proved",
   "theorems": [
    "Verif.Conf.load_ok",
    "Verif.Conf.search_item"
   ],
   "note": "numbers of at most 63 bits, domains not called main; comments with an even number of stars before */"
  },
  {
   "property": "C152",
   "status": "proved",
   "theorems": [
    "Verif.Conf.nested_domain_refused",
    "Verif.Conf.extra_brace_refused",
    "Verif.Conf.no_name_refused",
    "Verif.Conf.bad_command_refused"
   ],
   "note": ""
  },
  {
   "property": "C153",
   "status": "partial",
   "theorems": [
    "Verif.Conf.bad_command_refused",
    "Verif.Conf.open_string_refused",
    "Verif.Conf.open_domain_accepted",
    "Verif.Conf.load_ok"
   ],
   "note": "holds for commands; refuted for domains: one that is not closed is accepted as if it were, for every content; and for comments: one that is not closed is accepted (load_ok covers this)"
  },
  {
   "property": "C154",
   "status": "partial",
   "theorems": [
    "Verif.Conf.load_ok",
    "Verif.Conf.odd_stars_go_on"
   ],
   "note": "holds if there is an even number of stars before */; refuted: for every comment with an odd number of them what follows is lost without a message"
  },
  {
   "property": "C155",
   "status": "partial",
   "theorems": [
    "Verif.Conf.load_ok",
    "Verif.Conf.main_domain_refused"
   ],
   "note": "holds for names other than main; refuted: a domain main makes loading fail, whatever is in it"
  },
  {
   "property": "C156",
   "status": "partial",
   "theorems": [
    "Verif.Conf.reload_good",
    "Verif.Conf.runHooks_iff",
    "Verif.Conf.reload_bad"
   ],
   "note": "holds for good files; refuted: for every file that is refused it returns 0 if the hooks agree, and there is no configuration any more"
  },
  {
   "property": "C157",
   "status": "partial",
   "theorems": [
    "Verif.Conf.atol_signed",
    "Verif.Conf.load_ok",
    "Verif.Conf.large_number"
   ],
   "note": "holds for numbers of at most 63 bits; refuted: every larger one becomes 2^63-1 without a message"
  },
  {
   "property": "C158",
   "status": "proved",
   "theorems": [
    "Verif.Event.memory_safe"
   ],
   "note": "for the epoll version without kqueue and select; allocations succeed"
  },
  {
   "property": "C159",
   "status": "proved",
   "theorems": [
    "Verif.Event.handlers_given",
    "Verif.Event.cleared_silent"
   ],
   "note": ""
  },
  {
   "property": "C160",
   "status": "partial",
   "theorems": [
    "Verif.Event.timeouts_due",
    "Verif.Event.timeout_overflow"
   ],
   "note": "proved for all histories; refuted: every timeout of 2147484 ms or more is a signed overflow"
  },
  {
   "property": "C161",
   "status": "partial",
   "theorems": [
    "Verif.Event.timers_punctual_partial",
    "Verif.Event.timers_called_partial",
    "Verif.Event.timer_early"
   ],
   "note": "holds for timers of less than 4294968 ms; refuted: every longer one is called early, because its microseconds are counted in 32 bits"
  },
  {
   "property": "C162",
   "status": "partial",
   "theorems": [
    "Verif.Event.oneshot_once",
    "Verif.Event.error_again"
   ],
   "note": "proved for M_EV_RECV and M_EV_SEND if the descriptor is never set without events; refuted: the handler of a oneshot M_EV_ERROR is called in every round"
  },
  {
   "property": "C163",
   "status": "partial",
   "theorems": [
    "Verif.Event.set_nothing",
    "Verif.Event.append_oneshot",
    "Verif.Event.busy_lost",
    "Verif.Event.asked_partial",
    "Verif.Event.delivered_partial"
   ],
   "note": "proved for lasting events: epoll is asked for exactly what is set, and what it reports comes to its handler in the next round, unless the program clears the descriptor, takes the handler away or ends the loop, and if the lock is free; refuted in three ways: after a first mln_event_fd_set without events nothing is ever seen until the descriptor is cleared; M_EV_APPEND of a oneshot event to a lasting one ends both with the first event; an event of a descriptor with a timeout is forgotten if the lock is taken when it is to be handled"
  },
  {
   "property": "C164",
   "status": "partial",
   "theorems": [
    "Verif.Event.hangup_spins"
   ],
   "note": "refuted: with EPOLLHUP alone no handler is called in any number of rounds, and epoll reports it again at once"
  },
  {
   "property": "C165",
   "status": "partial",
   "theorems": [
    "Verif.Rsa.sign_verify_partial",
    "Verif.Rsa.generated_sign_verify_partial"
   ],
   "note": "for keys whose modulus has room for the padding: at least 2*256^(4*limbs-2); generated keys of 18 to 31 bits modulo 32, multiples of 64, and multiples of 32 with a modulus of exactly so many bits. Missing: the other sizes, whose padded blocks are larger than the modulus"
  },
  {
   "property": "C166",
   "status": "proved",
   "theorems": [
    "Verif.Rsa.sign_type"
   ],
   "note": ""
  },
  {
   "property": "C167",
   "status": "proved",
   "theorems": [
    "Verif.Rsa.binds",
    "Verif.Rsa.accepted"
   ],
   "note": ""
  },
  {
   "property": "C168",
   "status": "partial",
   "theorems": [
    "Verif.Rsa.longer_accepted"
   ],
   "note": "refuted: for every key pair and all messages, a signature followed by any other of the same key is accepted"
  },
  {
   "property": "C169",
   "status": "partial",
   "theorems": [
    "Verif.Rsa.forged"
   ],
   "note": "refuted: for every exponent E and modulus of L limbs with E*(34+(E+7)/8) <= 4*(L-1) (E=3 from 28 limbs on) there is for every message a signature that every such key accepts"
  },
  {
   "property": "C170",
   "status": "partial",
   "theorems": [
    "Verif.Rsa.verify_defined_partial",
    "Verif.Rsa.reads_past"
   ],
   "note": "holds if there is an octet behind the signature; refuted: the signature of zeros is read one octet past its end, for every key and message"
  },
  {
   "property": "C171",
   "status": "partial",
   "theorems": [
    "Verif.Rsa.forged"
   ],
   "note": "refuted: the accepted signatures of forged are changed by verification"
  },
  {
   "property": "C172",
   "status": "proved",
   "theorems": [
    "Verif.Ipc.delivered",
    "Verif.Ipc.delivered_all",
    "Verif.Ipc.sent",
    "Verif.Ipc.end_to_end"
   ],
   "note": "memory is there, and the connection is not given up; wire is what the socket has taken"
  },
  {
   "property": "C173",
   "status": "partial",
   "theorems": [
    "Verif.Ipc.lost_at_close"
   ],
   "note": "refuted for every stream whose end arrives in the same wakeup as its last piece; if the end arrives later, C172 applies"
  },
  {
   "property": "C174",
   "status": "partial",
   "theorems": [
    "Verif.Ipc.dropped",
    "Verif.Ipc.hangs"
   ],
   "note": "dropped: for messages that have arrived as a whole when malloc fails; hangs: if a part is still to come the loop never ends, for every such part"
  },
  {
   "property": "C175",
   "status": "partial",
   "theorems": [
    "Verif.Ipc.short_bad",
    "Verif.Ipc.safe_partial"
   ],
   "note": "refuted: a length below four is not refused, and the type is read past the end of the object; safe_partial covers every stream in which the lengths are at least four"
  },
  {
   "property": "C176",
   "status": "partial",
   "theorems": [
    "Verif.Ipc.prepare_ok",
    "Verif.Ipc.too_long"
   ],
   "note": "prepare_ok: below 4 GiB; too_long: from 2^32-4 bytes on the message is written past the end of the buffer"
  },
  {
   "property": "C177",
   "status": "proved",
   "theorems": [
    "Verif.Ipc.setHandlers_find",
    "Verif.Ipc.handlerSet_find"
   ],
   "note": ""
  },
  {
   "property": "C178",
   "status": "partial",
   "theorems": [
    "Verif.Ipc.handler_kept_partial",
    "Verif.Ipc.handler_lost"
   ],
   "note": "refuted: if there is no memory for the node of the tree, the old handler is gone already"
  },
  {
   "property": "C179",
   "status": "proved",
   "theorems": [
    "Verif.Log.process_writes",
    "Verif.Log.sysLog_writes"
   ],
   "note": "the log file is not the standard error output; writes take all bytes"
  },
  {
   "property": "C180",
   "status": "proved",
   "theorems": [
    "Verif.Log.below_silent"
   ],
   "note": ""
  },
  {
   "property": "C181",
   "status": "partial",
   "theorems": [
    "Verif.Log.percent_cut",
    "Verif.Log.process_writes"
   ],
   "note": "refuted: after a percent sign that no known letter follows, the rest of every message is replaced by an error text; process_writes covers the others"
  },
  {
   "property": "C182",
   "status": "partial",
   "theorems": [
    "Verif.Log.double_bad",
    "Verif.Log.process_writes"
   ],
   "note": "refuted: from 10^249 on bytes behind the buffer are written; process_writes covers doubles below 10^246"
  },
  {
   "property": "C183",
   "status": "proved",
   "theorems": [
    "Verif.Log.setLevel_ok",
    "Verif.Log.start_refuses"
   ],
   "note": ""
  },
  {
   "property": "C184",
   "status": "partial",
   "theorems": [
    "Verif.Log.reload_ok",
    "Verif.Log.reload_hangs"
   ],
   "note": "refuted: with anything that does not name a level the error is logged while the lock is held, which never returns; reload_ok covers the others, provided the path does no harm (C185)"
  },
  {
   "property": "C185",
   "status": "partial",
   "theorems": [
    "Verif.Log.path_taken_partial",
    "Verif.Log.long_dir_bad",
    "Verif.Log.dot_file_bad",
    "Verif.Log.long_path_bad"
   ],
   "note": "refuted for directories of 512 bytes and more, for names that begin with a dot and have no slash, and for relative paths of more than 1024 bytes; path_taken_partial covers the other paths of up to 1022 bytes"
  },
  {
   "property": "C186",
   "status": "proved",
   "theorems": [
    "Verif.Log.reload_keeps"
   ],
   "note": ""
  },
  {
   "property": "C187",
   "status": "proved",
   "theorems": [
    "Verif.Pg.parse_value"
   ],
   "note": "numbers of tokens instead of names; allocation does not fail"
  },
  {
   "property": "C188",
   "status": "partial",
   "theorems": [
    "Verif.Pg.parse_safe_partial",
    "Verif.Pg.parse_bad"
   ],
   "note": "refuted: mln_pg_goto makes no state for an item before which all items are complete, so the table of the usual grammar for sums and products has shifts to state -1, and a * a is read outside the table; parse_safe_partial covers all tables without such shifts"
  },
  {
   "property": "C189",
   "status": "partial",
   "theorems": [
    "Verif.Pg.sentence_refused",
    "Verif.Pg.parse_bad",
    "Verif.Pg.parse_value",
    "Verif.Pg.parse_complete_partial",
    "Verif.Pg.testG_complete"
   ],
   "note": "refuted: tokens behind one that may be empty are not taken into the lookahead; the converse is C187; parse_complete_partial proves it for the grammars without the three flaws (C188, C189, C190), conditions that can be checked (goodB_ok)"
  },
  {
   "property": "C190",
   "status": "partial",
   "theorems": [
    "Verif.Pg.order_matters",
    "Verif.Pg.Derives.perm"
   ],
   "note": "refuted: with the empty production listed first the terminals of the later ones get no FIRST set"
  },
  {
   "property": "C191",
   "status": "partial",
   "theorems": [
    "Verif.Pg.failure_hidden",
    "Verif.Pg.parse_value"
   ],
   "note": "refuted: the result of the machine that calls the functions is not looked at when the text has been read, and the data of another factor is returned; parse_value covers functions that do not fail"
  },
  {
   "property": "C192",
   "status": "proved",
   "theorems": [
    "Verif.Pg.nullable_correct",
    "Verif.Pg.nullable_ends"
   ],
   "note": ""
  },
  {
   "property": "C193",
   "status": "partial",
   "theorems": [
    "Verif.Pg.first_sound",
    "Verif.Pg.first_complete_partial",
    "Verif.Pg.first_of_text_partial",
    "Verif.Pg.first_ends",
    "Verif.Pg.first_missing",
    "Verif.Pg.first_complete_ordered",
    "Verif.Pg.emptyLast_of"
   ],
   "note": "complete only if every terminal stands in a production of a token that cannot be empty; refuted for the others"
  },
  {
   "property": "C194",
   "status": "partial",
   "theorems": [
    "Verif.Pg.cmp_both_greater",
    "Verif.Pg.state_twice",
    "Verif.Pg.cmp_eq_zero"
   ],
   "note": "refuted: two states can each be greater than the other, and a state is made twice; cmp_eq_zero: states taken for the same are the same"
  },
  {
   "property": "C195",
   "status": "proved",
   "theorems": [
    "Verif.Hash.iterator_all"
   ],
   "note": ""
  },
  {
   "property": "C196",
   "status": "partial",
   "theorems": [
    "Verif.Hash.iterator_endless",
    "Verif.Hash.iterator_all"
   ],
   "note": "refuted: when the last entry of the bucket matches, the context becomes NULL and the next call starts again from the beginning; iterator_all covers loops that test the context"
  },
  {
   "property": "C197",
   "status": "proved",
   "theorems": [
    "Verif.Hash.remove_frees",
    "Verif.Hash.reset_empty"
   ],
   "note": ""
  },
  {
   "property": "C198",
   "status": "proved",
   "theorems": [
    "Verif.Hash.reset_empty"
   ],
   "note": ""
  },
  {
   "property": "C199",
   "status": "proved",
   "theorems": [
    "Verif.Json.number_value"
   ],
   "note": "exact arithmetic instead of double; rounding is not modelled"
  },
  {
   "property": "C200",
   "status": "partial",
   "theorems": [
    "Verif.Json.number_lenient",
    "Verif.Json.number_value"
   ],
   "note": "refuted: 1., 1e, 1E+ and 1.e- are taken for 1"
  },
  {
   "property": "C201",
   "status": "proved",
   "theorems": [
    "Verif.Json.decode_trailing",
    "Verif.Json.decode_colon"
   ],
   "note": "texts whose numbers are integers, as in C41; default policy"
  },
  {
   "property": "C202",
   "status": "partial",
   "theorems": [
    "Verif.Lang.script_executes",
    "Verif.Lang.runs"
   ],
   "note": "for scripts as in Stm.Ok; what happens with the others is in C204 and C208-C210. Operators are a parameter; functions, sets, arrays, goto not modelled"
  },
  {
   "property": "C203",
   "status": "partial",
   "theorems": [
    "Verif.Lang.script_halts_iff",
    "Verif.Lang.script_diverges"
   ],
   "note": "for scripts as in Stm.Ok; refuted for the others by C209 and C210"
  },
  {
   "property": "C204",
   "status": "partial",
   "theorems": [
    "Verif.Lang.script_never_null",
    "Verif.Lang.empty_statement_null",
    "Verif.Lang.empty_statement_later_null",
    "Verif.Lang.empty_case_null",
    "Verif.Lang.empty_parens_null",
    "Verif.Lang.empty_if_null"
   ],
   "note": "proved for scripts as in Stm.Ok; refuted for empty statements, matching cases without statements, empty parentheses and empty conditions of if"
  },
  {
   "property": "C205",
   "status": "partial",
   "theorems": [
    "Verif.Lang.machine_evaluates"
   ],
   "note": "for expressions as in E.Ok: no empty parentheses, and no = between what may be the same variable (C207)"
  },
  {
   "property": "C206",
   "status": "proved",
   "theorems": [
    "Verif.Lang.logic_truth",
    "Verif.Lang.or_skips",
    "Verif.Lang.and_skips"
   ],
   "note": "operands as in E.Ok"
  },
  {
   "property": "C207",
   "status": "partial",
   "theorems": [
    "Verif.Lang.self_assignment_destroys",
    "Verif.Lang.self_assignment_reference",
    "Verif.Lang.double_assignment_destroys"
   ],
   "note": "refuted for every value: the left side is freed before the right side is copied, x becomes nil; C205 covers the other assignments"
  },
  {
   "property": "C208",
   "status": "partial",
   "theorems": [
    "Verif.Lang.comma_statement_runs_first_only",
    "Verif.Lang.comma_statement_reference",
    "Verif.Lang.script_executes"
   ],
   "note": "refuted: only the first expression is evaluated; in parentheses, conditions and for headers all are (C205, C202)"
  },
  {
   "property": "C209",
   "status": "partial",
   "theorems": [
    "Verif.Lang.for_without_condition_tests_init",
    "Verif.Lang.endless_for_stops",
    "Verif.Lang.for_without_condition_reference",
    "Verif.Lang.script_executes"
   ],
   "note": "refuted: the value of the last expression evaluated is taken for the condition; loops with a condition are covered by C202"
  },
  {
   "property": "C210",
   "status": "partial",
   "theorems": [
    "Verif.Lang.continue_leaves_switch_only",
    "Verif.Lang.continue_in_switch_reference",
    "Verif.Lang.default_first_taken",
    "Verif.Lang.default_first_reference",
    "Verif.Lang.script_executes"
   ],
   "note": "refuted: continue only leaves the switch; a default is taken when reached. C202 covers switches with default last and no continue for an outer loop"
  },
  {
   "property": "C211",
   "status": "partial",
   "theorems": [
    "Verif.Lang.operands_read_late",
    "Verif.Lang.machine_evaluates"
   ],
   "note": "refuted: a variable as left operand is read when the operator is applied; machine_evaluates says so in general"
  },
  {
   "property": "C212",
   "status": "proved",
   "theorems": [
    "Verif.Cron.cron_period",
    "Verif.Cron.cron_item_period",
    "Verif.Cron.cron_star_list",
    "Verif.Cron.cron_negative_period",
    "Verif.Cron.cron_large_period",
    "Verif.Cron.cron_week_seven"
   ],
   "note": ""
  },
  {
   "property": "C213",
   "status": "partial",
   "theorems": [
    "Verif.Cron.cron_period_multiple",
    "Verif.Cron.cron_period_unaligned"
   ],
   "note": "False: the period counts from the base (cron_period). For p dividing 60 the result is a multiple of p exactly if the minute of the base is one."
  },
  {
   "property": "C214",
   "status": "proved",
   "theorems": [
    "Verif.Fec.generate_fits",
    "Verif.Fec.encode_fits",
    "Verif.Fec.encode_refuses",
    "Verif.Fec.decode_two_fec",
    "Verif.Fec.decode_no_fec",
    "Verif.Fec.decode_refuses",
    "Verif.Fec.decode_fits"
   ],
   "note": ""
  },
  {
   "property": "C215",
   "status": "proved",
   "theorems": [
    "Verif.ThreadPool.pool_mutex",
    "Verif.ThreadPool.pool_exclusive"
   ],
   "note": "For every schedule without undefined behaviour (pool_die_uaf shows the one that has it)."
  },
  {
   "property": "C216",
   "status": "proved",
   "theorems": [
    "Verif.LangOp.ne_negates",
    "Verif.LangOp.gt_flips",
    "Verif.LangOp.ge_flips",
    "Verif.LangOp.le_negates",
    "Verif.LangOp.lt_exact",
    "Verif.LangOp.eq_self",
    "Verif.LangOp.eq_same_type"
   ],
   "note": "Reals are rational numbers here: no rounding, infinities or NaN."
  },
  {
   "property": "C217",
   "status": "partial",
   "theorems": [
    "Verif.LangOp.eq_not_symmetric",
    "Verif.LangOp.eq_symmetric_partial",
    "Verif.LangOp.eq_and_lt",
    "Verif.LangOp.trichotomy_partial",
    "Verif.LangOp.eq_large_undefined"
   ],
   "note": "False: an integer left of == cuts the real on the right, so 1 == 1.5 and 1 < 1.5 while 1.5 == 1 is false; holds for values of the same type and for reals that are integers. Comparing with a real beyond 64 bits is undefined behaviour."
  },
  {
   "property": "C218",
   "status": "proved",
   "theorems": [
    "Verif.LangOp.arith_exact",
    "Verif.LangOp.div_mod_exact",
    "Verif.LangOp.div_zero",
    "Verif.LangOp.div_min_undefined",
    "Verif.LangOp.shift_undefined",
    "Verif.LangOp.shr_exact"
   ],
   "note": ""
  },
  {
   "property": "C219",
   "status": "partial",
   "theorems": [
    "Verif.LangOp.compound_agrees_partial",
    "Verif.LangOp.compound_bool",
    "Verif.LangOp.compound_real"
   ],
   "note": "False: the assignment takes the table of the right operand, the binary operator that of the left. i += true works, i + true is an error; r %= i, r <<= i, r |= i work, r % i, r << i, r | i are errors. Holds for integers, and for numbers with + - * /."
  },
  {
   "property": "C220",
   "status": "partial",
   "theorems": [
    "Verif.LangOp.not_opposite_partial",
    "Verif.LangOp.not_both"
   ],
   "note": "False for nonzero reals within 2.2204460492503131E-16 of 0: both if (r) and if (!r) take the other branch."
  },
  {
   "property": "C221",
   "status": "proved",
   "theorems": [
    "Verif.LangOp.inc_dec"
   ],
   "note": "Reals are rational numbers here: no rounding."
  },
  {
   "property": "C222",
   "status": "proved",
   "theorems": [
    "Verif.Itc.itc_safe"
   ],
   "note": "What mln_thread_itc_chain_release_msg does with the bytes of a thread that ends is kept apart: C227."
  },
  {
   "property": "C223",
   "status": "proved",
   "theorems": [
    "Verif.Itc.itc_armed"
   ],
   "note": ""
  },
  {
   "property": "C224",
   "status": "proved",
   "theorems": [
    "Verif.Itc.itc_fifo",
    "Verif.Itc.itc_delivered"
   ],
   "note": "Both threads were made before and go on (the recv events of a and b do not end with close or error); unknown names: unknown_dropped."
  },
  {
   "property": "C225",
   "status": "proved",
   "theorems": [
    "Verif.Itc.itc_no_garbage"
   ],
   "note": ""
  },
  {
   "property": "C226",
   "status": "partial",
   "theorems": [
    "Verif.Itc.closed_lost"
   ],
   "note": "False: if the closing is noticed in the same call as the message, nothing read in that call is passed on (the example shows both outcomes)."
  },
  {
   "property": "C227",
   "status": "partial",
   "theorems": [
    "Verif.Itc.closed_garbage",
    "Verif.Itc.closed_full_buffer",
    "Verif.Itc.closed_used"
   ],
   "note": "False: a message is assumed at the start of every received buffer. If a buffer ends within a message (always if it is full: 1024 is no multiple of 72), or was used in part, bytes that are no message are treated as one, or a message is freed twice."
  },
  {
   "property": "C228",
   "status": "proved",
   "theorems": [
    "Verif.WsHand.handshake"
   ],
   "note": "Allocations succeed. Fields the user adds are none of the handshake's own (reserved); the extension list is left out because of C232. The client's key is put into its object by hand: C231."
  },
  {
   "property": "C229",
   "status": "partial",
   "theorems": [
    "Verif.WsHand.request_bytes",
    "Verif.WsHand.keyBytes_eq",
    "Verif.WsHand.response_bytes_partial",
    "Verif.WsHand.extension_names_partial",
    "Verif.WsHand.digest_eq",
    "Verif.WsHand.rfc_example"
   ],
   "note": "The extensions only when the allocator gives a byte more than asked for (C232); the bytes for objects without further fields, with further fields the lookups of C228."
  },
  {
   "property": "C230",
   "status": "partial",
   "theorems": [
    "Verif.WsHand.validate_iff_partial",
    "Verif.WsHand.accept_any_case",
    "Verif.WsHand.accept_wrong_value",
    "Verif.WsHand.connection_list_refused"
   ],
   "note": "False: the accept value is compared without regard to case, so wrong values are accepted (accept_wrong_value), and a Connection list with a further word is refused. validate_iff_partial tells exactly what is accepted."
  },
  {
   "property": "C231",
   "status": "partial",
   "theorems": [
    "Verif.WsHand.request_keeps_key",
    "Verif.WsHand.validate_no_key"
   ],
   "note": "False: the key is not stored in the object; for a new object every good answer makes mln_websocket_validate follow a NULL pointer. With the key set by hand: C228."
  },
  {
   "property": "C232",
   "status": "partial",
   "theorems": [
    "Verif.WsHand.response_total_partial",
    "Verif.WsHand.missing_key",
    "Verif.WsHand.missing_key_is_websocket",
    "Verif.WsHand.extensions_overflow",
    "Verif.WsHand.extension_overflow"
   ],
   "note": "False: a request without key (or with its name in other capitals) makes the server follow a NULL pointer, and every list of extensions makes it write one byte behind the buffer it asked for. Otherwise safe: response_total_partial."
  },
  {
   "property": "C233",
   "status": "partial",
   "theorems": [
    "Verif.WsHand.request_total",
    "Verif.WsHand.request_without_key"
   ],
   "note": "Safe, but the tests < 0 of mln_http_field_set never hold, so a request without key is sent as a success."
  },
  {
   "property": "C234",
   "status": "proved",
   "theorems": [
    "Verif.WsHand.ws_set_get"
   ],
   "note": "Names in other case may be other fields, as in C116 (examples)."
  },
  {
   "property": "C235",
   "status": "proved",
   "theorems": [
    "Verif.Asn1.implicit_retags",
    "Verif.Asn1.implicit_range",
    "Verif.Asn1.implicit_decodes"
   ],
   "note": ""
  },
  {
   "property": "C236",
   "status": "partial",
   "theorems": [
    "Verif.Asn1.implicit_wide_number",
    "Verif.Asn1.implicit_retags"
   ],
   "note": "False: the number is put into the byte without a test, so every number from 32 to 63 turns a primitive value into one with the header of a constructed one (proved for all of them). Numbers below 32: implicit_retags."
  },
  {
   "property": "C237",
   "status": "proved",
   "theorems": [
    "Verif.Pg.table_serves",
    "Verif.Pg.refused_iff_conflict",
    "Verif.Pg.generate_serves"
   ],
   "note": ""
  },
  {
   "property": "C238",
   "status": "proved",
   "theorems": [
    "Verif.Pg.closure_closed",
    "Verif.Pg.states_closed",
    "Verif.Pg.generate_serves"
   ],
   "note": "what the generator takes to follow is not all that can follow (C189)"
  },
  {
   "property": "C239",
   "status": "proved",
   "theorems": [
    "Verif.MlnList.list_history",
    "Verif.MlnList.step_ok",
    "Verif.MlnList.init_ok",
    "Verif.MlnList.init_adds"
   ],
   "note": ""
  },
  {
   "property": "C240",
   "status": "proved",
   "theorems": [
    "Verif.Span.dump_is_call_tree",
    "Verif.Span.dump_is_call_tree_threads",
    "Verif.Span.times_nest",
    "Verif.Span.timeCost_eq"
   ],
   "note": "Allocations succeed (otherwise assert). The macros mln_span_start and mln_span_stop pass one argument less than the functions ask for, so no compiler accepts them; they are modelled with the arguments that are meant."
  },
  {
   "property": "C241",
   "status": "proved",
   "theorems": [
    "Verif.Span.release_frees_all"
   ],
   "note": ""
  },
  {
   "property": "C242",
   "status": "partial",
   "theorems": [
    "Verif.Span.stop_after_return",
    "Verif.Span.stop_below",
    "Verif.Span.dump_is_call_tree"
   ],
   "note": "False: after the starting function has returned mln_span_stop runs into assert(0) (for all calls before and after); in a called function it leaves the first span without an end. In the same function: dump_is_call_tree."
  },
  {
   "property": "C243",
   "status": "proved",
   "theorems": [
    "Verif.Pg.goto_complete"
   ],
   "note": "that not all items are given a goto is C188"
  },
  {
   "property": "C244",
   "status": "partial",
   "theorems": [
    "Verif.Pg.parse_complete_partial",
    "Verif.Pg.parse_iff_partial",
    "Verif.Pg.unambiguous_partial",
    "Verif.Pg.testG_complete",
    "Verif.Pg.goodB_ok",
    "Verif.Pg.first_complete_ordered",
    "Verif.Pg.emptyLast_of",
    "Verif.Pg.sentence_refused",
    "Verif.Pg.parse_bad",
    "Verif.Pg.order_matters"
   ],
   "note": "Proved for grammars with three properties, each needed: no shift to state -1 in the table (parse_bad), no token that may be empty directly behind a nonterminal and before further tokens (sentence_refused), and for each terminal a production that is not preceded by a possibly-empty production of the same token (order_matters). The conditions can be checked for a grammar (goodB_ok) and hold for the grammar of the library's test (testG_complete). Reduction functions do not fail; enough memory."
  },
  {
   "property": "C245",
   "status": "proved",
   "theorems": [
    "Verif.SearchPath.lookup_meant",
    "Verif.SearchPath.meant_first"
   ],
   "note": "for one lookup with the given value; that a lookup changes the value is C246, and longer names are C247"
  },
  {
   "property": "C246",
   "status": "partial",
   "theorems": [
    "Verif.SearchPath.env_cut",
    "Verif.SearchPath.second_lookup",
    "Verif.SearchPath.find_keeps_partial"
   ],
   "note": "Refuted: the lookup writes a zero in place of the first semicolon of the string that getenv returned, so that afterwards the variable holds only the first directory and later lookups search only this one. Proved: absolute paths, paths that exist as they are and variables with one directory leave it unchanged."
  },
  {
   "property": "C247",
   "status": "partial",
   "theorems": [
    "Verif.SearchPath.long_bad",
    "Verif.SearchPath.long_lib_bad",
    "Verif.SearchPath.at_bad",
    "Verif.SearchPath.at_bad_top",
    "Verif.SearchPath.import_bad",
    "Verif.SearchPath.import_report_bad",
    "Verif.SearchPath.eval_bad",
    "Verif.SearchPath.find_safe_partial",
    "Verif.SearchPath.at_dir_partial",
    "Verif.SearchPath.at_here_partial",
    "Verif.SearchPath.eval_dir_partial"
   ],
   "note": "Refuted for all long names: the return value of snprintf, which is the length that would have been needed, is used as index of the final zero. Proved: for shorter names no write outside, and the path is the intended one."
  },
  {
   "property": "C248",
   "status": "proved",
   "theorems": [
    "Verif.LangSched.history_ok",
    "Verif.LangSched.newJob_ok",
    "Verif.LangSched.jobFree_ok",
    "Verif.LangSched.suspend_ok",
    "Verif.LangSched.resume_ok"
   ],
   "note": "one thread; a step that uses a freed job has no result (C252)"
  },
  {
   "property": "C249",
   "status": "proved",
   "theorems": [
    "Verif.LangSched.history_pend",
    "Verif.LangSched.step_pend"
   ],
   "note": "that the program runs the launcher which was signalled is up to the program"
  },
  {
   "property": "C250",
   "status": "proved",
   "theorems": [
    "Verif.LangSched.gets_turn",
    "Verif.LangSched.step_idx"
   ],
   "note": ""
  },
  {
   "property": "C251",
   "status": "partial",
   "theorems": [
    "Verif.LangSched.names_partial",
    "Verif.LangSched.alias_lost",
    "Verif.LangSched.alias_twice",
    "Verif.LangSched.named_unique"
   ],
   "note": "Refuted: when a creation is refused because the alias is in use, freeing the refused job removes the alias of the other job from the tree; that job can then no longer be killed and a third job gets the same alias. Proved for histories without a refused creation in which scripts create jobs without alias."
  },
  {
   "property": "C252",
   "status": "partial",
   "theorems": [
    "Verif.LangSched.launch_safe_partial",
    "Verif.LangSched.kill_self_bad"
   ],
   "note": "Refuted: a script that kills its own alias frees the job that is running. Proved for all other turns."
  },
  {
   "property": "C253",
   "status": "partial",
   "theorems": [
    "Verif.LangSched.own_tree_partial",
    "Verif.LangSched.other_source_bad"
   ],
   "note": "Refuted with the cache: paths that begin with / or @ are keys in the same cache as texts, so that a text which is such a path runs the file, and a file that was changed is not read again for 30 seconds while a job uses its tree. Proved for all histories in which all sources are texts."
  },
  {
   "property": "C254",
   "status": "partial",
   "theorems": [
    "Verif.Trace.safe_partial",
    "Verif.Trace.start_good",
    "Verif.Trace.late_bad",
    "Verif.Trace.finalize_bad"
   ],
   "note": "Refuted: (1) if mln_trace_init fails after it made the language object, the variables keep pointing to the freed objects, and the timer that was set reads one of them; (2) mln_trace_finalize while a job can run leaves the launcher registered with the freed object. Proved for all histories without these two."
  },
  {
   "property": "C255",
   "status": "partial",
   "theorems": [
    "Verif.Trace.early_partial",
    "Verif.Trace.late_bad"
   ],
   "note": "Refuted for failures of the job, the timer or the callback: each later initialisation fails, and finalize frees twice. Proved for the failures before."
  },
  {
   "property": "C256",
   "status": "partial",
   "theorems": [
    "Verif.Trace.timer_partial",
    "Verif.Trace.pairs_kept",
    "Verif.Trace.init_opens",
    "Verif.Trace.leak",
    "Verif.Trace.timer_stays"
   ],
   "note": "Refuted: the pair of sockets is never closed, and after mln_trace_finalize the timer is set again for ever; k traces leave k pairs and k timers. Proved: the timer ends with a trace that ends by itself."
  },
  {
   "property": "C257",
   "status": "proved",
   "theorems": [
    "Verif.LangStr.plus_text",
    "Verif.LangStr.pluseq_plus",
    "Verif.LangStr.plus_strings",
    "Verif.LangStr.index_spec",
    "Verif.LangStr.index_total"
   ],
   "note": "Reals are left out."
  },
  {
   "property": "C258",
   "status": "partial",
   "theorems": [
    "Verif.LangStr.eq_exact",
    "Verif.LangStr.order_partial",
    "Verif.LangStr.trichotomy_partial",
    "Verif.LangStr.empty_order"
   ],
   "note": "Refuted for the empty string: both \"\" > s and s > \"\" hold for every s that is not empty. Proved for all pairs of strings that are not empty; == and != are proved for all."
  },
  {
   "property": "C259",
   "status": "partial",
   "theorems": [
    "Verif.LangStr.own_text_equal",
    "Verif.LangStr.str_eq_int",
    "Verif.LangStr.eq_symmetric_partial",
    "Verif.LangStr.eq_not_symmetric",
    "Verif.LangStr.zero_equals_words",
    "Verif.LangStr.order_textual",
    "Verif.LangStr.ne_negation",
    "Verif.LangStr.others_never_equal"
   ],
   "note": "Refuted: i == s converts the string to a number, s == i the number to a text, and the orders compare texts; \" 1\" equals 1 only from one side and is below it, 0 equals every word. Proved: an integer equals its own text from both sides, and s == i implies i == s."
  },
  {
   "property": "C260",
   "status": "partial",
   "theorems": [
    "Verif.LangArray.array_refines_partial",
    "Verif.LangArray.literal_minus_one",
    "Verif.LangArray.largest_undefined"
   ],
   "note": "Refuted: a literal with the key -1 sets the numbering back to 0, so that the next element gets a number that is in use; the number 2^63-1 overflows. Proved for histories without negative numbers in literals, numbers below 2^62 and at most 2^62 operations."
  },
  {
   "property": "C261",
   "status": "partial",
   "theorems": [
    "Verif.LangArray.index_kept_partial",
    "Verif.LangArray.minus_one_changed"
   ],
   "note": "Refuted: a[i] with i = -1 changes i to the number of the last element. Proved for all other values."
  },
  {
   "property": "C262",
   "status": "partial",
   "theorems": [
    "Verif.LangKey.keys_partial",
    "Verif.LangKey.touches_spec",
    "Verif.LangKey.key_lost"
   ],
   "note": "Refuted: with keys of four bytes that are not all 7-bit the comparison is no order; after ten such keys the first is not found any more. Proved for keys of 7-bit characters."
  },
  {
   "property": "C263",
   "status": "proved",
   "theorems": [
    "Verif.LangSym.names",
    "Verif.LangSym.names_id",
    "Verif.LangSym.rel_run",
    "Verif.LangSym.search_look"
   ],
   "note": "values are not looked into; allocations succeed"
  },
  {
   "property": "C264",
   "status": "proved",
   "theorems": [
    "Verif.LangSym.call_restores",
    "Verif.LangSym.call_fresh"
   ],
   "note": "for calls that fit on the stack of 1025 scopes; bodies that do not set variables of their caller (C265)"
  },
  {
   "property": "C265",
   "status": "partial",
   "theorems": [
    "Verif.LangSym.upper_outside",
    "Verif.LangSym.upper_partial"
   ],
   "note": "Refuted in the main program: mln_lang_scope_in compares a signed difference only with the upper bound, so that the place before the array counts as a scope, and the variable is joined to memory below the array. Proved in functions."
  },
  {
   "property": "C266",
   "status": "partial",
   "theorems": [
    "Verif.LangSym.call_hangs",
    "Verif.LangSym.call_self_hangs",
    "Verif.LangSym.call_partial",
    "Verif.LangSym.new_partial"
   ],
   "note": "Refuted: after a = 'a'; the call a(); and the expression $a; never return, and so for all cycles of names. Proved: when the search ends, it ends with what the strings lead to, and it ends whenever the strings lead to something."
  },
  {
   "property": "C267",
   "status": "partial",
   "theorems": [
    "Verif.LangSym.args_bound",
    "Verif.LangSym.enter_vars",
    "Verif.LangSym.closure_wins"
   ],
   "note": "Proved for parameters with different names that are not captured as well and not called args when arguments are left over; refuted without these conditions (closure_wins); enter_vars says which value a name has in every case. Copying and referring of values is not modelled."
  },
  {
   "property": "C268",
   "status": "partial",
   "theorems": [
    "Verif.LangSym.operator_outside",
    "Verif.LangSym.flag_any",
    "Verif.LangSym.operator_partial"
   ],
   "note": "Refuted: the test whether the function of the operator is running never stops at the first scope, because mln_lang_scope_in also accepts places before the array; so once the flag is set every operator on the type reads outside of the array, unless it is used in its own function. The flag is set by any long name that begins with __ and the letter of the type. Proved: what an operator does in its own function, and without the flag."
  },
  {
   "property": "C269",
   "status": "partial",
   "theorems": [
    "Verif.LangPipe.accepted_lost",
    "Verif.LangPipe.once_partial",
    "Verif.LangPipe.refused_no_change",
    "Verif.LangPipe.accepted_iff",
    "Verif.LangPipe.unsubscribed_refused"
   ],
   "note": "Refuted as long as the pipe does not exist: mln_lang_ctx_pipe_send returns 0 and the message is dropped. Proved from the moment the pipe exists."
  },
  {
   "property": "C270",
   "status": "partial",
   "theorems": [
    "Verif.LangPipe.sendUp_lost",
    "Verif.LangPipe.sendUp_partial"
   ],
   "note": "Refuted: true also when no handler has been set. Proved with a handler."
  },
  {
   "property": "C271",
   "status": "partial",
   "theorems": [
    "Verif.LangVar.assign_partial",
    "Verif.LangVar.assign_self",
    "Verif.LangVar.assign_iff"
   ],
   "note": "Refuted: the old contents are given up before the new ones are read, so x = x makes every variable nil, and so does an assignment between two names of one value. Proved for different values, and exactly when it works."
  },
  {
   "property": "C272",
   "status": "partial",
   "theorems": [
    "Verif.LangVar.by_value_partial",
    "Verif.LangVar.by_reference",
    "Verif.LangVar.by_value_refuted"
   ],
   "note": "Refuted: every parameter behind one with & is passed by reference too. Proved for the parameters before the first &, and for parameters with &."
  },
  {
   "property": "C273",
   "status": "partial",
   "theorems": [
    "Verif.LangVar.captured_partial",
    "Verif.LangVar.captured_undefined"
   ],
   "note": "Refuted: a captured name that is not defined has no value, and every use reads through a null pointer; names behind one with & are captured by reference too. Proved for names that are defined."
  },
  {
   "property": "C274",
   "status": "proved",
   "theorems": [
    "Verif.LangWatch.watch_called",
    "Verif.LangWatch.step_calls",
    "Verif.LangWatch.watch_silent"
   ],
   "note": "For statements of the script itself; what the watch functions do is C276 and C277. Variables set from C code by mln_lang_var_set_int and its like call no watch function."
  },
  {
   "property": "C275",
   "status": "partial",
   "theorems": [
    "Verif.LangWatch.value_null",
    "Verif.LangWatch.value_internal",
    "Verif.LangWatch.chain_null",
    "Verif.LangWatch.value_partial",
    "Verif.LangWatch.chain_partial"
   ],
   "note": "Refuted for watched variables: with a watch function of the script the expression has no value at all, b = a = 1 reads through a null pointer; with one in C it has the value the watch function returned. Proved for variables nobody watches."
  },
  {
   "property": "C276",
   "status": "partial",
   "theorems": [
    "Verif.LangWatch.params_refer",
    "Verif.LangWatch.udata_changed"
   ],
   "note": "Refuted: with and without & both parameters are the watched value and the user data themselves. With & the property holds (params_refer)."
  },
  {
   "property": "C277",
   "status": "partial",
   "theorems": [
    "Verif.LangWatch.watch_loops",
    "Verif.LangWatch.watch_partial"
   ],
   "note": "Refuted for a watch function that assigns to the variable it watches: every assignment to it then fails with a full stack of scopes. Proved for watch functions that assign to variables nobody watches."
  },
  {
   "property": "C278",
   "status": "partial",
   "theorems": [
    "Verif.LangImport.eval_text_refuted",
    "Verif.LangImport.eval_text_partial"
   ],
   "note": "Refuted for every text that begins with @ (as a function definition does) in a job started from a file: the directory of that file takes the place of the @, or one or two bytes are dropped. Proved for other texts and for jobs started from a text."
  },
  {
   "property": "C279",
   "status": "proved",
   "theorems": [
    "Verif.LangImport.loaded_while_used",
    "Verif.LangImport.one_handle"
   ],
   "note": "Executions in which the code uses a null pointer or an unfilled buffer (C281) have no next state."
  },
  {
   "property": "C280",
   "status": "proved",
   "theorems": [
    "Verif.LangImport.loaded_once",
    "Verif.LangImport.unloaded_then",
    "Verif.LangImport.closes_iff"
   ],
   "note": "That an unloaded library is not needed by other resources of the job that ends is not covered."
  },
  {
   "property": "C281",
   "status": "partial",
   "theorems": [
    "Verif.LangImport.cached_bad",
    "Verif.LangImport.memory_bad",
    "Verif.LangImport.answers_partial",
    "Verif.LangImport.first_message"
   ],
   "note": "Refuted: a second Import of a library whose init fails prints a path that was never written; without memory for a new library a null pointer is used. Proved for the first import of a library."
  },
  {
   "property": "C282",
   "status": "proved",
   "theorems": [
    "Verif.Supervise.supervised_kept",
    "Verif.Supervise.noticed",
    "Verif.Supervise.started",
    "Verif.Supervise.execs_listed",
    "Verif.Supervise.restart_fails"
   ],
   "note": "While the master goes on: it aborts if a process cannot be started again (restart_fails), and see C286."
  },
  {
   "property": "C283",
   "status": "proved",
   "theorems": [
    "Verif.Supervise.once_gone",
    "Verif.Supervise.once_only"
   ],
   "note": ""
  },
  {
   "property": "C284",
   "status": "proved",
   "theorems": [
    "Verif.Supervise.child_alone",
    "Verif.Supervise.child_alone_first"
   ],
   "note": "Descriptors only; the event loop that a restarted child inherits is left out."
  },
  {
   "property": "C285",
   "status": "partial",
   "theorems": [
    "Verif.Supervise.leak_refuted",
    "Verif.Supervise.leak_count",
    "Verif.Supervise.no_pair_partial"
   ],
   "note": "Refuted: both sockets stay open whenever fork fails. Proved when socketpair fails."
  },
  {
   "property": "C286",
   "status": "partial",
   "theorems": [
    "Verif.Supervise.start_hangs",
    "Verif.Supervise.restart_hangs",
    "Verif.Supervise.answer_iff",
    "Verif.Supervise.start_returns_partial"
   ],
   "note": "Refuted: if the child ends before it has written its byte the master reads the end of the socket in a loop for ever. Proved otherwise."
  },
  {
   "property": "C287",
   "status": "proved",
   "theorems": [
    "Verif.Pg.der_unique",
    "Verif.LangGram.cert_ok",
    "Verif.LangGram.grammar_ok",
    "Verif.LangGram.script_unique",
    "Verif.LangGram.expression_unique",
    "Verif.LangGram.parser_reads",
    "Verif.LangGram.parsers_agree"
   ],
   "note": "That a table is made for the grammar is a hypothesis of parser_reads and parsers_agree."
  },
  {
   "property": "C288",
   "status": "proved",
   "theorems": [
    "Verif.LangExp.reads",
    "Verif.LangExp.reads_only",
    "Verif.LangExp.value_iff",
    "Verif.LangExp.two_operators",
    "Verif.LangExp.assignments"
   ],
   "note": ""
  },
  {
   "property": "C289",
   "status": "partial",
   "theorems": [
    "Verif.LangExp.sign_first",
    "Verif.LangExp.sign_last_refuted",
    "Verif.LangExp.sign_last_partial",
    "Verif.LangExp.not_last"
   ],
   "note": "Refuted for every sign, operand and index, property or call: the sign is applied to the operand before it is indexed or called. Proved with brackets around the element, and for !."
  },
  {
   "property": "C290",
   "status": "proved",
   "theorems": [
    "Verif.LangExp.logic_short",
    "Verif.LangExp.logic_only"
   ],
   "note": ""
  },
  {
   "property": "C291",
   "status": "partial",
   "theorems": [
    "Verif.Framework.status_refuted",
    "Verif.Framework.status_partial",
    "Verif.Framework.status_on"
   ],
   "note": "Refuted for numbers and characters: framework 1; is taken as off without a message. Proved for texts and booleans and for which modes are on."
  },
  {
   "property": "C292",
   "status": "partial",
   "theorems": [
    "Verif.Framework.worker_calls",
    "Verif.Framework.master_ends_refuted"
   ],
   "note": "Proved for workers. Refuted for a master whose loop is ended: it goes on as a worker and aborts, because it has no connection to a master."
  },
  {
   "property": "C293",
   "status": "partial",
   "theorems": [
    "Verif.Framework.again_deaf",
    "Verif.Framework.first_traces",
    "Verif.Framework.again_traces_partial",
    "Verif.Framework.master_ctx"
   ],
   "note": "Refuted for every worker that is started again while the master traces: it keeps the master's script, which no loop runs any more, mln_trace still takes the messages, and mln_trace_init does not help. Proved for workers started at first, and for those started again when the script of the master had ended."
  },
  {
   "property": "C294",
   "status": "partial",
   "theorems": [
    "Verif.Framework.master_variable_refuted",
    "Verif.Framework.master_variable_partial"
   ],
   "note": "Refuted for every worker that is started again and has a script of its own. Proved for the master and the workers started at first."
  },
  {
   "property": "C295",
   "status": "proved",
   "theorems": [
    "Verif.Hook.run_seen",
    "Verif.Hook.run_called",
    "Verif.Hook.run_nested",
    "Verif.Hook.refused_quiet",
    "Verif.Hook.watched_same",
    "Verif.Hook.set_inside_refuted"
   ],
   "note": "For programs that do not change the callbacks on the way; set_inside_refuted shows that a callback set inside a function sees an exit without an entry."
  },
  {
   "property": "C296",
   "status": "partial",
   "theorems": [
    "Verif.Hook.refused_pointer",
    "Verif.Hook.refused_int_partial"
   ],
   "note": "Refuted for every function that returns a pointer: the refused call returns the pointer of all ones, which no caller takes for a failure. Proved for numbers with a sign."
  },
  {
   "property": "C297",
   "status": "proved",
   "theorems": [
    "Verif.Hook.path_sets"
   ],
   "note": ""
  },
  {
   "property": "C298",
   "status": "partial",
   "theorems": [
    "Verif.LangObj.objects_partial",
    "Verif.LangObj.script_partial",
    "Verif.LangObj.refused"
   ],
   "note": "Missing: a place assigned to itself, which becomes nil (C271); reference counts, overloaded operators and failing allocations are not modelled."
  },
  {
   "property": "C299",
   "status": "proved",
   "theorems": [
    "Verif.LangObj.new_object",
    "Verif.LangObj.fresh_object"
   ],
   "note": "without overloaded operators; addresses of freed objects are not used again in the model"
  },
  {
   "property": "C300",
   "status": "proved",
   "theorems": [
    "Verif.LangObj.shared",
    "Verif.LangObj.seen",
    "Verif.LangObj.equal_iff"
   ],
   "note": "without overloaded operators"
  },
  {
   "property": "C301",
   "status": "partial",
   "theorems": [
    "Verif.LangObj.method_partial",
    "Verif.LangObj.method_hangs"
   ],
   "note": "Refuted: a member (or, without a member, a variable) that holds its own name makes the call never return. Proved: a function is called if and only if the name leads to it."
  },
  {
   "property": "C302",
   "status": "partial",
   "theorems": [
    "Verif.LangObj.this_partial",
    "Verif.LangObj.this_changes",
    "Verif.LangObj.this_assigned"
   ],
   "note": "Refuted: this is bound to the value of the variable before the dot and not to a copy; in a method called for a capitalised variable X, X = d changes this, and this = d changes the caller's variable. Proved: what this is at the begin of the method, and which names it does not see."
  },
  {
   "property": "C303",
   "status": "proved",
   "theorems": [
    "Verif.LangExp.reads_text",
    "Verif.LangExp.script_iff",
    "Verif.LangExp.script_parsed",
    "Verif.LangExp.script_text",
    "Verif.LangExp.nearest"
   ],
   "note": "That a table is made for the grammar is a hypothesis of script_parsed."
  },
  {
   "property": "C304",
   "status": "proved",
   "theorems": [
    "Verif.LangExp.nested",
    "Verif.LangExp.nested_parsed",
    "Verif.LangExp.ifs_closed"
   ],
   "note": "That a table is made for the grammar is a hypothesis of nested_parsed."
  },
  {
   "property": "C305",
   "status": "proved",
   "theorems": [
    "Verif.Json.generates",
    "Verif.Json.generates_only"
   ],
   "note": "Doubles are abstract; failing allocations and callbacks are not modelled."
  },
  {
   "property": "C306",
   "status": "partial",
   "theorems": [
    "Verif.Json.behind_refuted",
    "Verif.Json.comma_refuted",
    "Verif.Json.generates_only"
   ],
   "note": "Refuted: whatever follows the closing bracket is ignored, and a comma before a closing bracket is accepted. Proved: nothing else is accepted."
  },
  {
   "property": "C307",
   "status": "partial",
   "theorems": [
    "Verif.Json.failure_resets",
    "Verif.Json.failure_destroys_refuted",
    "Verif.Json.failure_keeps",
    "Verif.Json.failure_partial"
   ],
   "note": "Refuted: an object or array that was to be added to is reset, and values given with j that were read before the failure are destroyed. Proved: a value of another type is kept, and only values given with j are destroyed."
  },
  {
   "property": "C308",
   "status": "proved",
   "theorems": [
    "Verif.LangLex.reads",
    "Verif.LangLex.script_tokens",
    "Verif.LangLex.written_unique"
   ],
   "note": "Texts without # commands."
  },
  {
   "property": "C309",
   "status": "proved",
   "theorems": [
    "Verif.LangLex.script_tree",
    "Verif.LangLex.spell_sign",
    "Verif.LangLex.stands_tok"
   ],
   "note": "That a table is made for the grammar is a hypothesis of script_tree."
  },
  {
   "property": "C310",
   "status": "partial",
   "theorems": [
    "Verif.LangLex.stars_refuted",
    "Verif.LangLex.tilde_refuted",
    "Verif.LangLex.unnamed_refused",
    "Verif.LangLex.reads"
   ],
   "note": "Refuted: */ after an odd number of stars does not end a comment, what follows is lost without an error; ~= is a sign of the lexer that no accepted script contains. Proved: comments with an even number of stars before */ end there (reads)."
  },
  {
   "property": "C311",
   "status": "proved",
   "theorems": [
    "Verif.LangLex.open_refused",
    "Verif.LangLex.escape_refused"
   ],
   "note": "Strings behind blanks."
  },
  {
   "property": "C312",
   "status": "partial",
   "theorems": [
    "Verif.WsSend.messages_partial"
   ],
   "note": "Missing: pieces of 65536 bytes and more (C47), frames that are spread over several buffers."
  },
  {
   "property": "C313",
   "status": "partial",
   "theorems": [
    "Verif.WsSend.content_partial",
    "Verif.WsSend.echo_refuted",
    "Verif.WsSend.inv_init"
   ],
   "note": "Refuted: sending the content that was received (mln_websocket_get_content) reads it after it was freed. Proved: every sequence of calls with memory of the caller. Input on which mln_websocket_parse reads past a buffer (C48) is excluded."
  },
  {
   "property": "C314",
   "status": "partial",
   "theorems": [
    "Verif.WsSend.pong_refuted",
    "Verif.WsSend.both_refused"
   ],
   "note": "Refuted: a pong never carries anything. Proved: the refusal."
  },
  {
   "property": "C315",
   "status": "partial",
   "theorems": [
    "Verif.LangGc.usable_kept_partial",
    "Verif.LangGc.captured_refuted",
    "Verif.LangGc.temporary_refuted",
    "Verif.LangGc.kept_closed"
   ],
   "note": "Refuted: what only functions captured, and what is only on the run stack or was just returned, is freed if it is suspected (a second reference to it was dropped before). Proved: without such values nothing in use is freed. Reference counts are not modelled."
  },
  {
   "property": "C316",
   "status": "proved",
   "theorems": [
    "Verif.LangGc.collected",
    "Verif.LangGc.mem_members"
   ],
   "note": ""
  },
  {
   "property": "C317",
   "status": "partial",
   "theorems": [
    "Verif.ConfApi.calls_partial",
    "Verif.ConfApi.found_iff",
    "Verif.ConfApi.lost_refuted"
   ],
   "note": "Proved for names of 7-bit characters. Refuted for others: the comparison is no order and a command that was inserted is not found. Allocations succeed."
  },
  {
   "property": "C318",
   "status": "partial",
   "theorems": [
    "Verif.ConfApi.removed_refuted",
    "Verif.ConfApi.found_iff"
   ],
   "note": "Refuted for all histories: a name may be inserted twice, and a removal takes away one of the two. Proved: it is gone if it was not inserted more often than removed."
  },
  {
   "property": "C319",
   "status": "partial",
   "theorems": [
    "Verif.ConfApi.reload_partial",
    "Verif.ConfApi.reload_conf_partial",
    "Verif.ConfApi.reload_refuted",
    "Verif.ConfApi.unset_refuted"
   ],
   "note": "Refuted: a file that is not valid leaves no configuration, and the reload succeeds all the same; a callback that removes its own hook is read after it was freed. Proved: the order of the callbacks when they remove no hooks."
  },
  {
   "property": "C320",
   "status": "partial",
   "theorems": [
    "Verif.StrLife.held_partial",
    "Verif.StrLife.nothing_left",
    "Verif.StrLife.count_refuted"
   ],
   "note": "Proved for strings that are held fewer than 2^30 times. Refuted: the counter has 30 bits, so a string held 2^30 times is freed with the first mln_string_free. All pools are one pool; mln_string_upper and other calls that change a text are not in this model."
  },
  {
   "property": "C321",
   "status": "proved",
   "theorems": [
    "Verif.StrLife.lent_after",
    "Verif.StrLife.held_partial"
   ],
   "note": ""
  },
  {
   "property": "C322",
   "status": "partial",
   "theorems": [
    "Verif.Boot.user_partial",
    "Verif.Boot.groups_refuted",
    "Verif.Boot.setuid_refuted",
    "Verif.Boot.other_refuted",
    "Verif.Boot.name_refuted",
    "Verif.Boot.unknown",
    "Verif.Boot.nobody"
   ],
   "note": "Refuted: the supplementary groups of the one who started it are never given up; if setuid fails the start succeeds and the process may become root again; started by another user with the same group it succeeds and runs as the one who started it; names are cut at 255 bytes. Proved: the numbers of the user, when setuid does not fail. The system calls follow setuid(2) of Linux."
  },
  {
   "property": "C323",
   "status": "partial",
   "theorems": [
    "Verif.Boot.limit_partial",
    "Verif.Boot.limit_refuted"
   ],
   "note": "Refuted: without an argument a NULL pointer is followed, negative numbers become huge limits."
  },
  {
   "property": "C324",
   "status": "partial",
   "theorems": [
    "Verif.Boot.stop_partial",
    "Verif.Boot.stop_refuted",
    "Verif.Boot.reload_refuted",
    "Verif.Boot.garbage_refuted",
    "Verif.Boot.atoi_print"
   ],
   "note": "Refuted: a daemon writes the number of the process that ends right after, so --stop kills a process that is not there (or another that got its number); --reload opens an empty path and never signals; a file without a number signals the group of the caller. Proved: --stop without daemon. It is assumed that nobody calls mln_log_init before."
  },
  {
   "property": "C325",
   "status": "partial",
   "theorems": [
    "Verif.JsonTree.map_partial",
    "Verif.JsonTree.search_partial",
    "Verif.JsonTree.json_update",
    "Verif.JsonTree.key_lost_refuted"
   ],
   "note": "Proved for 7-bit keys on the red-black tree itself. key_lost_refuted: with keys in UTF-8 the comparison is no order, and a key that was given a value is not found."
  },
  {
   "property": "C326",
   "status": "partial",
   "theorems": [
    "Verif.JsonTree.array_list",
    "Verif.JsonTree.iterate_partial",
    "Verif.JsonTree.iterate_stop",
    "Verif.JsonTree.iterate_refuted",
    "Verif.JsonTree.remove_partial",
    "Verif.JsonTree.remove_refuted"
   ],
   "note": "iterate_refuted: the iteration over an empty array gives -1, whatever the handler. remove_refuted: with an index that is not the last the element stays and the last element is dropped."
  },
  {
   "property": "C327",
   "status": "partial",
   "theorems": [
    "Verif.WsMatch.match_partial",
    "Verif.WsMatch.same_partial",
    "Verif.WsMatch.missing",
    "Verif.WsMatch.no_room",
    "Verif.WsMatch.inside_refuted",
    "Verif.WsMatch.empty_refuted",
    "Verif.WsMatch.pattern_refuted"
   ],
   "note": "Proved for values without bytes that mean something in a pattern: success exactly when every field is there and contains the value. Refuted: a request that only contains the value is accepted (inside_refuted), a field set to the empty value is always refused (empty_refuted), a value with a special byte does not match itself (pattern_refuted)."
  },
  {
   "property": "C328",
   "status": "partial",
   "theorems": [
    "Verif.ClassObj.objects_partial",
    "Verif.ClassObj.delete_partial",
    "Verif.ClassObj.null",
    "Verif.ClassObj.delete_refuted",
    "Verif.ClassObj.taken_refuted"
   ],
   "note": "Proved for objects given to delete as values. Refuted for expressions with effects, which delete evaluates four times: one object is tested, another destructed, another freed (delete_refuted), or NULL is used (taken_refuted). Constructors and destructors that make or delete objects themselves are not covered."
  },
  {
   "property": "C329",
   "status": "partial",
   "theorems": [
    "Verif.Notice.program_partial",
    "Verif.Notice.message_ok",
    "Verif.Notice.inside",
    "Verif.Notice.memory_iff",
    "Verif.Notice.socket_refuted",
    "Verif.Notice.zeros_refuted"
   ],
   "note": "memory_iff: the memory is used right except exactly when the address was found but there was no socket at the start (socket_refuted). zeros_refuted: zeros are sent behind the request, to 511 bytes."
  },
  {
   "property": "C330",
   "status": "partial",
   "theorems": [
    "Verif.ChainBuf.release_partial",
    "Verif.ChainBuf.moved_refuted",
    "Verif.ChainBuf.shared_refuted",
    "Verif.ChainBuf.new_refuted",
    "Verif.ChainBuf.new_owns"
   ],
   "note": "release_partial: for chains whose buffers have `start` set, or have it NULL and are not consumed. moved_refuted: a buffer without `start` that was consumed in part frees an address that is no block. shared_refuted: a buffer in two nodes is freed twice. new_refuted: when memory runs out NULL is written."
  },
  {
   "property": "C331",
   "status": "partial",
   "theorems": [
    "Verif.LangFunc.equal_partial",
    "Verif.LangFunc.nonequal_eq",
    "Verif.LangFunc.equal_equiv",
    "Verif.LangFunc.empty_refuted",
    "Verif.LangFunc.captured_refuted",
    "Verif.LangFunc.unsupported",
    "Verif.LangFunc.overloaded",
    "Verif.LangFunc.supported",
    "Verif.LangFunc.no_memory"
   ],
   "note": "equal_partial: functions whose bodies are not empty are equal exactly when they come from the same definition. empty_refuted: all functions with empty bodies are equal. captured_refuted: captured values are not compared."
  },
  {
   "property": "C332",
   "status": "partial",
   "theorems": [
    "Verif.ChainAdd.all_partial",
    "Verif.ChainAdd.add_ok",
    "Verif.ChainAdd.longer_refuted",
    "Verif.ChainAdd.twice_refuted",
    "Verif.ChainAdd.sizes",
    "Verif.ChainAdd.size_zero"
   ],
   "note": "all_partial: for nodes that are alone (next is NULL) and different. longer_refuted: adding a chain of two nodes and then another loses the second. twice_refuted: adding the last node again leaves a chain without end."
  },
  {
   "property": "C333",
   "status": "partial",
   "theorems": [
    "Verif.TracePath.path_partial",
    "Verif.TracePath.path_sound",
    "Verif.TracePath.no_conf",
    "Verif.TracePath.double_refuted"
   ],
   "note": "path_partial: for configurations with one domain main and one command trace_mode. double_refuted: of two such commands either may be taken, as far as the contract of the search goes."
  },
  {
   "property": "C334",
   "status": "proved",
   "theorems": [
    "Verif.BootArgs.first_decides",
    "Verif.BootArgs.unknown",
    "Verif.BootArgs.once"
   ],
   "note": ""
  },
  {
   "property": "C335",
   "status": "partial",
   "theorems": [
    "Verif.BootArgs.daemon_partial",
    "Verif.BootArgs.closed_refuted"
   ],
   "note": "daemon_partial: when the null file can be opened. closed_refuted: otherwise the daemon goes on with the three descriptors closed, and the next file it opens becomes its standard input."
  }
 ]
}