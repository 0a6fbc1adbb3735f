{"id": "C01", "title": "Queue is a bounded FIFO", "statement": "After any sequence of mln_queue_append / mln_queue_get / mln_queue_remove on a queue of capacity n, get returns the oldest element that was accepted and not yet removed (NULL when there is none), append fails exactly when n elements are stored, and no accepted element is lost or reordered, however often the ring wraps.", "quantifier": "every capacity n > 0 and every finite history of append/get/remove calls", "why_tests_cant": "wrap-around positions of head/tail and histories are unbounded; tests only exercise a few capacities and sequences", "anchors": ["src/mln_queue.c: mln_queue_init, mln_queue_append, mln_queue_get, mln_queue_remove"]}
{"id": "C02", "title": "Queue search and iteration agree with FIFO order", "statement": "mln_queue_search(q,i) returns the i-th oldest element for i < length and NULL otherwise, mln_queue_iterate visits exactly the stored elements oldest first and stops at the first negative handler result, and mln_queue_destroy frees exactly the stored elements, oldest first.", "quantifier": "every reachable queue state, every index, every handler", "why_tests_cant": "the ring offset can be anything after arbitrary histories", "anchors": ["src/mln_queue.c: mln_queue_search, mln_queue_iterate, mln_queue_destroy"]}
{"id": "C03", "title": "Removing by index keeps the queue a FIFO", "statement": "mln_queue_free_index(q,i) removes exactly the i-th oldest element (freeing it once) and leaves a queue that behaves as the remaining sequence under every later append/get/remove/search.", "quantifier": "every reachable queue state, every index, and every later history", "why_tests_cant": "the damage, if any, only shows in the calls made after the removal, at particular ring offsets", "anchors": ["src/mln_queue.c: mln_queue_free_index"]}
{"id": "C04", "title": "Stack is LIFO, duplicates faithfully and iterates top-down", "statement": "After any history of push/pop, mln_stack_pop and mln_stack_top return the most recently pushed element not yet popped; mln_stack_dup yields a stack with the same elements in the same order (or NULL if copying fails, after freeing every copied element exactly once); iterate visits top to bottom; destroy frees each remaining element exactly once.", "quantifier": "every history of push/pop/dup/iterate/destroy, every copy handler including failing ones", "why_tests_cant": "failure position of the copy handler and history length are unbounded", "anchors": ["src/mln_stack.c: mln_stack_push, mln_stack_pop, mln_stack_dup, mln_stack_iterate, mln_stack_destroy"]}
{"id": "C05", "title": "Intrusive doubly linked chains never break", "statement": "Starting from an empty chain, any history of chain_add of nodes not in the chain and chain_del of nodes in the chain leaves a well-formed doubly linked list whose forward traversal is the insertion sequence minus the deleted nodes and whose backward traversal is its reverse, with no other node's links changed.", "quantifier": "every history of add/del over any number of nodes (heap-level pointers)", "why_tests_cant": "aliasing between head, tail, middle and singleton nodes multiplies with history; tests see few shapes", "anchors": ["include/mln_utils.h: MLN_CHAIN_FUNC_DEFINE", "src/mln_gc.c", "src/mln_ipc.c"]}
{"id": "C06", "title": "Dynamic array keeps its elements across growth", "statement": "mln_array_push/pushn return distinct fresh slots, and every element stored earlier keeps its index and contents through any number of growths; pop removes only the last element and reset/destroy call the element destructor exactly once per element in order; every call terminates.", "quantifier": "every initial capacity, element size and history of push/pushn/pop/reset", "why_tests_cant": "growth depends on the history; non-termination cannot be observed by a passing test", "anchors": ["src/mln_array.c: mln_array_init, mln_array_push, mln_array_pushn, mln_array_pop, mln_array_reset, mln_array_alloc"]}
{"id": "C07", "title": "Base64 decode inverts encode", "statement": "For every nonempty byte string, mln_base64_decode applied to the output of mln_base64_encode succeeds and returns the same bytes and length; the encoding is the RFC 4648 one.", "quantifier": "all byte strings of any length", "why_tests_cant": "the input space is infinite and padding depends on length mod 3", "anchors": ["src/mln_base64.c: mln_base64_encode, mln_base64_decode"]}
{"id": "C08", "title": "Base64 decode never writes outside its output buffer", "statement": "For every input whose length is a positive multiple of four, whatever its bytes, decode reads only the input and writes only inside the buffer it allocated; other nonzero lengths are rejected.", "quantifier": "all byte strings, valid base64 or not", "why_tests_cant": "malformed inputs (padding in the middle, foreign characters) are too many to enumerate", "anchors": ["src/mln_base64.c: mln_base64_decode"]}
{"id": "C09", "title": "MD5 does not depend on how the input is split", "statement": "Feeding a message to mln_md5_calc in any sequence of pieces, the last one flagged, gives the same digest as one call with the whole message, and that digest is the RFC 1321 compression function folded over the RFC-padded message.", "quantifier": "every message, every way of splitting it into pieces (including empty ones)", "why_tests_cant": "the number of splittings is exponential and buffer boundary cases (55,56,63,64 bytes) interact with all earlier pieces", "anchors": ["src/mln_md5.c: mln_md5_calc, mln_md5_calc_block"]}
{"id": "C10", "title": "SHA-1 does not depend on how the input is split", "statement": "As for MD5 with mln_sha1_calc and FIPS 180 padding.", "quantifier": "every message, every splitting", "why_tests_cant": "as C09", "anchors": ["src/mln_sha.c: mln_sha1_calc"]}
{"id": "C11", "title": "SHA-256 does not depend on how the input is split", "statement": "As for MD5 with mln_sha256_calc and FIPS 180 padding, with the code's split-half addition being addition modulo 2^32.", "quantifier": "every message, every splitting", "why_tests_cant": "as C09", "anchors": ["src/mln_sha.c: mln_sha256_calc, mln_sha256_safe_add"]}
{"id": "C12", "title": "Digest export never writes beyond the caller's buffer", "statement": "mln_md5_tobytes / mln_sha1_tobytes / mln_sha256_tobytes with a buffer of len bytes write only the first min(len, digest size) bytes, which are the leading digest bytes; tostring likewise writes at most len bytes including the terminator.", "quantifier": "every digest state and every len", "why_tests_cant": "an overrun by one byte at particular lengths is invisible to output comparison", "anchors": ["src/mln_md5.c: mln_md5_tobytes, mln_md5_tostring", "src/mln_sha.c: mln_sha1_tobytes, mln_sha256_tobytes, mln_sha256_tostring"]}
{"id": "C13", "title": "AES decrypt inverts encrypt", "statement": "For each key size (128/192/256) and every key, mln_aes_decrypt after mln_aes_encrypt restores every 16-byte block; unsupported key sizes are rejected by mln_aes_init.", "quantifier": "all keys, all blocks, all three key sizes", "why_tests_cant": "2^256 keys times 2^128 blocks", "anchors": ["src/mln_aes.c: mln_aes_init, mln_aes_encrypt, mln_aes_decrypt"]}
{"id": "C14", "title": "DES and 3DES decrypt invert encrypt", "statement": "For all keys and blocks mln_des/mln_3des with the decrypt flag after the encrypt flag restores the block, and the buffer functions restore every message whose length is a multiple of eight.", "quantifier": "all keys, blocks and messages", "why_tests_cant": "key and message space", "anchors": ["src/mln_des.c: mln_des, mln_3des, mln_des_buf, mln_3des_buf"]}
{"id": "C15", "title": "RC4 is an involution for a given key", "statement": "mln_rc4_calc applied twice with the same initial state restores any data and leaves the caller's state untouched; after mln_rc4_init the state is a permutation of 0..255 for every nonempty key.", "quantifier": "all nonempty keys, all data of any length", "why_tests_cant": "input space; a non-permutation state would only weaken the stream silently", "anchors": ["src/mln_rc.c: mln_rc4_init, mln_rc4_calc"]}
{"id": "C16", "title": "Reed-Solomon decode never returns wrong data", "statement": "Whenever mln_rs_decode succeeds on n data and k parity vectors produced by mln_rs_encode with some vectors missing, the result equals the original data vectors, byte for byte.", "quantifier": "all vector lengths, n, k, data and erasure patterns for which decode returns a result", "why_tests_cant": "the space of data and erasure patterns is huge, and a wrong Gauss elimination may still look plausible", "anchors": ["src/mln_rs.c: mln_rs_encode, mln_rs_decode, mln_rs_matrix_co_matrix, mln_rs_matrix_co_inverse_matrix, mln_rs_matrix_inverse"]}
{"id": "C17", "title": "Reed-Solomon recovers from any k erasures", "statement": "With n data and k parity vectors, as long as any n of the n+k vectors survive, mln_rs_decode succeeds.", "quantifier": "all n, k within the documented range and all erasure patterns of size at most k", "why_tests_cant": "the number of erasure patterns is binomial(n+k,k)", "anchors": ["src/mln_rs.c: mln_rs_encode, mln_rs_decode, mln_rs_power_calc"]}
{"id": "C18", "title": "String comparison is zero exactly on equal strings", "statement": "mln_string_strcmp, strncmp, strseqcmp and the const variants return 0 iff the compared contents (and lengths where applicable) are equal.", "quantifier": "all pairs of byte strings of any lengths, held in distinct buffers", "why_tests_cant": "word-wise comparison paths depend on length and alignment classes", "anchors": ["src/mln_string.c: mln_string_strcmp, mln_string_strseqcmp, mln_string_strncmp"]}
{"id": "C19", "title": "String comparison is a total order", "statement": "The sign of mln_string_strcmp (and of strseqcmp) is antisymmetric and transitive, so it can be used as the comparator of the ordered containers, as json, file cache and http do.", "quantifier": "all pairs and triples of byte strings", "why_tests_cant": "violations need specific byte patterns in triples of strings", "anchors": ["src/mln_string.c: mln_string_strcmp, mln_string_strseqcmp", "src/mln_json.c: mln_json_kv_cmp", "src/mln_file.c: mln_file_set_cmp"]}
{"id": "C20", "title": "Substring search finds the first occurrence", "statement": "mln_string_kmp returns the first position at which the nonempty pattern occurs in the text, and NULL iff it does not occur.", "quantifier": "all texts and all nonempty patterns", "why_tests_cant": "failure-function errors need self-overlapping patterns; the input space is infinite", "anchors": ["src/mln_string.c: mln_string_kmp, kmp_string_match, compute_prefix_function"]}
{"id": "C21", "title": "Slicing splits at separators and drops empty pieces", "statement": "mln_string_slice(s, seps) returns, in order, exactly the maximal runs of non-separator bytes, terminated by an empty string.", "quantifier": "all strings and separator sets", "why_tests_cant": "input space", "anchors": ["src/mln_string.c: mln_string_slice, mln_string_slice_recursive"]}
{"id": "C22", "title": "Red-black tree refines a sorted multiset", "statement": "After any history of mln_rbtree_insert and mln_rbtree_delete, with any strict weak order, mln_rbtree_search finds a node iff an equal element is stored, the in-order sequence is sorted and holds exactly the inserted-minus-deleted nodes, the cached minimum is the smallest, and node_num is the number of stored nodes.", "quantifier": "every history, every comparator that is a strict weak order, every tree shape", "why_tests_cant": "rebalancing has many mirrored cases reached only by particular histories", "anchors": ["src/mln_rbtree.c: mln_rbtree_insert, mln_rbtree_delete, mln_rbtree_search, mln_rbtree_min", "include/mln_rbtree.h"]}
{"id": "C23", "title": "Red-black tree stays balanced", "statement": "After any history the red-black invariants hold, so every search path has length at most 2*log2(n+1).", "quantifier": "every history", "why_tests_cant": "as C22; balance is invisible to functional tests", "anchors": ["src/mln_rbtree.c: rbtree_insert_fixup, rbtree_delete_fixup"]}
{"id": "C24", "title": "Tree iteration visits every node once even under deletion", "statement": "mln_rbtree_iterate calls the handler exactly once for every node present at the start, in insertion order, even if the handler deletes the node it is called on, and leaves the tree ready for the next iteration also when the handler aborts.", "quantifier": "every tree, every deletion pattern of the handler, every abort point", "why_tests_cant": "combinations of deletions and aborts are unbounded", "anchors": ["src/mln_rbtree.c: mln_rbtree_iterate, mln_rbtree_delete"]}
{"id": "C25", "title": "Fibonacci heap returns the minimum", "statement": "After any history of insert / extract_min / decrease_key, mln_fheap_minimum and extract_min return a node whose key is minimal among the nodes in the heap, and the heap holds exactly the inserted nodes not extracted.", "quantifier": "every history, every total preorder on keys", "why_tests_cant": "consolidation shapes depend on the whole history", "anchors": ["src/mln_fheap.c: mln_fheap_insert, mln_fheap_extract_min, mln_fheap_decrease_key", "include/mln_fheap.h: mln_fheap_minimum"]}
{"id": "C26", "title": "Fibonacci heap delete removes the given node", "statement": "mln_fheap_delete(fh, node) removes that node and no other.", "quantifier": "every heap state, every node, every supplied minimum value", "why_tests_cant": "needs particular key coincidences", "anchors": ["src/mln_fheap.c: mln_fheap_delete"]}
{"id": "C27", "title": "Fibonacci heap consolidation stays inside its degree table", "statement": "In every reachable heap with fewer than fib(67) nodes every root degree stays below the fixed table size used by consolidation, so the table is never indexed out of bounds.", "quantifier": "every history of operations", "why_tests_cant": "a violation would need astronomically large or adversarial histories", "anchors": ["src/mln_fheap.c: mln_fheap_consolidate", "include/mln_fheap.h: FH_LGN"]}
{"id": "C28", "title": "Hash table search returns what was inserted", "statement": "After any history of insert/remove/update on a table, mln_hash_search(key) returns the value of the entry with that key, and NULL iff there is none; entries with other keys are never affected.", "quantifier": "every hash function, comparator that is an equivalence, and history, across table resizes", "why_tests_cant": "collisions, resizes and histories combine", "anchors": ["src/mln_hash.c: mln_hash_insert, mln_hash_search, mln_hash_remove, mln_hash_update, mln_hash_expand, mln_hash_reduce"]}
{"id": "C29", "title": "Hash iteration visits every entry once in insertion order", "statement": "mln_hash_iterate calls the handler once for each entry in insertion order, and an entry removed by the handler while being visited is gone afterwards.", "quantifier": "every table and every handler", "why_tests_cant": "interleavings of removal and iteration", "anchors": ["src/mln_hash.c: mln_hash_iterate, mln_hash_remove"]}
{"id": "C30", "title": "Hash table stays sane under resizing", "statement": "The bucket count of an expandable table stays within a constant factor of the number of entries' high-water mark and is never zero.", "quantifier": "every history of insertions and removals", "why_tests_cant": "threshold arithmetic corner cases", "anchors": ["src/mln_hash.c: mln_hash_expand, mln_hash_reduce"]}
{"id": "C31", "title": "Bignum addition and subtraction are exact", "statement": "For operands in canonical form whose result fits in 8224 bits, mln_bignum_add and mln_bignum_sub compute the exact signed sum/difference, keep canonical form and leave the other operand unchanged.", "quantifier": "all signed operands up to 8224 bits", "why_tests_cant": "operand space 2^16448; carry chains and sign cases", "anchors": ["src/mln_bignum.c: __mln_bignum_add, __mln_bignum_sub, __mln_bignum_sub_core"]}
{"id": "C32", "title": "Bignum multiplication is exact", "statement": "mln_bignum_mul computes the exact signed product whenever it fits, with no intermediate 64-bit overflow.", "quantifier": "all canonical operands", "why_tests_cant": "operand space; intermediate overflow bound is tight", "anchors": ["src/mln_bignum.c: __mln_bignum_mul, __mln_bignum_mul_word"]}
{"id": "C33", "title": "Bignum division satisfies the Euclidean equation", "statement": "mln_bignum_div(dest, src, q) fails iff src is zero and otherwise yields quotient and remainder with dest = q*src + r and |r| < |src|.", "quantifier": "all canonical operands", "why_tests_cant": "quotient-digit estimation errors occur with probability about 2^-32", "anchors": ["src/mln_bignum.c: __mln_bignum_div, __mln_bignum_div_word, __mln_bignum_nmul, __mln_bignum_nsbb, __mln_bignum_nadc, __mln_bignum_ndiv"]}
{"id": "C34", "title": "Bignum modular power is correct", "statement": "mln_bignum_pwr(x, e, m) leaves x^e mod m in x.", "quantifier": "all x, e >= 0, m > 0 within the size limit", "why_tests_cant": "operand space", "anchors": ["src/mln_bignum.c: __mln_bignum_pwr"]}
{"id": "C35", "title": "Bignum shifts multiply and divide by powers of two", "statement": "left shift by n multiplies by 2^n modulo 2^8224 and right shift by n divides rounding down, for every n.", "quantifier": "all canonical operands and shift counts", "why_tests_cant": "limb and bit offsets combine with length", "anchors": ["src/mln_bignum.c: __mln_bignum_left_shift, __mln_bignum_right_shift"]}
{"id": "C36", "title": "Bignum text conversion round-trips", "statement": "mln_bignum_assign of the text produced by mln_bignum_tostring gives back the number; assigning a decimal, hexadecimal (0x) or octal (0) literal yields the number it denotes.", "quantifier": "all canonical numbers and all literals within the length limits", "why_tests_cant": "input space; multi-digit group carries", "anchors": ["src/mln_bignum.c: mln_bignum_assign, mln_bignum_assign_hex, mln_bignum_assign_oct, mln_bignum_assign_dec, mln_bignum_tostring"]}
{"id": "C37", "title": "Bignum octet-string conversion round-trips", "statement": "os2ip(i2osp(n, len)) equals n for every len that i2osp accepts, and compares equal to it.", "quantifier": "all non-negative canonical numbers and all len", "why_tests_cant": "leading-zero cases depend on len", "anchors": ["src/mln_bignum.c: mln_bignum_i2osp, mln_bignum_os2ip, mln_bignum_compare"]}
{"id": "C38", "title": "Bignum comparison is the numeric order", "statement": "mln_bignum_compare returns the sign of the difference; mln_bignum_abs_compare compares magnitudes.", "quantifier": "all pairs of canonical signed numbers", "why_tests_cant": "sign and length cases combine", "anchors": ["src/mln_bignum.c: __mln_bignum_compare, __mln_bignum_abs_compare"]}
{"id": "C39", "title": "Extended Euclid yields Bezout coefficients", "statement": "mln_bignum_extend_eulid(a,b,x,y) gives x,y with a*x + b*y = gcd(a,b).", "quantifier": "all positive a, b", "why_tests_cant": "operand space and unbounded number of rounds", "anchors": ["src/mln_bignum.c: mln_bignum_extend_eulid"]}
{"id": "C40", "title": "Prime generator never skips a prime", "statement": "For 2 < n <= 2^30, mln_prime_generate(n) terminates with an odd result that is at least n and at most the least prime >= n, whatever random bases are drawn.", "quantifier": "all n and all random draws", "why_tests_cant": "the random bases are not reproducible and the range is 2^30", "anchors": ["src/mln_prime_generator.c: mln_prime_generate, witness, modular_expoinentiation"]}
{"id": "C41", "title": "JSON encode then decode restores the value", "statement": "For every tree of objects, arrays, strings, booleans, null and integers (top level object or array), mln_json_decode(mln_json_encode(v)) is v with object keys kept distinct.", "quantifier": "all JSON values of any depth and size", "why_tests_cant": "unbounded nesting, escapes in strings", "anchors": ["src/mln_json.c: mln_json_encode, mln_json_decode, mln_json_write_content"]}
{"id": "C42", "title": "JSON string decoding is memory safe", "statement": "While decoding any string literal, mln_json_decode never writes more bytes than the buffer it allocated for it.", "quantifier": "all byte strings between the quotes", "why_tests_cant": "needs particular combinations of escapes and raw bytes", "anchors": ["src/mln_json.c: mln_json_parse_string_fetch, mln_json_get_char, mln_json_encode_utf8"]}
{"id": "C43", "title": "JSON arrays decode to their elements", "statement": "Decoding a JSON array text gives an array whose length is the number of elements in the text, including zero.", "quantifier": "all array texts", "why_tests_cant": "input space", "anchors": ["src/mln_json.c: mln_json_parse_array"]}
{"id": "C44", "title": "JSON path index addresses the numbered element", "statement": "In mln_json_parse path expressions, a decimal component i selects element i of an array.", "quantifier": "all decimal components", "why_tests_cant": "input space", "anchors": ["src/mln_json.c: mln_json_parse_is_index, mln_json_parse"]}
{"id": "C45", "title": "ASN.1 decoding is bounds-safe", "statement": "mln_asn1_decode on any byte string reads only inside it, terminates, and every node of the result lies inside its parent's bytes.", "quantifier": "all byte strings", "why_tests_cant": "hostile length fields and nesting", "anchors": ["src/mln_asn1.c: mln_asn1_decode_recursive"]}
{"id": "C46", "title": "ASN.1 decode inverts encode", "statement": "Decoding the bytes built by the mln_asn1_encode_* functions for any tree of primitive and constructed values gives back the same tree.", "quantifier": "all trees with contents below 2^31 bytes", "why_tests_cant": "unbounded trees, length-form boundaries", "anchors": ["src/mln_asn1.c: mln_asn1_encode_sequence, mln_asn1_encode_octetstring, mln_asn1_decode"]}
{"id": "C47", "title": "WebSocket parse inverts generate", "statement": "For every opcode, flags, masking key and payload, parsing the frame produced by mln_websocket_generate gives back the same fields and payload.", "quantifier": "all payloads and keys", "why_tests_cant": "length-form boundaries, masking positions", "anchors": ["src/mln_websocket.c: mln_websocket_generate, mln_websocket_parse"]}
{"id": "C48", "title": "WebSocket parse never reads beyond the received bytes", "statement": "mln_websocket_parse on any received bytes reads only those bytes and reports not-yet when the frame is incomplete.", "quantifier": "all byte strings and truncations", "why_tests_cant": "hostile truncated frames", "anchors": ["src/mln_websocket.c: mln_websocket_parse"]}
{"id": "C49", "title": "Calendar conversion round-trips", "statement": "mln_utc2time(mln_time2utc(t)) = t for every t >= 0, the fields are a valid date, consecutive seconds give consecutive dates, and the weekday advances by one each day from Thursday 1970-01-01.", "quantifier": "all t >= 0", "why_tests_cant": "unbounded time range, leap-year rules", "anchors": ["src/mln_tools.c: mln_time2utc, mln_utc2time"]}
{"id": "C50", "title": "Date normalisation preserves the instant", "statement": "mln_utc_adjust keeps the instant denoted by the (possibly overflowing) fields and makes the fields a valid date.", "quantifier": "all field values in range of long without negatives", "why_tests_cant": "carry combinations", "anchors": ["src/mln_tools.c: mln_utc_adjust"]}
{"id": "C51", "title": "UTC/Generalized time strings denote their instant", "statement": "mln_s2time accepts exactly well-formed valid dates from 1970 on and returns the instant; encoding an instant and parsing it back restores it.", "quantifier": "all strings; all instants in the representable years", "why_tests_cant": "calendar corner cases", "anchors": ["src/mln_tools.c: mln_s2time", "src/mln_asn1.c: mln_asn1_encode_utctime, mln_asn1_encode_generalized_time"]}
{"id": "C52", "title": "Cron yields a strictly later time", "statement": "For a valid cron expression mln_cron_parse(exp, base) returns a time strictly after base matching the expression.", "quantifier": "all expressions and base times", "why_tests_cant": "calendar and list combinations", "anchors": ["src/mln_cron.c: mln_cron_parse, mln_cron_parse_minute, mln_cron_parse_hour"]}
{"id": "C53", "title": "Garbage collector frees exactly the unreachable suspects", "statement": "mln_gc_collect frees exactly the suspected items that are not reachable from the root set and the unsuspected items through the member relation.", "quantifier": "every object graph, suspect set and root set", "why_tests_cant": "graph shapes including cycles", "anchors": ["src/mln_gc.c: mln_gc_collect, mln_gc_collect_add, mln_gc_suspect"]}
{"id": "C54", "title": "File cache never closes a file in use", "statement": "After any history of mln_file_open/mln_file_close, a file whose opens exceed its closes is open in the cache, each path has at most one cached descriptor, and the number of cached but unused files never exceeds max_file.", "quantifier": "every history of opens and closes over any paths", "why_tests_cant": "eviction depends on the history", "anchors": ["src/mln_file.c: mln_file_open, mln_file_close"]}
{"id": "C55", "title": "Thread pool handles every resource exactly once", "statement": "Under every interleaving of the main thread and the children, each added resource is handed to exactly one handler call or to the free handler at shutdown, in FIFO order of removal, and counters equal the actual numbers of threads, idle threads and queued resources.", "quantifier": "every schedule and every history of mln_thread_pool_resource_add", "why_tests_cant": "schedules", "anchors": ["src/mln_thread_pool.c: mln_thread_pool_resource_add, mln_thread_pool_resource_remove, child_thread_launcher, mln_thread_pool_run"]}
{"id": "C56", "title": "I/O thread messages are delivered once, in order, with a wake-up pending", "statement": "Under every interleaving of senders and a receiver, each message accepted by mln_iothread_send is handled exactly once, in send order per direction, and whenever a queue is nonempty and its lock is free exactly one wake-up byte is pending on the receiving descriptor; a send with feedback returns only after its message was handled, and a receive handles all that was accepted before.", "quantifier": "every schedule", "why_tests_cant": "schedules; a lost wake-up only hangs rarely", "anchors": ["src/mln_iothread.c: mln_iothread_send, mln_iothread_recv"]}
{"id": "C57", "title": "Spin lock gives mutual exclusion", "statement": "Under every interleaving at most one thread is between a successful lock/trylock and its unlock (compiler-builtin implementation).", "quantifier": "every number of threads and every schedule", "why_tests_cant": "schedules", "anchors": ["src/mln_utils.c: spin_lock, spin_unlock, spin_trylock"]}
{"id": "C58", "title": "FEC recovers any single lost packet of a group", "statement": "For a group of RTP packets with consecutive sequence numbers, losing any one of them and decoding the rest with the FEC packet restores it byte for byte.", "quantifier": "all packet contents, lengths and loss positions", "why_tests_cant": "packet and length combinations", "anchors": ["src/mln_fec.c: mln_fec_encode, mln_fec_decode"]}
{"id": "C59", "title": "Pool blocks are big enough and disjoint", "statement": "Every block returned by mln_alloc_m has at least the requested size, and blocks that are live at the same time never overlap, after any history of alloc and free.", "quantifier": "every history of allocations and frees of any sizes", "why_tests_cant": "histories", "anchors": ["src/mln_alloc.c: mln_alloc_m, mln_alloc_free, mln_alloc_get_mgr_by_size"]}
{"id": "C60", "title": "Pool capacity is respected and returned", "statement": "With a capacity limit, the memory charged to a pool never exceeds it and returns to zero when everything is freed.", "quantifier": "every history including allocation failures", "why_tests_cant": "histories and failures", "anchors": ["src/mln_alloc.c: mln_alloc_m, mln_alloc_free, mln_alloc_available_capacity"]}
{"id": "C61", "title": "Shared-memory bitmap allocator hands out disjoint runs", "statement": "The bitmap allocator returns a run of free bits, marks exactly that run, and freeing clears exactly it, so live shared blocks never overlap and a fitting free run is always found.", "quantifier": "every bitmap and every request", "why_tests_cant": "2^32768 bitmap states", "anchors": ["src/mln_alloc.c: mln_alloc_shm_allowed, mln_alloc_shm_set_bitmap, mln_alloc_free_shm"]}
{"id": "C62", "title": "Big-endian macros round-trip", "statement": "mln_bigendian_decode after mln_bigendian_encode restores the low n bytes of every value.", "quantifier": "all values and byte counts", "why_tests_cant": "input space", "anchors": ["include/mln_utils.h: mln_bigendian_encode, mln_bigendian_decode"]}
{"id": "C63", "title": "RSA decrypt inverts encrypt", "statement": "For a key pair whose parameters satisfy the RSA equations, private decryption of a public encryption (and vice versa) returns the plaintext, whichever of the two exponentiation paths is taken.", "quantifier": "all keys satisfying the equations, all messages that fit", "why_tests_cant": "key and message space, rare negative CRT difference", "anchors": ["src/mln_rsa.c: mln_rsa_rsaep_rsadp, mln_rsa_pub_padding, mln_rsa_anti_padding_public, mln_RSAESPKCS1V15_public_encrypt, mln_RSAESPKCS1V15_private_decrypt"]}
{"id": "C64", "title": "AES conforms to FIPS 197", "statement": "A context made by mln_aes_init from any key of 16, 24 or 32 bytes encrypts every block exactly as the standard specifies (byte substitution from the GF(2^8) inverse, column mixing by polynomial multiplication, recursive key expansion).", "quantifier": "all keys and blocks, all three sizes", "why_tests_cant": "test vectors cover a handful of keys", "anchors": ["src/mln_aes.c: mln_aes_init, mln_aes_encrypt", "include/mln_aes.h: __MLN_AES_XTIME"]}
{"id": "C65", "title": "DES conforms to FIPS 46-3", "statement": "mln_des with the sub-keys computed by mln_des_init enciphers and deciphers every block exactly as the standard defines (tables, S-boxes, key schedule).", "quantifier": "all keys and blocks", "why_tests_cant": "test vectors exercise few S-box entries", "anchors": ["src/mln_des.c: mln_des_init, mln_des, mln_des_s_permute"]}
{"id": "C66", "title": "Case-insensitive comparison is zero exactly on strings equal up to ASCII case", "statement": "mln_string_strcasecmp on strings in different buffers returns 0 iff the lengths agree and the bytes agree up to the case of ASCII letters.", "quantifier": "all pairs of byte strings", "why_tests_cant": "input space; bytes around the letter range and embedded NULs", "anchors": ["src/mln_string.c: mln_string_strcasecmp, strncasecmp, __tolower"]}
{"id": "C67", "title": "Trimming and case mapping do exactly what they say", "statement": "mln_string_trim removes exactly the longest ends made of mask bytes; mln_string_upper and lower change exactly the ASCII letters and keep the length; both are idempotent.", "quantifier": "all strings and masks", "why_tests_cant": "input space", "anchors": ["src/mln_string.c: mln_string_trim, mln_string_upper, mln_string_lower"]}
{"id": "C68", "title": "Concatenation joins with the separator inside the allocated size", "statement": "mln_string_concat returns s1, separator, s2 (with missing arguments left out) and writes exactly the number of bytes allocated.", "quantifier": "all optional strings", "why_tests_cant": "combinations of missing arguments and lengths", "anchors": ["src/mln_string.c: mln_string_concat"]}
{"id": "C69", "title": "A duplicated big number behaves like the original", "statement": "The number returned by mln_bignum_dup (or pool_dup) compares equal to the original and gives the same result in every operation, whatever the newly allocated memory contained.", "quantifier": "all numbers, all contents of fresh memory", "why_tests_cant": "fresh memory is usually zero in a test", "anchors": ["src/mln_bignum.c: mln_bignum_dup", "src/mln_bignum.c: mln_bignum_pool_dup"]}
{"id": "C70", "title": "ASN.1 SET OF encoding is canonical", "statement": "mln_asn1_encode_setof gives the same bytes for the same values whatever order they were added in and however qsort orders equal elements.", "quantifier": "all lists of encoded values and all permutations", "why_tests_cant": "number of permutations; qsort stability is platform dependent", "anchors": ["src/mln_asn1.c: mln_asn1_encode_setof, mln_encode_setof_cmp"]}
{"id": "C71", "title": "ASN.1 bit strings carry exactly the bits given", "statement": "The content written by mln_asn1_encode_bitstring is the number of unused bits followed by the given bits, with every unused bit zero.", "quantifier": "all bit strings of any length", "why_tests_cant": "all residues of the length and all byte values", "anchors": ["src/mln_asn1.c: mln_asn1_encode_bitstring"]}
{"id": "C72", "title": "ASN.1 encoders stay inside the buffers they allocate", "statement": "Every mln_asn1_encode_* call writes exactly the bytes it allocated and keeps the size field equal to the total length, also after an earlier call failed for lack of memory.", "quantifier": "all call sequences and allocation outcomes", "why_tests_cant": "allocation failures at every position", "anchors": ["src/mln_asn1.c: mln_asn1_encode_add_content, mln_asn1_encode_merge, mln_asn1_encode_sequence"]}
{"id": "C73", "title": "I/O thread messages are never used after they are freed", "statement": "Whatever the feedback argument and whenever a message kept back is released, no thread touches a message after it was freed.", "quantifier": "all argument values and schedules", "why_tests_cant": "races of a few instructions", "anchors": ["src/mln_iothread.c: mln_iothread_send, mln_iothread_recv", "include/mln_iothread.h: mln_iothread_msg_release"]}
{"id": "C74", "title": "Inline-assembly spin lock gives mutual exclusion", "statement": "Under every interleaving at most one thread is between a successful lock/trylock and its unlock, with the xchg implementation used when the compiler test fails.", "quantifier": "every number of threads and every schedule", "why_tests_cant": "schedules; rarely compiled variant", "anchors": ["src/mln_utils.c: xchg, spin_lock, spin_unlock, spin_trylock"]}
{"id": "C75", "title": "Cron never steps back", "statement": "If none of the five fields begins with '/', a nonzero result of mln_cron_parse is never before the base time; it is strictly later when the minute field is '*'; '* * * * *' gives exactly one minute later; fewer than five fields yield no time.", "quantifier": "all expressions and all base times from the epoch on", "why_tests_cant": "calendar carry and arbitrary field text", "anchors": ["src/mln_cron.c: mln_cron_parse, mln_cron_parse_minute, mln_cron_parse_week"]}
{"id": "C76", "title": "Hash frees each key and value once", "statement": "With both freers set, after any history of insertions, removals with M_HASH_F_KV and lookups, and destruction with M_HASH_F_KV, every key and value inserted successfully has been passed to its freer exactly once and nothing else has.", "quantifier": "every hash function, equivalence comparator, table size, history and outcome of the allocations, across resizes", "why_tests_cant": "double free and leak depend on the whole history and on which allocation fails", "anchors": ["src/mln_hash.c: mln_hash_destroy, mln_hash_remove, mln_hash_entry_free, mln_hash_expand, mln_hash_reduce"]}
{"id": "C77", "title": "Hash insert/remove/search is a map across resizes", "statement": "For every table and every history of insert, remove, change_value, search and key_exist, every result is that of the list of successfully inserted pairs (first equal key wins), no freed memory is touched and the bucket count is positive.", "quantifier": "every hash function into range, equivalence comparator, table size, history and outcome of the allocations", "why_tests_cant": "the resize points depend on the whole history", "anchors": ["src/mln_hash.c: mln_hash_insert, mln_hash_remove, mln_hash_search, mln_hash_change_value, mln_hash_key_exist, mln_hash_expand, mln_hash_reduce"]}
{"id": "C78", "title": "JSON encoding stays inside its buffer", "statement": "mln_json_encode of any value whose numbers fit a 64-bit integer never writes beyond the buffer it grows, and returns exactly the text of the value: strings quoted with quote and backslash escaped, elements and members separated by single commas.", "quantifier": "all values of any depth and size", "why_tests_cant": "buffer growth depends on the total size and on where each piece falls", "anchors": ["src/mln_json.c: mln_json_encode, mln_json_write_content, mln_json_write_byte"]}
{"id": "C79", "title": "JSON decoding has no undefined behaviour", "statement": "mln_json_decode of any byte string under any policy reads and writes only inside the text and its own buffers, overflows no signed integer, and terminates.", "quantifier": "all byte strings, all policies", "why_tests_cant": "input space is infinite and undefined behaviour need not show in a run", "anchors": ["src/mln_json.c: mln_json_decode, mln_json_parse_json, mln_json_parse_obj, mln_json_parse_array, mln_json_parse_string, mln_json_parse_digit"]}
{"id": "C80", "title": "JSON policy limits are enforced", "statement": "A value decoded under a policy has at most the given nesting depth, key length, string length, array length and number of members, at every level; 0 means no limit.", "quantifier": "all texts, all policies", "why_tests_cant": "the limits interact with nesting and repeated keys; all combinations cannot be tried", "anchors": ["src/mln_json.c: mln_json_decode, mln_json_parse_obj, mln_json_parse_array, mln_json_parse_string"]}
{"id": "C81", "title": "JSON objects are maps", "statement": "After mln_json_obj_update(j, k, v), mln_json_obj_search(j, q) gives v for q equal to k and what it gave before for every other key (ASCII keys).", "quantifier": "all objects with ASCII keys, all keys and values", "why_tests_cant": "unbounded objects and keys; the order of the keys is unusual", "anchors": ["src/mln_json.c: mln_json_obj_update, mln_json_obj_search, mln_json_kv_rbtree_cmp"]}
{"id": "C82", "title": "Thread pool counters are exact", "statement": "As long as no pthread_create fails and no handler ends its thread, the thread, idle and resource counters of a pool equal the number of registered threads, of registered idle threads and of queued resources, and the number of threads never exceeds max plus the main thread.", "quantifier": "every schedule, limit and history of additions and quits", "why_tests_cant": "schedules", "anchors": ["src/mln_thread_pool.c: mln_thread_pool_member_join, mln_thread_pool_member_exit, mln_thread_pool_resource_add, mln_thread_pool_resource_remove, child_thread_launcher"]}
{"id": "C83", "title": "A queued resource has a thread to serve it", "statement": "With a limit of at least 1 (below 2^32-1), no failing allocation or thread creation and no failing wait, whenever the queue is not empty and quit was not requested some child thread is alive.", "quantifier": "every schedule and history, including idle children that time out at any moment", "why_tests_cant": "a time-out racing with an addition is a matter of microseconds", "anchors": ["src/mln_thread_pool.c: mln_thread_pool_resource_add, child_thread_launcher"]}
{"id": "C84", "title": "A failed addition leaves the resource with the caller", "statement": "When mln_thread_pool_resource_add returns an error the pool has not taken the resource: it will be passed neither to the handler nor to the free handler.", "quantifier": "every history and every failing call", "why_tests_cant": "needs failing malloc and pthread_create", "anchors": ["src/mln_thread_pool.c: mln_thread_pool_resource_add"]}
{"id": "C85", "title": "mln_alloc_re keeps contents and stays in bounds", "statement": "mln_alloc_re to a nonzero size either fails and changes nothing, or returns a block of at least the new size holding the old contents up to the smaller of both sizes, writes only inside that block, and leaves all other live blocks alone; also when the old block belongs to another pool.", "quantifier": "every pool state, pointer, size and contents", "why_tests_cant": "the overrun only corrupts a neighbour, which a test need not notice", "anchors": ["src/mln_alloc.c: mln_alloc_re"]}
{"id": "C86", "title": "The available capacity is what is left", "statement": "mln_alloc_available_capacity reports the capacity less the memory charged to the pool, and for a pool in shared memory the memory not in use.", "quantifier": "every pool state", "why_tests_cant": "depends on the history of the pool", "anchors": ["src/mln_alloc.c: mln_alloc_available_capacity"]}
{"id": "C87", "title": "FEC decoding is safe on any received packets", "statement": "mln_fec_decode stays inside its buffers and the packets, whatever packets of 12 to 1472 bytes it is given (they come from the network).", "quantifier": "all lists of packets", "why_tests_cant": "no test tries every packet", "anchors": ["src/mln_fec.c: mln_fec_decode"]}
{"id": "C88", "title": "FEC makes nothing up", "statement": "If no packet of a group is lost the decoder gives no packet, and if two or more are lost it fails; this holds for every order of arrival, repetitions and older packets among them.", "quantifier": "all groups, losses and orders of arrival", "why_tests_cant": "combinations of losses and orders", "anchors": ["src/mln_fec.c: mln_fec_decode"]}
{"id": "C89", "title": "A collection leaves items in use alone", "statement": "While mln_gc_collect cleans, it has references dropped (clean_searcher, mln_gc_clean_add) only from items that it frees.", "quantifier": "every object graph, suspect set and root set", "why_tests_cant": "graph shapes", "anchors": ["src/mln_gc.c: mln_gc_collect, mln_gc_clean_add"]}
{"id": "C90", "title": "The file cache closes the file longest out of use", "statement": "With 7-bit paths and memory available, mln_file_open of a cached path opens no descriptor; mln_file_close closes no descriptor while the file is still open elsewhere or the cache has room, and otherwise exactly one, that of the unused file whose last close is oldest.", "quantifier": "every history of opens and closes, every capacity", "why_tests_cant": "unbounded histories", "anchors": ["src/mln_file.c: mln_file_open, mln_file_close"]}
{"id": "C91", "title": "The file cache leaks no descriptor", "statement": "With 7-bit paths and memory available, after any history (failing open and fstat included) mln_fileset_destroy closes every descriptor the cache opened, each once.", "quantifier": "every history, every point of failure of open and fstat", "why_tests_cant": "points of failure and unbounded histories", "anchors": ["src/mln_file.c: mln_fileset_destroy, mln_file_free, mln_file_open"]}
{"id": "C92", "title": "Every key pair encrypts and decrypts", "statement": "A key pair made by mln_rsa_key_generate for an accepted number of bits decrypts with the private key what the public key encrypted, for every text of at least one octet that fits.", "quantifier": "every accepted number of bits, every pair of primes drawn, every text", "why_tests_cant": "key space; most keys of one size can be affected alike", "anchors": ["src/mln_rsa.c: mln_rsa_key_generate, mln_RSAESPKCS1V15_public_encrypt, mln_RSAESPKCS1V15_private_decrypt, mln_rsa_anti_padding_public"]}
{"id": "C93", "title": "The padding of a public encryption is unpredictable", "statement": "Knowing the first octet of the random padding of mln_RSAESPKCS1V15_public_encrypt does not determine the octets after it.", "quantifier": "every rand_r, every seed", "why_tests_cant": "a test sees only some octets", "anchors": ["src/mln_rsa.c: mln_rsa_pub_padding"]}
{"id": "C94", "title": "Decryption leaves the cipher text alone", "statement": "mln_RSAESPKCS1V15_private_decrypt does not change the caller's cipher text.", "quantifier": "every key pair, every text", "why_tests_cant": "key and message space", "anchors": ["src/mln_rsa.c: mln_RSAESPKCS1V15_private_decrypt"]}
{"id": "C95", "title": "Prime candidates have the requested width and primes are kept", "statement": "A number from mln_bignum_prime is odd, has exactly the requested width in bits and passed the stated number of rounds of the strong test; the rounds never reject a prime.", "quantifier": "every rand_r below 2^31, every clock, every width", "why_tests_cant": "random numbers and clock", "anchors": ["src/mln_bignum.c: mln_bignum_prime, mln_bignum_random_prime, mln_bignum_random_scope, mln_bignum_witness, mln_bignum_seperate"]}
{"id": "C96", "title": "Primes come from more than 2^32 candidates", "statement": "For widths above 33 bits mln_bignum_prime draws its candidates from more than 2^32 numbers.", "quantifier": "every rand_r, every width", "why_tests_cant": "size of a set of outcomes", "anchors": ["src/mln_bignum.c: mln_bignum_random_prime"]}
{"id": "C97", "title": "mln_bignum_prime gives a prime", "statement": "The number mln_bignum_prime gives is prime, whatever numbers are drawn.", "quantifier": "every rand_r, every clock", "why_tests_cant": "rare liars", "anchors": ["src/mln_bignum.c: mln_bignum_prime, mln_bignum_witness"]}
{"id": "C98", "title": "Setting timeouts again never overruns the heap's degree table", "statement": "When the timeout of a descriptor that already has one is set again (mln_event_fd_timeout_set deletes its heap node and inserts the same node again), the consolidation of the timeout heap stays inside its degree table, however many descriptors there are and however often this happens.", "quantifier": "every heap of timeouts, every sequence of later and later timeouts for the descriptor due next", "why_tests_cant": "the failure needs 66 descriptors and hundreds of renewals", "anchors": ["src/mln_event.c: mln_event_fd_timeout_set", "include/mln_fheap.h: mln_fheap_inline_delete, mln_fheap_inline_insert, mln_fheap_consolidate"]}
{"id": "C99", "title": "Matches lie inside the text", "statement": "Every string mln_reg_match stores is a stretch of consecutive bytes of the text, for every pattern, well formed or not; and the rest of the text mln_match_here leaves is an end of it.", "quantifier": "every pattern, every text", "why_tests_cant": "patterns are adversarial", "anchors": ["src/mln_regexp.c: mln_reg_match, mln_match_here, mln_match_square, mln_process_or"]}
{"id": "C100", "title": "Patterns of single bytes are found where they occur", "statement": "For a pattern of plain bytes, escapes and dots, with or without ^ and $, mln_reg_equal says 0 exactly when some stretch of the text fits byte by byte (at the start with ^, at the end with $), and mln_reg_match gives the leftmost matches that do not overlap, in order.", "quantifier": "every such pattern, every text", "why_tests_cant": "all patterns and texts of any length", "anchors": ["src/mln_regexp.c: mln_reg_equal, mln_reg_match, mln_match_here"]}
{"id": "C101", "title": "mln_reg_match gives all matches", "statement": "mln_reg_match gives all matches that do not overlap.", "quantifier": "every pattern, every text", "why_tests_cant": "needs patterns longer than what they match", "anchors": ["src/mln_regexp.c: mln_reg_match"]}
{"id": "C102", "title": "Every text can be searched for the bytes it has", "statement": "A pattern of the very bytes of a text, escaped where needed, is found in it, whatever the bytes are.", "quantifier": "every byte string", "why_tests_cant": "bytes above 127 are rarely tried", "anchors": ["src/mln_regexp.c: mln_get_char, mln_match_here"]}
{"id": "C103", "title": "mln_reg_equal says 0 when it finds something", "statement": "The value of mln_reg_equal is 0 when the pattern is found and negative when not.", "quantifier": "every pattern, every text", "why_tests_cant": "depends on the last byte of the pattern", "anchors": ["src/mln_regexp.c: mln_reg_equal"]}
{"id": "C104", "title": "Repetition counts mean what they say", "statement": "x{N} is found in a text of N bytes x and not in one of fewer.", "quantifier": "every byte, every count", "why_tests_cant": "counts of one digit work", "anchors": ["src/mln_regexp.c: mln_match_get_limit, mln_match_brace"]}
{"id": "C105", "title": "What follows a repetition has to match", "statement": "A pattern r after x*, x+ or x? is only found where r matches after the repetition, and a match that exists is found.", "quantifier": "every byte, every rest", "why_tests_cant": "the rest of the pattern is ignored only at the end of the text", "anchors": ["src/mln_regexp.c: mln_match_star, mln_match_plus, mln_match_question"]}
{"id": "C106", "title": "What follows an alternative has to match", "statement": "x|yz is only found in texts that have x or y with z after it.", "quantifier": "every byte, every rest", "why_tests_cant": "needs the second alternative and a byte after it", "anchors": ["src/mln_regexp.c: mln_process_or, mln_adjust_or_pos"]}
{"id": "C107", "title": "mln_reg_match reports nothing when nothing matches", "statement": "When mln_reg_equal finds no match, mln_reg_match gives no string.", "quantifier": "every pattern, every text", "why_tests_cant": "needs a group that matches inside a pattern that does not", "anchors": ["src/mln_regexp.c: mln_match_here, mln_reg_match"]}
{"id": "C108", "title": "Matching ends", "statement": "mln_reg_equal and mln_reg_match return for every pattern and text.", "quantifier": "every pattern, every text", "why_tests_cant": "non-termination", "anchors": ["src/mln_regexp.c: mln_match_star"]}
{"id": "C109", "title": "HTTP parsing depends on the bytes only", "statement": "mln_http_parse gives the same result, message and left-over bytes however the input is cut into buffers of a chain and, when it asks for more, however the input is cut into calls; it returns for every input.", "quantifier": "every chain, every cut, every state of the message, every handler that looks at bytes only", "why_tests_cant": "infinitely many cuts of infinitely many inputs", "anchors": ["src/mln_http.c: mln_http_parse, mln_http_line_length, mln_http_process_line"]}
{"id": "C110", "title": "Malformed HTTP input is reported", "statement": "When a line cannot be parsed, mln_http_parse returns M_HTTP_RET_ERROR.", "quantifier": "every input, every allocation failure", "why_tests_cant": "needs the value of every failing path", "anchors": ["src/mln_http.c: mln_http_parse"]}
{"id": "C111", "title": "Generated HTTP messages are exact", "statement": "For a message with known method, version and status mln_http_generate appends to the chain exactly the first line, the fields in order, the empty line and the body, in buffers of at most 1024 bytes that are not empty; or it reports that memory ran out.", "quantifier": "every message, every chain, every allocation failure", "why_tests_cant": "messages of any size across buffer borders", "anchors": ["src/mln_http.c: mln_http_generate, mln_http_generate_write"]}
{"id": "C112", "title": "HTTP messages can be put behind each other", "statement": "mln_http_generate on the chain and tail it gave before appends a second message.", "quantifier": "every two messages", "why_tests_cant": "pointer state after the call", "anchors": ["src/mln_http.c: mln_http_generate"]}
{"id": "C113", "title": "HTTP round trip", "statement": "What mln_http_generate writes, mln_http_parse reads back: type, method, version, status, uri, arguments, fields in order; the body is left; for every cut into buffers.", "quantifier": "every message with a sendable target and sendable fields", "why_tests_cant": "all messages", "anchors": ["src/mln_http.c: mln_http_generate, mln_http_parse"]}
{"id": "C114", "title": "A field value cannot add fields", "statement": "The receiver of a generated message sees as many fields as were set, whatever the values.", "quantifier": "every message, every value", "why_tests_cant": "needs adversarial values", "anchors": ["src/mln_http.c: mln_http_generate_fields_hash_iterate_handler"]}
{"id": "C115", "title": "HTTP fields: set, get, iterate", "statement": "mln_http_field_get returns what mln_http_field_set set and other names are not changed; mln_http_field_iterator gives all values of a name with commas between them.", "quantifier": "every table, every name and value", "why_tests_cant": "all tables", "anchors": ["src/mln_http.c: mln_http_field_set, mln_http_field_get, mln_http_field_iterator"]}
{"id": "C116", "title": "HTTP field names have no case", "statement": "mln_http_field_get finds a field whatever the case of the letters of the name.", "quantifier": "every name, every spelling", "why_tests_cant": "needs names in different buckets", "anchors": ["src/mln_http.c: mln_http_hash_calc, mln_http_hash_cmp"]}
{"id": "C117", "title": "HTTP field removal is complete", "statement": "After mln_http_field_remove no field of the name is left and all others are.", "quantifier": "every table", "why_tests_cant": "needs fields without value", "anchors": ["src/mln_http.c: mln_http_field_remove"]}
{"id": "C118", "title": "HTTP status numbers are read exactly", "statement": "The status of a parsed response is the number in the message, or the message is refused.", "quantifier": "every decimal number", "why_tests_cant": "numbers beyond 32 bits", "anchors": ["src/mln_http.c: mln_http_atou"]}
{"id": "C119", "title": "HTTP lines that are accepted are well formed", "statement": "A first line that is not refused is blank, a request line or a status line, and the message gets exactly its parts; a further line that is not refused is blank or a field, and that field is appended.", "quantifier": "every line, every state of the message", "why_tests_cant": "infinitely many lines", "anchors": ["src/mln_http.c: mln_http_parse_headline, mln_http_parse_field"]}
{"id": "C120", "title": "A connection sends what was queued, in order", "statement": "Over any calls of mln_tcp_conn_send the bytes taken by the socket followed by the bytes still queued are the bytes that were queued.", "quantifier": "every queue, every behaviour of the socket (partial writes, EINTR, EAGAIN, errors)", "why_tests_cant": "all interleavings of partial writes", "anchors": ["src/mln_connection.c: mln_tcp_conn_send, mln_tcp_conn_send_chain_memory, mln_tcp_conn_send_chain_file"]}
{"id": "C121", "title": "M_C_FINISH means that the message was sent", "statement": "When mln_tcp_conn_send returns M_C_FINISH, all bytes up to the buffer marked last in its chain were taken by the socket.", "quantifier": "every queue, every behaviour of the socket", "why_tests_cant": "needs a partial write of the last buffer", "anchors": ["src/mln_connection.c: mln_tcp_conn_send_chain_memory"]}
{"id": "C122", "title": "Buffers in files are sent", "statement": "mln_tcp_conn_send sends buffers in files like those in memory.", "quantifier": "every queue with buffers in files", "why_tests_cant": "needs queues that begin with a file", "anchors": ["src/mln_connection.c: mln_tcp_conn_send, mln_tcp_conn_send_chain_memory"]}
{"id": "C123", "title": "Receiving appends what was received", "statement": "mln_tcp_conn_recv appends the bytes received, in order, to the queue of those received and changes no other queue.", "quantifier": "every sequence of outcomes of recv", "why_tests_cant": "all sequences", "anchors": ["src/mln_connection.c: mln_tcp_conn_recv"]}
{"id": "C124", "title": "Lexing gives exactly the lexemes", "statement": "For a text without the bytes 254 and 255 and without preprocessing, the calls of token give the words, numbers, keywords and special characters of the text in their order with their text and type, then the end; what was not read is left.", "quantifier": "every text, every list of keywords, every buffer border in files", "why_tests_cant": "infinitely many texts", "anchors": ["include/mln_lex.h: PREFIX_NAME##_token, PREFIX_NAME##_process_keywords, PREFIX_NAME##_process_spec_char", "include/mln_lex.h: mln_lex_getchar, mln_lex_stepback, mln_lex_putchar"]}
{"id": "C125", "title": "Number tokens are the numbers", "statement": "A number is accepted exactly if it is an octal number with leading 0, a hexadecimal number with 0x, a decimal number or a real number with one point, and gets that type.", "quantifier": "every sequence of digits, letters and points", "why_tests_cant": "infinitely many texts", "anchors": ["include/mln_lex.h: PREFIX_NAME##_token"]}
{"id": "C126", "title": "Tokens carry the line and file where they stand", "statement": "The line of a token is one more than the newlines in front of it and its file is the file it was read from.", "quantifier": "every text", "why_tests_cant": "needs tokens at the border of inputs", "anchors": ["include/mln_lex.h: mln_lex_getchar, PREFIX_NAME##_new, PREFIX_NAME##_token"]}
{"id": "C127", "title": "Every byte of the input is data", "statement": "The end of the input is reported at the end of the input only and every byte is read.", "quantifier": "every text over all 256 bytes", "why_tests_cant": "needs the bytes 254 and 255", "anchors": ["include/mln_lex.h: MLN_EOF, MLN_ERR, mln_lex_getchar, mln_lex_stepback"]}
{"id": "C128", "title": "Every call of token returns", "statement": "token returns for every input.", "quantifier": "every input, with and without preprocessing", "why_tests_cant": "non-termination", "anchors": ["include/mln_lex.h: PREFIX_NAME##_token, PREFIX_NAME##_lex_preprocess_define, PREFIX_NAME##_lex_preprocess_undef, PREFIX_NAME##_nums_handler"]}
{"id": "C129", "title": "Conditional compilation and macros", "statement": "With preprocessing token gives the next token of the text after #if, #else, #endif, #define, #undef and macros have been carried out, for every nesting; only branches that are taken count.", "quantifier": "every text, every nesting, every set of macros", "why_tests_cant": "all nestings", "anchors": ["include/mln_lex.h: PREFIX_NAME##_lex_preprocess_if, PREFIX_NAME##_lex_preprocess_else, PREFIX_NAME##_lex_preprocess_endif, PREFIX_NAME##_lex_preprocess_define, PREFIX_NAME##_nums_handler", "src/mln_lex.c: mln_lex_condition_test"]}
{"id": "C130", "title": "A branch that is not taken has no effect", "statement": "Nothing in a branch that is not taken changes macros or makes the lexer fail.", "quantifier": "every text", "why_tests_cant": "needs commands in branches that are not taken", "anchors": ["include/mln_lex.h: PREFIX_NAME##_lex_preprocess_undef, PREFIX_NAME##_lex_preprocess_include, PREFIX_NAME##_nums_handler"]}
{"id": "C131", "title": "A failing call of token says why", "statement": "When token returns NULL, the error of the lexer is not MLN_LEX_SUCCEED.", "quantifier": "every input", "why_tests_cant": "needs every failing path", "anchors": ["include/mln_lex.h: PREFIX_NAME##_token, PREFIX_NAME##_lex_preprocess_define"]}
{"id": "C132", "title": "A class stands for the bytes it lists", "statement": "A pattern of plain bytes, escapes, dots and classes [..] or [^..] of bytes, escapes and ranges, with or without ^ and $, is found by mln_reg_equal exactly in the texts that have a stretch whose bytes are, one by one, listed (or, after ^, not listed).", "quantifier": "every such pattern, every text", "why_tests_cant": "all classes and texts", "anchors": ["src/mln_regexp.c: mln_match_square, mln_match_here, mln_get_char"]}
{"id": "C133", "title": "x+ and x|y|z are found where one of the bytes is", "statement": "mln_reg_equal finds x+ exactly in the texts that have an x, and x|y|..|z exactly in those that have one of the bytes.", "quantifier": "every byte, every number of alternatives, every text", "why_tests_cant": "all texts", "anchors": ["src/mln_regexp.c: mln_match_plus, mln_process_or, mln_adjust_or_pos"]}
{"id": "C134", "title": "Anchors inside a pattern match nothing", "statement": "A pattern with ^ behind, or $ before, an item is found in no text.", "quantifier": "every such pattern, every text", "why_tests_cant": "depends on single bytes of the text and on what follows the dollar sign", "anchors": ["src/mln_regexp.c: mln_match_here"]}
{"id": "C135", "title": "A class lists every byte written in it", "statement": "A text is found by [b] only if it has the byte b.", "quantifier": "every byte, every text", "why_tests_cant": "special for the bytes that have a meaning outside of classes", "anchors": ["src/mln_regexp.c: mln_match_square"]}
{"id": "C136", "title": "Running a text is evaluating its expressions", "statement": "mln_expr_run on a text that is written as constants, variables with namespaces, calls, if..then..else..fi and loop..do..end calls the callback exactly as evaluation from left to right does (same names, same arguments, same order) and returns the last value; NULL if the callback fails.", "quantifier": "every such text and nesting, every blanks, every callback whose evaluation ends", "why_tests_cant": "all texts, callbacks and numbers of iterations", "anchors": ["src/mln_expr.c: mln_expr_run, mln_expr_parse, mln_expr_parse_if, mln_expr_parse_loop"]}
{"id": "C137", "title": "if without else", "statement": "if c then t fi runs t if c is true and otherwise does nothing; what follows is run as usual.", "quantifier": "every condition, every branch, every callback", "why_tests_cant": "depends on the callback and on what follows", "anchors": ["src/mln_expr.c: mln_expr_parse_if"]}
{"id": "C138", "title": "A loop at the end of a text", "statement": "A loop is repeated until its condition is false, wherever the text ends.", "quantifier": "every callback", "why_tests_cant": "one missing byte at the end decides", "anchors": ["src/mln_expr.c: mln_expr_parse_loop", "src/mln_lex.c: mln_lex_snapshot_record, mln_lex_snapshot_apply"]}
{"id": "C139", "title": "The result can be used", "statement": "The value returned by mln_expr_run does not refer to memory that has been given back.", "quantifier": "every text, every callback", "why_tests_cant": "needs the life time of every value", "anchors": ["src/mln_expr.c: mln_expr_run, mln_expr_val_init"]}
{"id": "C140", "title": "Constants have the value they are written with", "statement": "A text that is a number gives that number; one that does not fit is refused.", "quantifier": "every number", "why_tests_cant": "all lengths", "anchors": ["src/mln_expr.c: mln_expr_val_init"]}
{"id": "C141", "title": "Texts that are no expressions are refused", "statement": "mln_expr_run returns NULL for a text that is not a sequence of expressions, and treats a comma at the end in one way.", "quantifier": "every text", "why_tests_cant": "all malformed texts", "anchors": ["src/mln_expr.c: mln_expr_parse"]}
{"id": "C142", "title": "Running a file is running its text", "statement": "mln_expr_run_file gives what mln_expr_run gives on the content of the file.", "quantifier": "every file of every length", "why_tests_cant": "loops need the part of the file that has been read already", "anchors": ["src/mln_expr.c: mln_expr_run_file", "src/mln_lex.c: mln_lex_snapshot_apply"]}
{"id": "C143", "title": "Strings and tokens of expressions", "statement": "Every token is read as it is written: names, numbers, keywords, signs, and strings in either kind of quotes with the escapes of the manual.", "quantifier": "every text of such tokens", "why_tests_cant": "all strings", "anchors": ["src/mln_expr.c: mln_expr_double_quote_handler, mln_expr_single_quote_handler, mln_expr_process_string, mln_expr_process_keywords"]}
{"id": "C144", "title": "Error values carry file, line and message", "statement": "RET packs the file, the line and the code of its place into one int; CODE gives the code back and mln_error_string prints file:line:message. A file that is not in the table, a line from 16383 on and a code without a message are printed as unknown.", "quantifier": "every table of files and messages, every file, line and code, every buffer that is long enough", "why_tests_cant": "the three fields share 31 bits; 2^31 combinations and every table", "anchors": ["include/mln_error.h: RET, CODE", "src/mln_error.c: mln_error_string"]}
{"id": "C145", "title": "Error texts stay inside the buffer", "statement": "mln_error_string writes no byte outside of the len bytes of its buffer and puts there as much of the text as fits.", "quantifier": "every buffer length, every error value", "why_tests_cant": "every combination of length and text", "anchors": ["src/mln_error.c: mln_error_string"]}
{"id": "C146", "title": "RET(0) is success", "statement": "RET(0) is 0 at every place of a program.", "quantifier": "every state of the tables, also before mln_error_init", "why_tests_cant": "the tables are global state", "anchors": ["include/mln_error.h: RET"]}
{"id": "C147", "title": "mln_matrix_mul is the matrix product", "statement": "The result of mln_matrix_mul is the product of its arguments if their sizes fit and NULL otherwise (numbers without rounding).", "quantifier": "every size and all entries", "why_tests_cant": "all matrices", "anchors": ["src/mln_matrix.c: mln_matrix_mul"]}
{"id": "C148", "title": "mln_matrix_inverse gives the inverse", "statement": "A result of mln_matrix_inverse is the inverse of the argument as it was, from both sides; a matrix without an inverse and one that is not square give NULL (numbers without rounding).", "quantifier": "every square matrix of every size", "why_tests_cant": "all matrices", "anchors": ["src/mln_matrix.c: mln_matrix_inverse"]}
{"id": "C149", "title": "Inverting leaves the argument alone", "statement": "After mln_matrix_inverse the matrix passed to it is what it was before.", "quantifier": "every matrix", "why_tests_cant": "all matrices", "anchors": ["src/mln_matrix.c: mln_matrix_inverse"]}
{"id": "C150", "title": "Invertible matrices have an inverse", "statement": "mln_matrix_inverse gives NULL only for matrices that have no inverse.", "quantifier": "every invertible matrix", "why_tests_cant": "all matrices", "anchors": ["src/mln_matrix.c: mln_matrix_inverse"]}
{"id": "C151", "title": "A configuration is what the file says", "statement": "Loading a file gives the commands outside of domains to main and every domain its commands, with their names, arguments and their order, whatever blanks and comments stand between the tokens; arguments are found by their number from 1 on.", "quantifier": "every file of commands and domains, every way to write it", "why_tests_cant": "all files", "anchors": ["src/mln_conf.c: mln_conf_load, _mln_conf_load, mln_conf_item_recursive, mln_conf_token, mln_conf_item_search"]}
{"id": "C152", "title": "Bad configuration files are refused", "statement": "A domain inside of a domain, a closing brace without a domain, a command without a name, a command without a semicolon and an argument that is neither a string, a character, a switch, a decimal number nor a real number make loading fail, wherever in the file they are.", "quantifier": "every file with such a place after any good entries", "why_tests_cant": "all files", "anchors": ["src/mln_conf.c: _mln_conf_load, mln_conf_item_recursive, mln_conf_item_init"]}
{"id": "C153", "title": "Incomplete configuration files are refused", "statement": "A file that ends inside of a command, a domain or a comment is refused.", "quantifier": "every file that is cut off", "why_tests_cant": "all files", "anchors": ["src/mln_conf.c: _mln_conf_load, mln_conf_lex_slash_handler"]}
{"id": "C154", "title": "A comment ends at */", "statement": "A comment in a configuration file goes from /* to the next */.", "quantifier": "every comment and everything behind it", "why_tests_cant": "all texts of comments", "anchors": ["src/mln_conf.c: mln_conf_lex_slash_handler"]}
{"id": "C155", "title": "Domains may have every name", "statement": "A domain of commands is accepted whatever its name is.", "quantifier": "every name", "why_tests_cant": "all names", "anchors": ["src/mln_conf.c: _mln_conf_load"]}
{"id": "C156", "title": "Reloading reports a bad file", "statement": "mln_conf_reload returns 0 only if the file could be loaded and all hooks agreed.", "quantifier": "every file, every list of hooks", "why_tests_cant": "all files", "anchors": ["src/mln_conf.c: mln_conf_reload"]}
{"id": "C157", "title": "Numbers in a configuration are exact", "statement": "A decimal number in a configuration file has the value that is written there, or the file is refused.", "quantifier": "every number", "why_tests_cant": "all numbers", "anchors": ["src/mln_conf.c: mln_conf_item_init_int"]}
{"id": "C158", "title": "The event loop uses no freed memory", "statement": "However descriptors are set, changed and cleared, by the program or by handlers of any descriptor including their own, mln_event_dispatch never uses a descriptor that was freed.", "quantifier": "every program, every behaviour of every handler, every sequence of events of epoll", "why_tests_cant": "needs all interleavings of events, timeouts and what handlers do", "anchors": ["src/mln_event.c: mln_event_dispatch, mln_event_fd_set, mln_event_fd_clr_set, mln_event_active_fd_process, mln_event_fd_timeout_process"]}
{"id": "C159", "title": "Only the handler that was given is called", "statement": "A handler called for an event of a descriptor is the one last given to mln_event_fd_set for this event since the descriptor was cleared; after it was cleared, also by its own handler or while events are waiting, nothing is called for it until it is set again.", "quantifier": "every program, every behaviour of handlers, every sequence of events", "why_tests_cant": "all histories", "anchors": ["src/mln_event.c: mln_event_fd_set, mln_event_active_fd_process"]}
{"id": "C160", "title": "Timeouts of descriptors are called when they are due", "statement": "The handler of a timeout is the last one given, and it is called only if the timeout was set, not taken back, the descriptor not cleared, and its time has come.", "quantifier": "every program, every history, all numbers of milliseconds", "why_tests_cant": "all histories and times", "anchors": ["src/mln_event.c: mln_event_fd_timeout_set, mln_event_fd_timeout_process"]}
{"id": "C161", "title": "Timers are called once, in time and in order", "statement": "A timer that was not cancelled is called once, not before its milliseconds are over and with its handler, none that is due earlier is left when it is called, and after a round none is left that was due when the round began.", "quantifier": "every program, every behaviour of handlers, all numbers of milliseconds", "why_tests_cant": "all histories and times", "anchors": ["src/mln_event.c: mln_event_timer_set, mln_event_timer_cancel, mln_event_timer_process"]}
{"id": "C162", "title": "Oneshot events are oneshot", "statement": "If an event of a descriptor is only set with M_EV_ONESHOT, its handler is called at most as often as the event was set.", "quantifier": "every program, every behaviour of handlers, every sequence of events", "why_tests_cant": "all histories", "anchors": ["src/mln_event.c: mln_event_fd_set, mln_event_dispatch"]}
{"id": "C163", "title": "Events that are set are delivered", "statement": "After an event of a descriptor was set and until it is cleared, the event is passed to its handler when epoll reports it, and epoll is asked for it.", "quantifier": "every program, every history", "why_tests_cant": "all continuations", "anchors": ["src/mln_event.c: mln_event_fd_append_set, mln_event_fd_normal_set, mln_event_dispatch, mln_event_fd_timeout_process"]}
{"id": "C164", "title": "The loop does not spin", "statement": "What epoll reports is passed to a handler or is no longer waited for, so that mln_event_dispatch does not go round without doing anything.", "quantifier": "every number of rounds", "why_tests_cant": "arbitrarily long runs", "anchors": ["src/mln_event.c: mln_event_dispatch"]}
{"id": "C165", "title": "What is signed is accepted", "statement": "A signature that mln_RSASSAPKCS1V15_sign makes with a private key is accepted by mln_RSASSAPKCS1V15_verify with the public key, for every message and each of the hashes MD5, SHA-1 and SHA-256.", "quantifier": "every key pair, message, hash, content of memory", "why_tests_cant": "key and message space", "anchors": ["src/mln_rsa.c: mln_RSASSAPKCS1V15_sign, mln_RSASSAPKCS1V15_verify, mln_EMSAPKCS1V15_encode, mln_EMSAPKCS1V15_decode"]}
{"id": "C166", "title": "Unknown hashes are refused", "statement": "mln_RSASSAPKCS1V15_sign returns NULL for every hash type but the three.", "quantifier": "every key, message and hash type", "why_tests_cant": "all numbers", "anchors": ["src/mln_rsa.c: mln_EMSAPKCS1V15_encode"]}
{"id": "C167", "title": "A signature is one of a hash", "statement": "If verification accepts, then the text that the public key gives for the signature contains the hash of the message, by one of the three algorithms; and if one signature is accepted for two messages, the messages agree in this hash.", "quantifier": "every key (also a malformed one), signature and message", "why_tests_cant": "all signatures", "anchors": ["src/mln_rsa.c: mln_RSASSAPKCS1V15_verify, mln_EMSAPKCS1V15_decode"]}
{"id": "C168", "title": "Nothing is accepted behind a signature", "statement": "A signature with anything added to it is refused.", "quantifier": "every key pair, message and addition", "why_tests_cant": "what is added", "anchors": ["src/mln_rsa.c: mln_RSASSAPKCS1V15_verify, mln_EMSAPKCS1V15_decode"]}
{"id": "C169", "title": "Nobody signs without the private key", "statement": "There is no string of octets that is accepted for a message by every public key of a kind.", "quantifier": "every message, exponent and size of modulus", "why_tests_cant": "a signature that the tests do not have", "anchors": ["src/mln_rsa.c: mln_RSASSAPKCS1V15_verify, mln_rsa_anti_padding_private"]}
{"id": "C170", "title": "Verification is safe", "statement": "mln_RSASSAPKCS1V15_verify reads only the signature and ends with a result, for every string of octets.", "quantifier": "every public key, message and signature", "why_tests_cant": "all signatures; reading one octet more goes unnoticed", "anchors": ["src/mln_rsa.c: mln_RSASSAPKCS1V15_verify, mln_rsa_anti_padding_private, mln_EMSAPKCS1V15_decode"]}
{"id": "C171", "title": "Verification keeps the signature", "statement": "Verifying leaves the signature as it is, so that it can be verified again.", "quantifier": "every public key and signature", "why_tests_cant": "tests verify once", "anchors": ["src/mln_rsa.c: mln_RSASSAPKCS1V15_verify, mln_RSAESPKCS1V15_public_decrypt"]}
{"id": "C172", "title": "Messages between master and workers arrive", "statement": "Whatever a process queues for another with mln_ipc_master_send_prepare or mln_ipc_worker_send_prepare, whatever parts the socket takes and whatever pieces arrive in whatever wakeups: the handlers of the receiver are called for exactly the messages that went out as a whole, once each, in the order they were queued, with their type, bytes and length.", "quantifier": "every list of messages below 4 GiB, history of writes, division of the stream into pieces and wakeups, and table of handlers", "why_tests_cant": "a test sends a few small messages, which arrive in one piece", "anchors": ["src/mln_fork.c: mln_ipc_master_send_prepare, mln_ipc_worker_send_prepare, mln_ipc_fd_handler_master, mln_ipc_fd_handler_master_process, mln_ipc_fd_handler_worker_process, mln_ipc_get_buf_with_len"]}
{"id": "C173", "title": "The last words of a worker", "statement": "The messages that a worker sent before it ended reach the handlers of the master.", "quantifier": "every list of messages followed by the end of the connection", "why_tests_cant": "needs the end to arrive in the same wakeup", "anchors": ["src/mln_fork.c: mln_ipc_fd_handler_master, mln_ipc_fd_handler_worker"]}
{"id": "C174", "title": "Messages without memory", "statement": "If there is no memory for a message it is dropped, the messages after it are delivered, and the event loop goes on.", "quantifier": "every list of messages and outcomes of malloc", "why_tests_cant": "needs malloc to fail at a given call", "anchors": ["src/mln_fork.c: mln_ipc_fd_handler_master_process, mln_ipc_fd_handler_worker_process, mln_ipc_discard_bytes"]}
{"id": "C175", "title": "A broken peer does no harm", "statement": "Whatever bytes arrive from a started program, the master reads inside of its own objects.", "quantifier": "every stream of bytes", "why_tests_cant": "the peer of a test is the library itself", "anchors": ["src/mln_fork.c: mln_ipc_fd_handler_master_process, mln_ipc_fd_handler_worker_process"]}
{"id": "C176", "title": "Long messages are queued or refused", "statement": "mln_ipc_master_send_prepare and mln_ipc_worker_send_prepare queue a message of any length, or refuse it.", "quantifier": "every length", "why_tests_cant": "a test does not send 4 GiB", "anchors": ["src/mln_fork.c: mln_ipc_master_send_prepare, mln_ipc_worker_send_prepare"]}
{"id": "C177", "title": "Handlers of messages", "statement": "After mln_ipc_set_process_handlers the handler for a type, in the master and in the workers, is the one registered last for it, and the handlers of other types are as before.", "quantifier": "every list of registrations and earlier table", "why_tests_cant": "tests register one handler", "anchors": ["src/mln_ipc.c: mln_ipc_set_process_handlers", "src/mln_fork.c: mln_fork_master_ipc_handler_set, mln_fork_worker_ipc_handler_set"]}
{"id": "C178", "title": "A failed registration changes nothing", "statement": "If setting a handler fails, the handler that was set before is still there.", "quantifier": "every table, type and failing allocation", "why_tests_cant": "needs malloc to fail at a given call", "anchors": ["src/mln_fork.c: mln_fork_master_ipc_handler_set, mln_fork_worker_ipc_handler_set"]}
{"id": "C179", "title": "Log lines are complete", "statement": "A message logged at or above the level in force appears in the log file as the time, the level, from debug on the file, function and line, the process, and exactly the text its format and arguments stand for; the terminal gets the same with colours exactly if the logger is initialised and the program is not a daemon; the lock is free afterwards.", "quantifier": "every level, place, format and arguments of matching types (doubles below 10^246)", "why_tests_cant": "tests log fixed messages to a terminal and nobody compares them", "anchors": ["src/mln_log.c: _mln_sys_log, _mln_sys_log_process, mln_log_write, mln_log_level_write"]}
{"id": "C180", "title": "Messages below the level leave no trace", "statement": "A message logged below the level in force changes nothing and writes nothing, whatever its format and arguments.", "quantifier": "every level, state, format and arguments", "why_tests_cant": "no output is hard to tell from output elsewhere", "anchors": ["src/mln_log.c: _mln_sys_log_process"]}
{"id": "C181", "title": "Percent signs in log messages", "statement": "A message with a doubled percent sign is logged as a whole, as with printf.", "quantifier": "every message", "why_tests_cant": "fixed messages in tests avoid the sign", "anchors": ["src/mln_log.c: _mln_sys_log_process"]}
{"id": "C182", "title": "Doubles in log messages", "statement": "Every finite double can be logged with %f.", "quantifier": "every double", "why_tests_cant": "tests log small numbers", "anchors": ["src/mln_log.c: _mln_sys_log_process"]}
{"id": "C183", "title": "The log level of the configuration", "statement": "At the start log_level sets the level it names, and anything else than the name of a level is refused.", "quantifier": "every argument of log_level", "why_tests_cant": "finitely many values are tried", "anchors": ["src/mln_log.c: mln_log_set_level"]}
{"id": "C184", "title": "Reloading the logger returns", "statement": "mln_log_reload returns, whatever the configuration says, and the lock is free afterwards.", "quantifier": "every configuration of the level and state", "why_tests_cant": "a test reloads valid configurations", "anchors": ["src/mln_log.c: mln_log_reload, mln_log_set_level, _mln_sys_log"]}
{"id": "C185", "title": "The path of the log file", "statement": "Whatever path is configured, it is the file that is used, with its directory and the file for the pid beside it, or it is refused.", "quantifier": "every path", "why_tests_cant": "tests use one short path", "anchors": ["src/mln_log.c: mln_log_get_log"]}
{"id": "C186", "title": "A log file that cannot be opened on a reload", "statement": "If the new log file cannot be opened, messages go on to the file used before, at the same level, and it is not closed.", "quantifier": "every configuration and state", "why_tests_cant": "needs failing system calls", "anchors": ["src/mln_log.c: mln_log_reload, mln_log_get_log"]}
{"id": "C187", "title": "A generated parser returns the meaning of the text", "statement": "For every grammar for which the generator makes a table, every text and all functions of productions that do not fail: if the parser returns a value, the text before an EOF token is derived by the grammar, and the value and the user's data are what the functions give, each called once per use of its production, after those of its parts, from left to right.", "quantifier": "every grammar of the form start: S EOF, all tokens, functions and user's data", "why_tests_cant": "infinitely many grammars and texts", "anchors": ["src/mln_parser_generator.c: mln_pg_calc_nullable, mln_pg_calc_first, mln_pg_closure, mln_pg_goto", "include/mln_parser_generator.h: build_shift_tbl, parse, sys_parse, shift, reduce_launcher"]}
{"id": "C188", "title": "A generated parser stays inside its table", "statement": "Whatever the text, the parser neither looks outside the table, nor pops from an empty stack, nor follows a null pointer.", "quantifier": "every grammar the generator accepts, all texts and functions", "why_tests_cant": "one grammar is tested", "anchors": ["src/mln_parser_generator.c: mln_pg_goto", "include/mln_parser_generator.h: build_shift_tbl, sys_parse"]}
{"id": "C189", "title": "A generated parser accepts the sentences of its grammar", "statement": "If the generator makes a table without a conflict, every sentence of the grammar is accepted.", "quantifier": "every grammar and sentence", "why_tests_cant": "infinitely many sentences", "anchors": ["src/mln_parser_generator.c: mln_pg_closure"]}
{"id": "C190", "title": "The order of the productions does not matter to the language", "statement": "Two grammars with the same productions in another order (the first one kept first), both accepted, have parsers that accept the same texts.", "quantifier": "every pair of such grammars, every text", "why_tests_cant": "tests use one order", "anchors": ["src/mln_parser_generator.c: mln_pg_calc_nullable"]}
{"id": "C191", "title": "A failing function makes the parser return NULL", "statement": "If the function of a production returns a negative number, the parser returns NULL.", "quantifier": "every grammar, text and functions", "why_tests_cant": "tests have no failing functions", "anchors": ["include/mln_parser_generator.h: parse, sys_parse, reduce_launcher"]}
{"id": "C192", "title": "The nullable tokens are calculated exactly", "statement": "For every grammar the calculation ends, and the tokens marked nullable are exactly those that derive the empty text.", "quantifier": "every list of productions", "why_tests_cant": "infinitely many grammars", "anchors": ["src/mln_parser_generator.c: mln_pg_calc_nullable"]}
{"id": "C193", "title": "The FIRST sets are calculated exactly", "statement": "For every grammar the calculation ends, everything in the FIRST set of a token begins something derived from it, and every terminal that begins something derived from it is in the set.", "quantifier": "every list of productions", "why_tests_cant": "infinitely many grammars", "anchors": ["src/mln_parser_generator.c: mln_pg_calc_first, mln_pg_calc_nullable"]}
{"id": "C194", "title": "States are found again", "statement": "mln_pg_calc_info_cmp orders the states, so that no state is made twice.", "quantifier": "every grammar", "why_tests_cant": "a test would have to compare states", "anchors": ["src/mln_parser_generator.c: mln_pg_calc_info_cmp, mln_pg_goto"]}
{"id": "C195", "title": "Searching on finds every value of a key once", "statement": "Calling mln_hash_search_iterator until the context is NULL gives every value stored under the key, each once, in bucket order.", "quantifier": "every table and key", "why_tests_cant": "infinitely many tables", "anchors": ["src/mln_hash.c: mln_hash_search_iterator"]}
{"id": "C196", "title": "Searching on ends with NULL", "statement": "A loop that calls mln_hash_search_iterator until it returns NULL ends.", "quantifier": "every table and key", "why_tests_cant": "the loop ends on most tables", "anchors": ["src/mln_hash.c: mln_hash_search_iterator"]}
{"id": "C197", "title": "The flag decides what a removal frees", "statement": "mln_hash_remove and mln_hash_reset call the free function of the key and of the value exactly as their flag says, for every entry concerned and for no other.", "quantifier": "every table, key and flag", "why_tests_cant": "freeing functions of tests do not count", "anchors": ["src/mln_hash.c: mln_hash_remove, mln_hash_entry_free"]}
{"id": "C198", "title": "A reset table is an empty table", "statement": "After mln_hash_reset no key is found, the count is 0, everything has been freed once as the flag says, and the table can be used as a new one of the same size.", "quantifier": "every table and flag", "why_tests_cant": "infinitely many histories", "anchors": ["src/mln_hash.c: mln_hash_reset"]}
{"id": "C199", "title": "Numbers of JSON texts have the value written", "statement": "In exact arithmetic a number with optional sign, fraction and exponent (that fits an int) is read as the rational number the text denotes, whatever delimiter follows.", "quantifier": "every such text", "why_tests_cant": "infinitely many numbers", "anchors": ["src/mln_json.c: mln_json_digit_process, mln_json_parse_digit"]}
{"id": "C200", "title": "Only numbers of the JSON grammar are taken", "statement": "A number without digits behind the point or behind the e is refused.", "quantifier": "every text", "why_tests_cant": "tests contain well-formed numbers", "anchors": ["src/mln_json.c: mln_json_digit_process"]}
{"id": "C201", "title": "Text behind a JSON value and a missing colon are refused", "statement": "mln_json_decode refuses an object or array followed by anything but blanks, and a member whose name is followed by anything but blanks and a colon.", "quantifier": "every text of a value, every byte", "why_tests_cant": "infinitely many texts", "anchors": ["src/mln_json.c: mln_json_decode, mln_json_parse_obj"]}
{"id": "C202", "title": "Statements of scripts do what the statements of C do", "statement": "Sequences, blocks, while, for, if/else, switch with fall-through, break, continue and return of a script have the effect on the variables, and give the returned value, that the same statements have in C; a missing loop condition is true; break or continue outside of a loop and failing operators end the script with an error.", "quantifier": "every script built from these statements, every operator semantics, every initial store", "why_tests_cant": "infinitely many scripts and stores", "anchors": ["src/mln_lang.c: mln_lang_run_handler, mln_lang_stack_handler_stm, _block, _while, _for, _if, _switch, _switchstm, mln_lang_met_return, mln_lang_withdraw_to_loop, mln_lang_withdraw_break_loop"]}
{"id": "C203", "title": "Scripts stop exactly when they should", "statement": "The interpreter of a script stops if and only if the execution of the script is finite.", "quantifier": "every script, every store", "why_tests_cant": "non-termination cannot be observed by a test", "anchors": ["src/mln_lang.c: mln_lang_run_handler and the stack handlers"]}
{"id": "C204", "title": "No script makes the interpreter access memory through a null pointer", "statement": "Running a script that the parser accepts never dereferences a null pointer.", "quantifier": "every script, every store, every number of steps", "why_tests_cant": "infinitely many scripts", "anchors": ["src/mln_lang.c: mln_lang_generate_jump_ptr, mln_lang_stack_handler_switchstm, mln_lang_stack_handler_if, mln_lang_stack_handler_assign"]}
{"id": "C205", "title": "Expressions of scripts have the value of the ordinary evaluation", "statement": "Evaluating an expression with the run stack gives the value and the variables of a recursive left-to-right evaluation with left-associative operators of each level, leaves the stack below as it was, and quits when an operator fails.", "quantifier": "every expression of identifiers, literals, parentheses, unary, binary, increment and assignment operators; every stack below; every store", "why_tests_cant": "infinitely many expressions", "anchors": ["src/mln_lang.c: mln_lang_stack_handler_exp, _assign, _logiclow, _logichigh ... _muldiv, _not, _suffix, _locate, _spec, _factor, mln_lang_generate_jump_ptr, mln_lang_stack_popuntil"]}
{"id": "C206", "title": "&& binds tighter than || and both stop early", "statement": "A chain of operands joined by && and || is true exactly when the disjunction of the conjunctions is; operands that cannot change the result are not evaluated.", "quantifier": "every chain of every length, every operand", "why_tests_cant": "2^n combinations for every length", "anchors": ["src/mln_lang.c: mln_lang_stack_handler_logiclow"]}
{"id": "C207", "title": "Assigning a variable its own value leaves it as it is", "statement": "x = x, x = (x), and x = (x = v) leave x with the value assigned.", "quantifier": "every variable, every value", "why_tests_cant": "values of every type", "anchors": ["src/mln_lang.c: __mln_lang_var_value_set, mln_lang_stack_handler_assign"]}
{"id": "C208", "title": "All expressions of a statement are evaluated", "statement": "The statement e1, e2, ...; evaluates every expression.", "quantifier": "every list of expressions", "why_tests_cant": "infinitely many statements", "anchors": ["src/mln_lang.c: mln_lang_generate_jump_ptr, mln_lang_stack_handler_stm, mln_lang_stack_handler_block_exp"]}
{"id": "C209", "title": "A for loop without condition runs until it is left", "statement": "for (init; ; mod) body runs its body for ever unless a break, return or error ends it.", "quantifier": "every init, mod and body", "why_tests_cant": "an endless loop cannot be observed", "anchors": ["src/mln_lang.c: mln_lang_stack_handler_for"]}
{"id": "C210", "title": "continue belongs to the loop and default to no value", "statement": "continue inside a switch inside a loop starts the next round of the loop; a default is taken only when no case of the switch matches, wherever it is written.", "quantifier": "every loop, every switch", "why_tests_cant": "infinitely many scripts", "anchors": ["src/mln_lang.c: mln_lang_withdraw_to_loop, mln_lang_stack_handler_switchstm"]}
{"id": "C211", "title": "Operands have the value they had when they were evaluated", "statement": "In a + b the value of a is the one before b is evaluated.", "quantifier": "every operand with effects", "why_tests_cant": "infinitely many expressions", "anchors": ["src/mln_lang.c: mln_lang_stack_handler_addsub and the other binary levels"]}
{"id": "C212", "title": "A cron period counts from the base", "statement": "'*/p * * * *' gives the time exactly p minutes after the base, and so does 'm/p * * * *' in minute m; a negative period, or one of 60 minutes and more, gives no time; the weekday 7 means the same as 0 whatever the other fields are.", "quantifier": "all base times, all periods, all texts of the other fields", "why_tests_cant": "calendar carry", "anchors": ["src/mln_cron.c: mln_cron_parse_minute, mln_cron_parse_week"]}
{"id": "C213", "title": "A cron period names the multiples", "statement": "'*/p' in the minute field selects the minutes that are multiples of p, as usual for cron.", "quantifier": "all base times and periods", "why_tests_cant": "needs a reference meaning of the expression", "anchors": ["src/mln_cron.c: mln_cron_parse_minute"]}
{"id": "C214", "title": "FEC packets fit into a datagram", "statement": "No FEC packet and no restored packet is longer than 1472 bytes; mln_fec_encode refuses packets below 12 or beyond 1442 bytes and group sizes of 0 or beyond 48; mln_fec_decode refuses two FEC packets at once and packets below 12 or beyond 1472 bytes.", "quantifier": "all packets and groups", "why_tests_cant": "lengths and contents", "anchors": ["src/mln_fec.c: mln_fec_encode, mln_fec_decode, mln_fec_generate_fecpacket"]}
{"id": "C215", "title": "Mutual exclusion in the thread pool", "statement": "In every schedule, at most one thread is between locking and unlocking the pool mutex, it is the one that owns it, and the mutex is free whenever no thread is there; also with errors of pthread_cond_timedwait, handlers that end their thread and failing pthread_create.", "quantifier": "every schedule and every history", "why_tests_cant": "schedules", "anchors": ["src/mln_thread_pool.c: child_thread_launcher, mln_thread_pool_resource_add, mln_thread_quit, mln_thread_pool_run"]}
{"id": "C216", "title": "Comparisons of script values are consistent", "statement": "For all integers, reals, booleans and nil: a != b is the opposite of a == b, a > b is b < a, a >= b is b <= a, a <= b is the opposite of a > b (also in which operands are errors); numbers are ordered as numbers whatever their types; a == a is true; values of the same number type are equal exactly if they are the same.", "quantifier": "all pairs of values", "why_tests_cant": "all pairs of 64-bit integers and reals", "anchors": ["src/mln_lang_int.c: mln_lang_int_equal and following", "src/mln_lang_real.c", "src/mln_lang_bool.c", "src/mln_lang_nil.c"]}
{"id": "C217", "title": "Equality of script values is symmetric and excludes less-than", "statement": "a == b gives the same as b == a, and exactly one of a < b, a == b, a > b holds for numbers.", "quantifier": "all pairs of values", "why_tests_cant": "all pairs of 64-bit integers and reals", "anchors": ["src/mln_lang_int.c: mln_lang_int_equal"]}
{"id": "C218", "title": "Integer arithmetic in scripts", "statement": "+ - * on integers give the exact result if it is a 64-bit integer and are undefined behaviour otherwise; / and % give the truncated quotient q and the remainder m with q*b+m=a, |m|<|b|, m of the sign of a; a zero divisor is an error; >> by 0..63 divides by the power of two rounding down; the smallest integer divided by -1, and shifts by other counts, are undefined behaviour.", "quantifier": "all integers", "why_tests_cant": "all pairs of 64-bit integers", "anchors": ["src/mln_lang_int.c: mln_lang_int_plus, mln_lang_int_sub, mln_lang_int_mul, mln_lang_int_div, mln_lang_int_mod, mln_lang_int_lmov, mln_lang_int_rmov"]}
{"id": "C219", "title": "Compound assignments of scripts abbreviate", "statement": "a op= b does what a = a op b does.", "quantifier": "all values and all ten operators", "why_tests_cant": "all pairs of values", "anchors": ["src/mln_lang.c: mln_lang_stack_handler_assign", "src/mln_lang_int.c", "src/mln_lang_real.c", "src/mln_lang_bool.c"]}
{"id": "C220", "title": "Negation is the opposite of a condition", "statement": "!v is true exactly if v counts as false in if, while and the like.", "quantifier": "all values", "why_tests_cant": "all reals", "anchors": ["src/mln_lang.c: mln_lang_condition_is_true", "src/mln_lang_real.c: mln_lang_real_not"]}
{"id": "C221", "title": "Increment and decrement are inverse", "statement": "If x++ succeeds, it gives the old value, and --x afterwards restores it.", "quantifier": "all values", "why_tests_cant": "all integers", "anchors": ["src/mln_lang_int.c: mln_lang_int_sinc, mln_lang_int_pdec", "src/mln_lang_real.c: mln_lang_real_sinc"]}
{"id": "C222", "title": "Passing messages between threads is memory safe", "statement": "Whatever the threads of the multithread framework write, in whatever pieces it is read, however slowly they read, and whenever threads start, end, fail and start again, and whichever allocations fail: the main thread never uses an entry or a thread that is gone, and the two chains of waiting messages (of the sender and of the receiver) stay consistent.", "quantifier": "every sequence of events", "why_tests_cant": "histories", "anchors": ["src/mln_thread.c: mln_main_thread_itc_recv_handler, mln_main_thread_itc_send_handler, mln_thread_deal_child_exit, mln_thread_clear_msg_queue"]}
{"id": "C223", "title": "A waiting message is not forgotten", "statement": "Whenever a message waits for a thread or is partly written to it, the main thread waits for that thread's socket to become writable.", "quantifier": "every sequence of events", "why_tests_cant": "histories", "anchors": ["src/mln_thread.c: mln_main_thread_itc_recv_handler_process, mln_main_thread_itc_send_handler"]}
{"id": "C224", "title": "Messages between two threads arrive once, in order, with the true sender", "statement": "Of what thread a wrote, the messages for thread b, and no others in a's name, are written to b, whole, each once, in their order, changed in nothing but that src is a's name; however the bytes are cut and whatever other threads do, as long as both threads go on, their names are their own, and memory suffices.", "quantifier": "every sequence of events", "why_tests_cant": "histories; all ways to cut a stream", "anchors": ["src/mln_thread.c: mln_itc_get_buf_with_len, mln_main_thread_itc_recv_handler_process, mln_main_thread_itc_send_handler"]}
{"id": "C225", "title": "Only messages are taken for messages", "statement": "As long as no thread ends, the main thread reads as a message only bytes that a thread wrote as one, if the threads write nothing but messages.", "quantifier": "every sequence of events", "why_tests_cant": "all ways to cut a stream", "anchors": ["src/mln_thread.c: mln_itc_get_buf_with_len"]}
{"id": "C226", "title": "The last messages of a thread are delivered", "statement": "A message that a thread writes before it ends is passed on.", "quantifier": "every message", "why_tests_cant": "depends on what is noticed at the same time", "anchors": ["src/mln_thread.c: mln_main_thread_itc_recv_handler"]}
{"id": "C227", "title": "The end of a thread is clean", "statement": "When a thread ends, the messages read from it and not passed on are freed, and nothing else is.", "quantifier": "every history and every way to cut the stream", "why_tests_cant": "all ways to cut a stream", "anchors": ["src/mln_thread.c: mln_thread_itc_chain_release_msg, mln_thread_destroy"]}
{"id": "C228", "title": "The WebSocket handshake succeeds", "statement": "For every target, arguments and further fields, the request a client generates, cut in any way, is understood by the server's HTTP parser and recognised as a WebSocket request; the answer the server generates to it, cut in any way, is parsed and validated by a client that has the key it sent.", "quantifier": "every client and server object with sendable fields that are not the handshake's, every random key, every way to cut the streams", "why_tests_cant": "all targets, fields, keys and ways to cut", "anchors": ["src/mln_websocket.c: mln_websocket_handshake_request_generate, mln_websocket_handshake_response_generate, mln_websocket_is_websocket, mln_websocket_validate"]}
{"id": "C229", "title": "The bytes of the WebSocket handshake", "statement": "The request is GET with target, a Sec-WebSocket-Key that is base64 of 16 bytes, Upgrade, Connection and version 13; the answer is 101 with the joined protocols, the names of the extensions and base64(SHA-1(key ++ guid)).", "quantifier": "every key, target and request", "why_tests_cant": "all keys", "anchors": ["src/mln_websocket.c: mln_websocket_accept_field, mln_websocket_extension_tokens, mln_websocket_client_handshake_key_generate"]}
{"id": "C230", "title": "A client accepts exactly the right answers", "statement": "mln_websocket_validate gives success exactly for a response 101 whose Upgrade is websocket, whose Connection list has Upgrade, and whose accept value is the one for the client's key.", "quantifier": "every answer and key", "why_tests_cant": "all accept values", "anchors": ["src/mln_websocket.c: mln_websocket_validate, mln_websocket_validate_accept"]}
{"id": "C231", "title": "A client can validate the answer to its own request", "statement": "After mln_websocket_handshake_request_generate, mln_websocket_validate checks the answer against the key that was sent.", "quantifier": "every client, every answer", "why_tests_cant": "", "anchors": ["src/mln_websocket.c: mln_websocket_handshake_request_generate, mln_websocket_validate"]}
{"id": "C232", "title": "No request makes the server's handshake use memory it does not have", "statement": "For every request that mln_websocket_is_websocket takes, mln_websocket_handshake_response_generate stays within its memory.", "quantifier": "every request, every failure of an allocation", "why_tests_cant": "all requests and failures", "anchors": ["src/mln_websocket.c: mln_websocket_handshake_response_generate, mln_websocket_accept_field, mln_websocket_extension_tokens"]}
{"id": "C233", "title": "A WebSocket request that could not be built is not sent", "statement": "mln_websocket_handshake_request_generate stays within its memory whatever allocation fails, and reports success only when the request has all its fields.", "quantifier": "every failure of an allocation", "why_tests_cant": "depends on failing allocations", "anchors": ["src/mln_websocket.c: mln_websocket_handshake_request_generate"]}
{"id": "C234", "title": "Fields of a WebSocket object", "statement": "A field that was set is found with its value; setting it changes no field with another name.", "quantifier": "every table of fields", "why_tests_cant": "all names", "anchors": ["src/mln_websocket.c: mln_websocket_set_field, mln_websocket_get_field"]}
{"id": "C235", "title": "Implicit tags change the tag and nothing else", "statement": "After mln_asn1_encode_implicit(res, i, index) with a tag number i below 32 the value at the index has class context-specific and number i and the same form (primitive or constructed), length and contents; the other values and the total size stay, a receiver decodes the value back under the new tag, and an index without a value is refused with nothing changed.", "quantifier": "all results, all trees of values, all numbers below 32, all indexes", "why_tests_cant": "The statement is about every nesting of values and every first byte; tests try a few.", "anchors": ["src/mln_asn1.c:1000-1009 mln_asn1_encode_implicit", "src/mln_asn1.c:55-180 decoder"]}
{"id": "C236", "title": "An implicit tag number that does not fit is refused", "statement": "mln_asn1_encode_implicit with a tag number that does not fit into the five bits of the first byte leaves the value well-formed: it is refused, or encoded in the long form.", "quantifier": "all results and numbers", "why_tests_cant": "The wrong byte is only seen by a receiver that interprets the form bit.", "anchors": ["src/mln_asn1.c:1000-1009 mln_asn1_encode_implicit"]}
{"id": "C237", "title": "The parser generator hands out a table exactly if there is no conflict", "statement": "PREFIX_parser_generate gives a table exactly if no two items of a state ask for different actions at one token; in a table that is handed out every row does for every item of its state what the item says: reduce its production at every lookahead, shift or accept at the token behind the dot.", "quantifier": "all grammars, all sets of states", "why_tests_cant": "The conflict flag has to survive every order in which items are entered; tests look at a few grammars.", "anchors": ["include/mln_parser_generator.h:258-362 PREFIX_reduce_iterate_handler, PREFIX_build_shift_tbl"]}
{"id": "C238", "title": "The states of the parser generator are closed", "statement": "Every state with which the generator ends contains, for every item with a token behind the dot and every production of this token, the item at the beginning of that production, with every token in its lookahead that the generator takes to follow; this still holds after lookaheads of other states were merged into it.", "quantifier": "all grammars (start production with the end of file, as the generator builds them), all addresses of tokens, all numbers of rounds", "why_tests_cant": "The fixpoint needs the change flag in every branch; a missed round loses lookaheads only for grammars with long chains.", "anchors": ["src/mln_parser_generator.c:506-567 mln_pg_closure", "src/mln_parser_generator.c:628-813 mln_pg_goto, mln_pg_state_duplicate"]}
{"id": "C239", "title": "Lists with a sentinel keep their nodes in order", "statement": "After any history of mln_list_add and mln_list_remove on any number of lists whose sentinels were set to mln_list_null(), walking a list from mln_list_head with mln_list_next gives exactly the nodes that were added and not removed, in the order in which they were added; walking from mln_list_tail with mln_list_prev gives them in reverse order; no call dereferences NULL, and no other memory is changed.", "quantifier": "all heaps, all numbers of lists, all histories in which a node is added only if it is in no list and removed only from its list", "why_tests_cant": "The head and tail are fields of a node of the same heap, which the generated code reads and writes several times; every interleaving over several lists counts.", "anchors": ["src/mln_list.c:9-18 mln_list_add, mln_list_remove", "include/mln_list.h:9-18", "include/mln_utils.h:112-142 MLN_CHAIN_FUNC_DEFINE"]}
{"id": "C240", "title": "The spans are the tree of the calls", "statement": "Tracing from mln_span_start to mln_span_stop in the same function never aborts, and afterwards mln_span_dump reports exactly the wrapped calls this thread made in between: callers before the called, calls of one function in their order, each with its depth and the times at which it began and ended; calls of other threads leave no trace; with a clock that does not go back every call lies within the time of its caller.", "quantifier": "all trees of calls, all interleavings with calls of other threads, all clocks, all states before", "why_tests_cant": "The tree is built through a stack and chains over the whole run of the program; tests look at one small tree.", "anchors": ["src/mln_span.c:19-201", "include/mln_span.h:63-96", "include/mln_func.h:15-60 MLN_FUNC"]}
{"id": "C241", "title": "Releasing the spans frees each once", "statement": "mln_span_release after a traced run frees every span made in the run exactly once and nothing else.", "quantifier": "all trees of calls", "why_tests_cant": "A leak or double free depends on the shape of the tree.", "anchors": ["src/mln_span.c:32-52 mln_span_chain_del", "src/mln_span.c:137-146 mln_span_free", "include/mln_span.h:81-84"]}
{"id": "C242", "title": "Tracing can be stopped at any depth", "statement": "mln_span_stop may be called in another wrapped function than mln_span_start: after the starting function has returned or in a function it called; the process goes on and the tree is whole.", "quantifier": "all calls before and after", "why_tests_cant": "The abort needs a return between start and stop.", "anchors": ["src/mln_span.c:171-184 mln_span_exit", "include/mln_span.h:74-79 mln_span_stop"]}
{"id": "C243", "title": "The goto of an item is the item moved on, with its lookaheads", "statement": "In the states the parser generator makes, whenever an item is given a goto to state j, state j exists and holds the item with the dot one token further and with at least its lookaheads - also when lookaheads were added after the goto had been made - and state 0 holds the start item.", "quantifier": "every grammar and order of states", "why_tests_cant": "Lookaheads that arrive late at a state already made must travel on through all states behind it; which orders occur depends on the grammar.", "anchors": ["src/mln_parser_generator.c: mln_pg_goto, mln_pg_calc_info_cmp", "include/mln_parser_generator.h: mln_pg_goto macro body"]}
{"id": "C244", "title": "A generated parser accepts exactly the sentences of its grammar, each with its value", "statement": "If the generator makes a table, then a text of terminals is given a value exactly if it begins with a sentence followed by EOF, the value is the one that the reduction functions give to the sentence, and so each sentence has only one value.", "quantifier": "every grammar and text", "why_tests_cant": "Completeness of an LALR table is a statement about all sentences of the grammar, infinitely many.", "anchors": ["include/mln_parser_generator.h: sys_parse, build_shift_tbl", "src/mln_parser_generator.c: mln_pg_closure, mln_pg_goto, mln_pg_calc_first"]}
{"id": "C245", "title": "A script file is opened from the first directory of the search path that has it", "statement": "With MELANG_PATH (or MELANG_DYNAMIC_PATH) d1;d2;...;dn, a relative path that does not exist in the working directory is opened in the first directory that has it; if none of d1..dn-1 has it, in dn, or in the library's own directory if the value ends with a semicolon.", "quantifier": "every value of the variable, file system and path whose joined names fit in 1022 bytes", "why_tests_cant": "The number of directories, their names and which files exist are unbounded; a test sets one variable.", "anchors": ["src/mln_lang_ast.c: mln_lang_ast_file_open", "src/mln_lang.c: mln_lang_import_handler"]}
{"id": "C246", "title": "Looking for a file leaves the search path as it is", "statement": "After any number of lookups the next one still searches all directories of the variable.", "quantifier": "every value of the variable and sequence of lookups", "why_tests_cant": "The damage is done to the string that getenv returned and seen only by a later lookup.", "anchors": ["src/mln_lang_ast.c: mln_lang_ast_file_open", "src/mln_lang.c: mln_lang_import_handler"]}
{"id": "C247", "title": "No path makes the search write outside its buffer", "statement": "The functions that join a directory and a name in a buffer of 1024 bytes (search of scripts, @ includes, Import, its error message, Eval with @) stay inside the buffer.", "quantifier": "every directory and name of any length", "why_tests_cant": "Only names near the size of the buffer show it, and then as silent corruption of the stack.", "anchors": ["src/mln_lang_ast.c: mln_lang_ast_file_open", "src/mln_lex.c: mln_lex_input_new", "src/mln_lang.c: mln_lang_import_handler, mln_lang_func_eval_process"]}
{"id": "C248", "title": "Jobs, names and cached syntax trees stay consistent", "statement": "After every history of creating, freeing, suspending, continuing and launching jobs, with scripts that create, kill and suspend: a job is in the run chain exactly if it is not suspended and otherwise in the wait chain, once; a registered name belongs to an existing job of that name; an entry of the cache of syntax trees counts exactly the jobs that use it, has at least one, and a job's entry is there as long as the job.", "quantifier": "all histories", "why_tests_cant": "The histories are unbounded and include failures at each point of the creation of a job.", "anchors": ["src/mln_lang.c: mln_lang_job_new, mln_lang_ctx_new, mln_lang_ctx_free, mln_lang_ctx_suspend, mln_lang_ctx_continue, mln_lang_run_handler, mln_lang_ast_cache_search"]}
{"id": "C249", "title": "While a job can run the launcher is registered", "statement": "After every operation of the program and every turn, if the run chain is not empty the launcher is signalled: no job is forgotten.", "quantifier": "all histories", "why_tests_cant": "A lost wake-up shows only as a job that stops for ever in one particular order of events.", "anchors": ["src/mln_lang.c: mln_lang_run_handler, mln_lang_ctx_continue, mln_lang_job_new, __mln_lang_job_free"]}
{"id": "C250", "title": "Jobs run in turn", "statement": "A job that stays runnable gets its turn after at most as many launches as there are jobs before it in the chain, whatever these jobs and the program do in the meantime.", "quantifier": "all states, histories and behaviours of the other jobs", "why_tests_cant": "Fairness is a statement about all schedules.", "anchors": ["src/mln_lang.c: mln_lang_run_handler"]}
{"id": "C251", "title": "A job with a name is found by it, and no two jobs have one name", "statement": "Every existing job with an alias can be killed by it, and the alias of an existing job is refused for another.", "quantifier": "all histories", "why_tests_cant": "The name is lost as a side effect of a refused creation, a later kill or creation shows it.", "anchors": ["src/mln_lang.c: mln_lang_job_new, mln_lang_ctx_free, mln_lang_func_kill_process"]}
{"id": "C252", "title": "The launcher never uses a job that was freed", "statement": "Whatever scripts do - create and kill jobs, suspend themselves, end - the running job exists as long as the launcher and the handlers use it.", "quantifier": "all states and turns", "why_tests_cant": "Use after free; depends on which job a script kills.", "anchors": ["src/mln_lang.c: mln_lang_run_handler, mln_lang_func_kill_process"]}
{"id": "C253", "title": "A job runs its own source", "statement": "The syntax tree of a new job is what the parser makes of the text or file it was given, also when the cache is on.", "quantifier": "all histories, texts and files", "why_tests_cant": "Which sources collide in the cache depends on earlier jobs and on time.", "anchors": ["src/mln_lang.c: mln_lang_ast_cache_search, mln_lang_ctx_new"]}
{"id": "C254", "title": "Tracing uses nothing that was freed", "statement": "In every history of mln_trace_init, mln_trace_finalize, messages, turns of the trace scripts and timers, no language object and no job is used after it was freed.", "quantifier": "all histories, failures and behaviours of scripts", "why_tests_cant": "Depends on which call of the initialisation failed and on timers and events that fire later.", "anchors": ["src/mln_trace.c: mln_trace_init, mln_trace_finalize, mln_trace_lang_check, mln_trace_lang_ctx_return_handler", "include/mln_trace.h: mln_trace"]}
{"id": "C255", "title": "After a failed mln_trace_init it can be tried again", "statement": "A call of mln_trace_init that returns -1 leaves the state so that a later call can succeed and other calls are safe.", "quantifier": "every state without a trace and every failing call", "why_tests_cant": "Each failing call must be provoked and followed by every other function.", "anchors": ["src/mln_trace.c: mln_trace_init"]}
{"id": "C256", "title": "The end of a trace gives back sockets and timer", "statement": "When tracing has ended, by mln_trace_finalize or because the script ended, no socket and no timer of it is left.", "quantifier": "all histories", "why_tests_cant": "Leaks show only over many traces.", "anchors": ["src/mln_trace.c: mln_trace_finalize, mln_trace_lang_check"]}
{"id": "C257", "title": "Strings are joined and indexed byte by byte in scripts", "statement": "`+` and `+=` with a string on either side give the text of the left operand followed by the text of the right one; s[i] is the i-th byte, negative offsets count from the end, all other offsets are errors.", "quantifier": "all values that are no reals, all strings and offsets", "why_tests_cant": "Each pair of types goes through another table, each offset through a signed and an unsigned comparison.", "anchors": ["src/mln_lang_str.c: mln_lang_str_plus, mln_lang_str_pluseq, mln_lang_str_index", "src/mln_lang_int.c, src/mln_lang_nil.c, src/mln_lang_bool.c, src/mln_lang_array.c: plus, pluseq"]}
{"id": "C258", "title": "Strings are ordered in scripts", "statement": "Of two strings exactly one of <, ==, > holds, s < t is t > s, and the order is that of the bytes.", "quantifier": "all strings", "why_tests_cant": "The empty string is one case among all pairs.", "anchors": ["src/mln_lang_str.c: mln_lang_str_equal, mln_lang_str_less, mln_lang_str_lesseq, mln_lang_str_grea, mln_lang_str_greale", "src/mln_string.c: mln_string_strseqcmp"]}
{"id": "C259", "title": "Comparing an integer with a string is consistent in scripts", "statement": "i == s holds exactly when s == i does, and then neither i < s nor i > s.", "quantifier": "all integers and strings", "why_tests_cant": "The two sides use different conversions; which strings differ is a question of all spellings of numbers.", "anchors": ["src/mln_lang_int.c: mln_lang_int_equal, mln_lang_int_less, mln_lang_int_var_toint", "src/mln_lang_str.c: mln_lang_str_equal"]}
{"id": "C260", "title": "Arrays of scripts are dictionaries with numbered places", "statement": "In every history of index expressions and array literals, a number or key gives the same variable each time, different ones give different variables, a[] gives a new one, negative numbers count from the end, and nothing is undefined.", "quantifier": "all histories", "why_tests_cant": "Numbers, keys and appended elements share one numbering; a collision needs a particular order of operations.", "anchors": ["src/mln_lang.c: mln_lang_array_get, mln_lang_array_get_int, mln_lang_array_get_other, mln_lang_array_get_nil, mln_lang_array_elem_exist", "src/mln_lang_array.c: mln_lang_array_index"]}
{"id": "C261", "title": "Using a variable as an index does not change it", "statement": "After a[i] the variable i has the value it had before.", "quantifier": "all arrays and values of i", "why_tests_cant": "One value of i is the mark of the code for nothing to restore.", "anchors": ["src/mln_lang_array.c: mln_lang_array_index"]}
{"id": "C262", "title": "A string key finds its element again", "statement": "In every sequence of index expressions with string keys two give the same element exactly when the keys are equal.", "quantifier": "all sequences of strings", "why_tests_cant": "Depends on the shape of a balanced tree and on a comparison that is no order.", "anchors": ["src/mln_lang.c: mln_lang_array_get_other, mln_lang_val_cmp", "src/mln_string.c: mln_string_strcmp", "src/mln_rbtree.c: mln_rbtree_search"]}
{"id": "C263", "title": "A name in a script means the variable of the running function, and only capitalised names also the one of the main program", "statement": "Whatever sequence of entering and leaving functions, setting variables and setting variables of the caller a script performs, looking up a name gives the value last set for it in the running function's own scope; if there is none and the look-up is not local (names that begin with A-Z, function and set names), the value in the main program; never that of another function's scope, and never a stale or misplaced symbol of the shared hash table.", "quantifier": "for all sequences of operations on the names, all names and values", "why_tests_cant": "The table is shared by all scopes; whether a replaced symbol, a hash collision or a scope that was left and entered again shows through depends on the whole history.", "anchors": ["src/mln_lang.c:653-701 mln_lang_scope_push/_pop", "src/mln_lang.c:1703-1797 mln_lang_symbol_node_join/_search/_id_search", "src/mln_lang.c:8070-8079 mln_lang_hash_get_bucket"]}
{"id": "C264", "title": "A call leaves the variables of the caller as they were", "statement": "A function begins with no variable of its own, and when it returns, after any assignments and calls within it, every look-up in the caller and everything the script does later is as if the scope of the function had never been there.", "quantifier": "for all histories before the call, all function bodies of assignments and nested calls within the depth of the scope stack, all later operations", "why_tests_cant": "Bodies nest to any depth, and the effect on later operations is a statement about all continuations.", "anchors": ["src/mln_lang.c:662-701 mln_lang_scope_push/_pop", "src/mln_lang.c:3796-3820 mln_lang_withdraw_until_func"]}
{"id": "C265", "title": "A C function can set a variable for its caller", "statement": "mln_lang_symbol_node_upper_join sets the variable in the scope below the running one, or in the running one when there is none below, and changes no other variable.", "quantifier": "for all histories, names and values", "why_tests_cant": "The test for the scope below the first one is wrong only in the main program, where no test calls it; the write goes to memory of the same structure and shows later.", "anchors": ["src/mln_lang.c:1730-1762 mln_lang_symbol_node_upper_join", "src/mln_lang.c:653-660 mln_lang_scope_in"]}
{"id": "C266", "title": "Calling a function by a name always comes to an end", "statement": "A call f(), where f is a variable that holds a string, calls the function named in the string, and so on; for every script the search ends with the function at the end of these strings or with an error. The same for $name.", "quantifier": "for all histories and names", "why_tests_cant": "Termination over all chains of variables is not testable.", "anchors": ["src/mln_lang.c:5735-5794 mln_lang_stack_handler_funccall_run", "src/mln_lang.c:6106-6139 mln_lang_stack_handler_spec_new"]}
{"id": "C267", "title": "Parameters of a function hold the arguments at their places", "statement": "In a call every parameter holds the argument at its place, or nil if there are fewer arguments; arguments left over are, in order, in the array `args`; the caller's variables are back afterwards.", "quantifier": "for all functions, numbers of parameters and arguments, captured variables, and histories", "why_tests_cant": "Numbers of parameters and arguments, and coincidences of names with args, this and captured variables, are unbounded.", "anchors": ["src/mln_lang.c:5797-5862 mln_lang_stack_handler_funccall_run", "src/mln_lang.c:5896-5932 mln_lang_funcall_run_add_args, mln_lang_funccall_run_build_args"]}
{"id": "C268", "title": "An operator calls the function a script has defined for it, and is the built-in operation otherwise", "statement": "After a script has defined a function such as __int_plus_operator__, the operator on values of this type calls it; inside of that function, and for operators without such a function, it is the built-in operation.", "quantifier": "for all histories, scopes and operator names", "why_tests_cant": "The test walks the stack of scopes; what it does below the first one is not visible in the source's own data.", "anchors": ["src/mln_lang.c:3107-3207 mln_lang_funccall_val_operator, mln_lang_funccall_val_operator_overload_test", "src/mln_lang.c:653-660 mln_lang_scope_in", "src/mln_lang.c:3381-3409 mln_lang_stack_handler_funcdef"]}
{"id": "C269", "title": "Messages sent to a script arrive once and in order", "statement": "Every message for which mln_lang_ctx_pipe_send returned 0 is received by the script exactly once, with the values given and in the order of sending; a message that is refused leaves no trace.", "quantifier": "for all interleavings of subscribing, unsubscribing, sending and receiving, all formats and values", "why_tests_cant": "The statement is about all interleavings of two parties.", "anchors": ["src/mln_lang.c:8215-8503 mln_lang_func_pipe_process, mln_lang_ctx_pipe_do_send"]}
{"id": "C270", "title": "A script learns whether C code took its message", "statement": "Pipe('send', v) is true exactly if C code's handler was called with the value and returned 0.", "quantifier": "for all histories of the pipe and all results of the handler", "why_tests_cant": "Depends on the order in which the two parties set up the pipe.", "anchors": ["src/mln_lang.c:8297-8312 mln_lang_func_pipe_process", "src/mln_lang.c:8505-8534 mln_lang_ctx_pipe_recv_handler_set"]}
{"id": "C271", "title": "A script assignment gives the left side the value of the right side", "statement": "After x = y in a script, x has the contents y had before and no other value changed, whatever x and y are, including when they are one variable.", "quantifier": "all contents of all values, all pairs of values", "why_tests_cant": "A test assigns a few variables to a few others; that this works for every pair includes x = x and two names of one value, which a test author has no reason to try, and there the variable is lost.", "anchors": ["src/mln_lang.c:2122-2229", "src/mln_lang.c:2589-2626", "src/mln_lang.c:4421-4560", "src/mln_lang_int.c:243-259"]}
{"id": "C272", "title": "A script function changes its caller's variables only through parameters with &", "statement": "A parameter without & starts with the contents of its argument, and no assignment in the function to such parameters changes a variable of the caller; an assignment to a parameter with & changes the variable passed for it and no other.", "quantifier": "all parameter lists, all arguments, all sequences of assignments in the function", "why_tests_cant": "Whether a parameter leaks depends on the positions of all & before it, so tests with one kind of parameter, or with & last, see nothing.", "anchors": ["src/mln_lang.c:2256-2312", "src/mln_lang.c:1986-2013", "src/mln_lang.c:5813-5861"]}
{"id": "C273", "title": "A captured variable is there when the function runs", "statement": "A variable captured by a function has, in the function, the contents it had where the function was defined (or nil if it was not defined), as a copy unless it is captured with &.", "quantifier": "all lists of captured names, defined or not, with and without &", "why_tests_cant": "A test captures variables that exist; that every list of names is safe, including one that is not defined yet, is a claim about all scripts, and there the interpreter reads through a null pointer.", "anchors": ["src/mln_lang.c:2256-2312", "src/mln_lang.c:1986-2013", "include/mln_lang.h:500"]}
{"id": "C274", "title": "A watch function is called once for every change of the variable", "statement": "In a script, each assignment, increment and decrement of a value for which Watch was called last (and not Unwatch) calls the function given to that Watch exactly once, with the new contents and the user data given there; nothing else calls a watch function.", "quantifier": "all scripts of Watch, Unwatch, assignments and increments over any variables, in any order", "why_tests_cant": "Which function is to be called depends on the whole history of Watch and Unwatch of that value through all its names; tests watch one variable once.", "anchors": ["src/mln_lang.c:6638-6694", "src/mln_lang.c:6736-6757", "src/mln_lang.c:4545-4572", "src/mln_lang.c:5431-5461", "src/mln_lang.c:6070-6106"]}
{"id": "C275", "title": "An assignment is an expression with the value assigned", "statement": "The value of x = e in a larger expression is the value assigned, also if x is watched, so that y = x = e gives both the same contents.", "quantifier": "all variables, with and without watch functions, all watch functions and what they return", "why_tests_cant": "A test of watching checks that the function ran, a test of chained assignment uses plain variables; the combination reads through a null pointer.", "anchors": ["src/mln_lang.c:4545-4572", "src/mln_lang.c:1590-1638", "src/mln_lang.c:6759-6791"]}
{"id": "C276", "title": "A watch function changes its arguments only through parameters with &", "statement": "As documented, both parameters of a watch function can be references or not: without & an assignment to the parameter leaves the watched variable and the user data as they are.", "quantifier": "all four combinations of &, all values and all assigned contents", "why_tests_cant": "The examples and tests use & or do not assign to the parameters; whether a missing & protects the variable is not visible in them.", "anchors": ["src/mln_lang.c:6759-6791", "src/mln_lang.c:5813-5839"]}
{"id": "C277", "title": "A watched variable can be assigned", "statement": "An assignment to a watched variable succeeds and what the watch function assigns is there afterwards, whatever variables the watch function assigns, including the one it watches.", "quantifier": "all tables of watch functions made of assignments, all variables, any room on the stack of scopes", "why_tests_cant": "A test has a watch function that prints; that assignments end for every watch function is a claim about recursion of any depth, and fails for functions that adjust the variable they watch.", "anchors": ["src/mln_lang.c:4545-4572", "src/mln_lang.c:5796-5799", "src/mln_lang.c:6759-6791"]}
{"id": "C278", "title": "Eval of a text runs that text", "statement": "Eval called with in_string true runs the text it is given.", "quantifier": "all texts without zero bytes, jobs started from any file or from none", "why_tests_cant": "The texts of tests begin with a name or a call; the treatment of paths that begin with @ is also applied to texts, so exactly the texts that begin with a function definition are changed.", "anchors": ["src/mln_lang.c:7336-7495"]}
{"id": "C279", "title": "A library stays loaded while a job that imported it is alive", "statement": "After an Import that returned a value the library is open until that job ends, whatever other jobs import, whichever allocations fail and however many jobs end; never is a library open twice or closed twice.", "quantifier": "all sequences of imports and ends of jobs, all answers of dlopen, init and the allocators", "why_tests_cant": "The uses are counted over all jobs of an interpreter; a wrong count closes a library whose functions a job still calls, after a sequence of jobs no test goes through.", "anchors": ["src/mln_lang.c:6954-7045", "src/mln_lang.c:7098-7256"]}
{"id": "C280", "title": "A library is loaded once for many jobs", "statement": "One job after another can import a library and end, up to 65535 of them, and the library is loaded once; the end of a job unloads a library exactly if no other job uses it and it had lost its last user 65535 times since it was loaded.", "quantifier": "all libraries, all numbers of jobs, all states an interpreter can reach", "why_tests_cant": "A test would need more than 65535 jobs, and would see one order of imports and ends.", "anchors": ["src/mln_lang.c:6954-7045", "include/mln_lang.h:30"]}
{"id": "C281", "title": "An Import that fails gives a message", "statement": "An Import that cannot be done ends the job with a message that tells why.", "quantifier": "all states of an interpreter, all answers of dlopen, init and the allocators", "why_tests_cant": "The failing branches are reached when memory runs out, or when a library that is already open fails again; a test sees the first failure, which is reported correctly.", "anchors": ["src/mln_lang.c:7098-7256"]}
{"id": "C282", "title": "Supervised processes are kept running", "statement": "Workers and programs started with keepalive are started again whenever they end: however many end, in whatever order, the master supervises the same processes as at the start, and has an event on the socket of each of them.", "quantifier": "all configurations of workers and programs, all sequences of processes that end, all descriptors and process numbers the kernel gives", "why_tests_cant": "The list of processes, the sockets and the events change with every end; a test ends one worker once.", "anchors": ["src/mln_fork.c:132-176", "src/mln_fork.c:296-388", "src/mln_fork.c:453-467", "src/mln_fork.c:658-689"]}
{"id": "C283", "title": "Programs started once are not started again", "statement": "When a program started with default ends, its socket, its event and its arguments are released, nothing is started, and the other processes are as they were.", "quantifier": "all lists of processes and all sequences of ends", "why_tests_cant": "That nothing is started a second time is a claim about all sequences of ends.", "anchors": ["src/mln_fork.c:155-176", "src/mln_fork.c:658-689"]}
{"id": "C284", "title": "A child has no connection but its own", "statement": "A started process holds its own socket to the master and none of the sockets that the master has to its other processes, at the start and after any number of restarts.", "quantifier": "all lists of processes, all sequences of ends before the fork", "why_tests_cant": "A socket that another worker holds keeps the master from noticing that its owner ended; which sockets are inherited depends on the whole history.", "anchors": ["src/mln_fork.c:171-176", "src/mln_fork.c:315-388"]}
{"id": "C285", "title": "A process that cannot be started leaves nothing behind", "statement": "If a worker cannot be started the master has the descriptors it had before.", "quantifier": "all states of the master, all failures", "why_tests_cant": "fork fails on machines at their limits only, and the descriptors that are lost do no harm until there are none left.", "anchors": ["src/mln_fork.c:296-388"]}
{"id": "C286", "title": "Starting a process returns", "statement": "mln_fork and the restart of a process return in the master, whatever the child does.", "quantifier": "all states of the master and all fates of the child", "why_tests_cant": "A child that is killed within its first instructions cannot be arranged by a test.", "anchors": ["src/mln_fork.c:315-388"]}
{"id": "C287", "title": "A script has one reading", "statement": "The grammar of the script language is not ambiguous: a text has at most one reading as a script, and it ends in one place; the same holds for each expression that is followed by ; ) or ]. A parser made from the grammar that returns a value returns that of the only reading, so it does not matter how conflicts of the table or the order of the productions were resolved.", "quantifier": "all texts of tokens, all functions of the productions, all layouts of the states in memory", "why_tests_cant": "Ambiguity shows in no finite set of scripts: the parser always picks one of the readings.", "anchors": ["src/mln_lang_ast.c:419-532"]}
{"id": "C288", "title": "Operators of scripts bind by one table of levels", "statement": "From loose to tight: assignments (to the right), ||, &&, | & ^, == !=, < <= > >=, << >>, + -, * / % (to the left), !, ++ and -- behind, index, property and call, signs in front. An expression that is written with brackets only where these levels ask for them is read as that expression and as nothing else.", "quantifier": "all expressions of any depth without array literals, all texts behind them", "why_tests_cant": "The levels are spread over 85 productions and as many functions; tests try a few pairs of operators.", "anchors": ["src/mln_lang_ast.c:447-524", "src/mln_lang_ast.c:2562-3623", "src/mln_lang.c:4636-5283"]}
{"id": "C289", "title": "A sign in front belongs to the whole element behind it", "statement": "-a[i], -a.b and -f(x) are the negatives of a[i], a.b and f(x); the same with ~ & ++ and --.", "quantifier": "all signs, operands, indices, properties and arguments", "why_tests_cant": "Scripts in tests put constants and plain names behind signs.", "anchors": ["src/mln_lang_ast.c:502-514", "src/mln_lang_ast.c:3239-3425"]}
{"id": "C290", "title": "A text of || and && works out the operands it needs, in their order", "statement": "Although the grammar has one level for || and &&, the value of an expression of both is the one with && binding tighter, and exactly those operands are worked out that are needed, from left to right.", "quantifier": "all expressions of || and && with any operands, all values of the operands", "why_tests_cant": "The handler walks a list of operands and skips parts of it; wrong skips show for particular mixtures and values only.", "anchors": ["src/mln_lang.c:4579-4634", "src/mln_lang_ast.c:2755-2803"]}
{"id": "C291", "title": "The framework runs in the mode that is configured", "statement": "The framework is on exactly if the command framework names multiprocess or multithread, off if there is no such command or it says off; any other item is refused with a message.", "quantifier": "all items of the command", "why_tests_cant": "The items are of five types with any value.", "anchors": ["src/mln_framework.c:163-198"]}
{"id": "C292", "title": "Master and workers run their own functions", "statement": "The function for workers (or for the main thread, by the mode) is called once in each worker, whether it was started at first or again after a worker ended, and never in the master; a master can end its event loop.", "quantifier": "both modes, all histories of the master before a worker is started again", "why_tests_cant": "A worker that is started again is forked inside the loop of the master and inherits its state, which depends on what happened before.", "anchors": ["src/mln_framework.c:33-128", "src/mln_fork.c:372-386", "src/mln_fork.c:470-481", "src/mln_fork.c:658-678"]}
{"id": "C293", "title": "Messages of a worker reach its trace script", "statement": "With trace_mode each worker has a trace script of its own that gets what the worker passes to mln_trace, also when the worker was started again.", "quantifier": "both modes, all histories of the master and of the worker", "why_tests_cant": "Only a worker that was started again shows it, and mln_trace reports success.", "anchors": ["src/mln_framework.c:89-128", "src/mln_trace.c:45-123"]}
{"id": "C294", "title": "The variable MASTER tells the master from the workers", "statement": "The trace script of the master has the variable MASTER, those of the workers do not.", "quantifier": "all histories of the master before a worker is started again", "why_tests_cant": "It depends on when the worker was started and on whether the script of the master had ended.", "anchors": ["src/mln_framework.c:89-142", "src/mln_trace.c:45-123"]}
{"id": "C295", "title": "Callbacks of watched functions are nested and change nothing", "statement": "With MLN_FUNC each call of a function is between its entry callback and its exit callback, properly nested, and a function that the entry callback refuses does nothing. Callbacks that refuse nothing do not change what the program does.", "quantifier": "all programs with calls nested to any depth, all answers of the entry callback", "why_tests_cant": "All nestings and all patterns of refused calls.", "anchors": ["include/mln_func.h:18-48", "include/mln_func.h:78-108", "src/mln_func.c:7-28"]}
{"id": "C296", "title": "A refused call looks like a failed one", "statement": "If the entry callback refuses a call, the caller gets what the function returns on failure: NULL for a pointer, a negative number otherwise.", "quantifier": "all widths of the returned type", "why_tests_cant": "The wrapper is used for hundreds of functions; a refusal of each would be a test of its own.", "anchors": ["include/mln_func.h:13", "include/mln_func.h:18-33", "include/mln_func.h:78-93"]}
{"id": "C297", "title": "A path is what its hook says", "statement": "mln_path and its seven variants return what the hook says that was set last for that path with mln_path_hook_set, or the path that is compiled in, whatever was set for the others.", "quantifier": "all sequences of mln_path_hook_set, all eight paths", "why_tests_cant": "All sequences of settings.", "anchors": ["src/mln_path.c:34-122"]}
{"id": "C298", "title": "Objects of scripts are records of their own", "statement": "A script of set definitions, $set, assignments and properties does what a memory of places does, in which each variable and each member of each object is a place of its own and nothing that was never written is anything but nil: writing one place changes no other, redefining a set changes no object, and the last declaration of a member counts.", "quantifier": "all scripts of these statements, all chains of properties, all names", "why_tests_cant": "Members are copied from the set, created when first read, and shared by reference; whether two places ever become one depends on the history.", "anchors": ["src/mln_lang.c: mln_lang_set_member_add, mln_lang_object_new, mln_lang_stack_handler_set, mln_lang_stack_handler_setstm, mln_lang_stack_handler_spec_new", "src/mln_lang_obj.c: mln_lang_obj_property, mln_lang_obj_assign"]}
{"id": "C299", "title": "A new object is a new one", "statement": "After p = $s the object in p compares equal to itself and to nothing in any other place, has exactly what the set s declares, and no other variable and no member of another object has changed.", "quantifier": "all reachable states, all places p and sets s", "why_tests_cant": "All other places of the program are quantified over.", "anchors": ["src/mln_lang.c: mln_lang_object_new, mln_lang_stack_handler_spec_new", "src/mln_lang_obj.c: mln_lang_obj_equal"]}
{"id": "C300", "title": "Assigning an object shares it, and == tells", "statement": "After x = y with an object in y, a member written through x is seen through y; two objects compare equal exactly if their properties are the same places; != is the opposite of ==.", "quantifier": "all reachable states, names, members and values", "why_tests_cant": "Sharing is a statement about all later writes.", "anchors": ["src/mln_lang.c: __mln_lang_var_value_set", "src/mln_lang_obj.c: mln_lang_obj_assign, mln_lang_obj_equal, mln_lang_obj_nonequal, mln_lang_obj_property"]}
{"id": "C301", "title": "A method call calls the function its name leads to", "statement": "As documented under reflection, x.f() calls the function in member f of x; a string in f, or without such a member in the variable f, names the method instead, and so on; otherwise the call is refused.", "quantifier": "all reachable states, objects and names", "why_tests_cant": "Chains of names can have any length and can be cycles.", "anchors": ["src/mln_lang.c: mln_lang_stack_handler_funccall_run", "docs/Melon Developer Guide.txt: Reflection"]}
{"id": "C302", "title": "this is the object the method was called for", "statement": "Within a method, this is the object before the dot of the call, until this is assigned, and assigning this does not change the caller's variables.", "quantifier": "all states, variables and methods", "why_tests_cant": "Depends on what the method does to other variables that share the value.", "anchors": ["src/mln_lang.c:5797-5807 mln_lang_stack_handler_funccall_run"]}
{"id": "C303", "title": "The syntax tree of a script is the one its text shows", "statement": "Write any syntax tree of statements (blocks, if, while, for, switch, functions with closures, sets, labels, goto, return, array literals) down as tokens: the parser reads these tokens back as exactly this tree and in no other way; two different trees are never written alike; in `if (c) if (d) t else f fi` the else belongs to the inner if.", "quantifier": "for all syntax trees of any depth whose parts are of the right kinds, all names and constants, all parsers made from the grammar", "why_tests_cant": "There are infinitely many trees and every production can conflict with every other one; tests read a handful of scripts.", "anchors": ["src/mln_lang_ast.c:419-532", "src/mln_lang_ast.c:2168-2560", "src/mln_lang_ast.c:3625-3688"]}
{"id": "C304", "title": "In every script the parser accepts the brackets nest", "statement": "In a text for which the parser of scripts returns a value, every ) ] } closes the innermost open bracket of its own kind, every else or fi ends the innermost open if, and nothing is left open at the end of the text; in particular every if has exactly one else or fi.", "quantifier": "for all token texts of any length, all parsers made from the grammar, whatever the functions of the productions do", "why_tests_cant": "Acceptance of a malformed text is an error for one of infinitely many texts; tests try a few malformed ones.", "anchors": ["src/mln_lang_ast.c:419-532"]}
{"id": "C305", "title": "mln_json_generate makes the value its format shows", "statement": "Write any template of objects, arrays and the letters s S c d u D U f t n F j down as a format and hand over the values in order: mln_json_generate succeeds, takes exactly these values and the result is the template with the values in it, added to what the object or array held before; and it succeeds for no other text up to the closing bracket, a comma before a closing bracket aside.", "quantifier": "for all templates of any depth and width, all values, all objects and arrays that are added to", "why_tests_cant": "Formats nest to any depth and the values come from a variadic list whose types nothing checks; tests try a few formats.", "anchors": ["src/mln_json.c:1105-1426", "docs/book/en/json.md:433-477"]}
{"id": "C306", "title": "mln_json_generate refuses what is not a format", "statement": "A format that is not one complete object or array, with elements separated by single commas, is refused.", "quantifier": "for all formats", "why_tests_cant": "Acceptance of a malformed format is an error for one of infinitely many texts.", "anchors": ["src/mln_json.c:1105-1426", "docs/book/en/json.md:433-477"]}
{"id": "C307", "title": "A failed mln_json_generate leaves everything as it was", "statement": "After a failed call the value it was to add to is what it was before, and the values given with j still belong to the caller.", "quantifier": "for all formats, values and objects that are added to", "why_tests_cant": "Depends on where in the format the failure is and on what has been read before it.", "anchors": ["src/mln_json.c:1105-1426", "docs/book/en/json.md:433-477"]}
{"id": "C308", "title": "A script is read as the tokens it shows", "statement": "A text made of names, words of the language, numbers, signs (always the longest one that fits), strings in double quotes with escapes, strings in single quotes without, and any blanks and comments in between is read, from a buffer or from a file, as exactly these tokens with exactly these contents and then as its end; no text consists of two different lists of tokens.", "quantifier": "for all texts without the bytes 255 and 254, of any length, all comments and blanks", "why_tests_cant": "Where one token ends and the next begins depends on what follows, and there are infinitely many texts; tests read some scripts.", "anchors": ["src/mln_lang_ast.c:535-860", "src/mln_lang_ast.c:3757-3810", "include/mln_lex.h:671-800"]}
{"id": "C309", "title": "From the bytes of a script to its tree", "statement": "A text whose tokens show a script, with whatever blanks and comments, is lexed and parsed as the tree of this script: words and signs have the numbers the grammar gives them.", "quantifier": "for all scripts, all texts that show them, all parsers made from the grammar", "why_tests_cant": "Composes the lexer, its handlers, the mapping of 60 words and signs and the parser; a wrong entry shows only in scripts that use it.", "anchors": ["src/mln_lang_ast.c:20-110", "src/mln_lang_ast.c:419-860", "src/mln_lang_ast.c:3757-3810"]}
{"id": "C310", "title": "Every comment of a script ends where it ends, every sign of the lexer can be used", "statement": "A comment /* w */ ends at the first */, and every sign the lexer reads has a meaning in scripts.", "quantifier": "for all scripts", "why_tests_cant": "Fails for comments with particular numbers of stars and for one of 34 signs.", "anchors": ["src/mln_lang_ast.c:655-670", "src/mln_lang_ast.c:805-859", "src/mln_lang_ast.c:419-532"]}
{"id": "C311", "title": "Broken strings in scripts are refused", "statement": "A string in single or double quotes that is not closed is refused with the error for an unexpected end, one with a backslash before a byte that is no escape with the error for an invalid character.", "quantifier": "for all contents of strings, all positions in a script", "why_tests_cant": "The loop over the string can go wrong after any content.", "anchors": ["src/mln_lang_ast.c:695-803"]}
{"id": "C312", "title": "Messages sent in pieces arrive whole", "statement": "Messages, text or binary, that are sent in any number of pieces with mln_websocket_text_generate and mln_websocket_binary_generate, NEW with the first and END with the last, and with pings and pongs in between, are read by mln_websocket_parse as one frame for each call, and put together by the rules of RFC 6455 5.4 they are the messages that were sent, each with its kind and all its bytes, in order. When the sender is destroyed none of its memory is left and the caller's is untouched.", "quantifier": "for all lists of messages, all splits into pieces, all control frames between, all masking keys, both sides", "why_tests_cant": "The number of ways to split messages and to put control frames between is unbounded.", "anchors": ["src/mln_websocket.c:488-548", "src/mln_websocket.c:580-634", "src/mln_websocket.c:644-763", "src/mln_websocket.c:765-915"]}
{"id": "C313", "title": "The content of a WebSocket object is freed once and not used after", "statement": "In every sequence of calls that generate, parse and reset, the content that was received is freed exactly once, no memory is used after it was freed, also when the content that was received is sent back, the caller's memory is not freed, and mln_websocket_destroy leaves nothing.", "quantifier": "for all sequences of calls, all contents, all frames received", "why_tests_cant": "Double frees and uses after free depend on the order of the calls.", "anchors": ["src/mln_websocket.c:96-145", "src/mln_websocket.c:488-634", "src/mln_websocket.c:905-911"]}
{"id": "C314", "title": "A pong answers its ping", "statement": "A pong generated after a ping was received carries the application data of the ping (RFC 6455 5.5.3). A call with the flags of both sides is refused and changes nothing.", "quantifier": "for all pings received, all states of the object", "why_tests_cant": "Tests with empty pings do not see it.", "anchors": ["src/mln_websocket.c:580-634"]}
{"id": "C315", "title": "The garbage collector of scripts frees nothing that a script can still use", "statement": "Whenever mln_lang collects between two turns of a job, no array and no object is freed that the script can still reach: from its variables, from what its functions captured, from the value a call just returned and from values on the run stack, through members, elements and keys. What stays does not refer to what was freed.", "quantifier": "for all graphs of arrays and objects, with cycles, all variables, all sets of suspected ones", "why_tests_cant": "Needs graphs, marks of suspicion and captured values of every shape; a value that is freed too early is often noticed much later.", "anchors": ["src/mln_lang.c:885-895", "src/mln_lang.c:7687-7820", "src/mln_gc.c:154-224"]}
{"id": "C316", "title": "The garbage collector of scripts frees every suspected cycle", "statement": "A collection ends, and every suspected array and object that can be reached neither from the variables nor from one that nobody suspects is freed, exactly once, also in cycles through members, elements and keys; references between what is freed are cut before.", "quantifier": "for all graphs of arrays and objects, all variables, all sets of suspected ones", "why_tests_cant": "Cycles of any length and shape.", "anchors": ["src/mln_lang.c:7687-7929", "src/mln_gc.c:154-224"]}
{"id": "C317", "title": "A configuration changed by a program answers like a list of commands", "statement": "In every sequence of insertions, searches, removals, updates of arguments, reads of arguments, counts and listings of a domain: a command is found exactly if its name was inserted more often than removed; mln_conf_cmds lists every command once, in the order of insertion, as many as mln_conf_cmd_num says; update changes the arguments of one command only; item i is the i-th argument, and NULL for 0 and for numbers beyond the last.", "quantifier": "for all sequences of calls, all names and arguments", "why_tests_cant": "The red-black tree below has a different shape after each sequence.", "anchors": ["src/mln_conf.c:469-511", "src/mln_conf.c:560-607", "src/mln_conf.c:667-713", "src/mln_conf.c:939-970"]}
{"id": "C318", "title": "A command that was removed is gone", "statement": "After cd->remove(cd, name) no command of this name is found.", "quantifier": "for all histories of a domain, all names", "why_tests_cant": "Depends on the history.", "anchors": ["src/mln_conf.c:572-607"]}
{"id": "C319", "title": "A reload puts the new configuration in place and then calls the hooks", "statement": "mln_conf_reload loads the file and calls the callbacks of the hooks, once each, in the order in which they were set, up to the first that fails; the callbacks see the new configuration; a file that is not valid is reported and the configuration stays; a callback may remove its hook.", "quantifier": "for all lists of hooks, all callbacks, all files", "why_tests_cant": "The number of hooks and what callbacks do is open.", "anchors": ["src/mln_conf.c:871-930", "docs/book/en/conf.md:225-260"]}
{"id": "C320", "title": "A string lives exactly as long as it is held", "statement": "In every program that uses only strings it holds, made with new, dup, buf_new, ref_dup, const_ref_dup or concat (from malloc or from a pool, with any failed allocations), referenced with mln_string_ref and given back with mln_string_free: no memory is used after it was freed, none is freed twice or with the wrong allocator, every string has the text it was made with, a string is there exactly as long as it is held, its bytes exactly as long as the string, and nothing is left when nothing is held. However often a string is referenced.", "quantifier": "for all programs, whatever they do with the results, all texts, all failing allocations", "why_tests_cant": "The number of references and the order of the calls are unbounded; a counter that is wrong once shows much later.", "anchors": ["include/mln_string.h:12-63", "src/mln_string.c:96-362"]}
{"id": "C321", "title": "A duplicate is independent, a reference to data is not", "statement": "A string made by mln_string_dup keeps its text when the original is freed. One made by mln_string_ref_dup must not be used then.", "quantifier": "for all memories, texts and pools", "why_tests_cant": "A use after free often goes unnoticed.", "anchors": ["src/mln_string.c:171-188", "src/mln_string.c:256-265"]}
{"id": "C322", "title": "A process started by root gives up root", "statement": "If the start of the framework succeeds with a user in the configuration, the process has the user and group of this name and only groups of this user, and it cannot become root again. A name that is not known is refused and changes nothing.", "quantifier": "for all users of the system, all configurations, all processes that start it, all failures of the system calls", "why_tests_cant": "Tests do not run as root, do not look at groups, and do not make setuid fail.", "anchors": ["src/mln_tools.c:176-253"]}
{"id": "C323", "title": "Limits of the configuration are set or refused", "statement": "core_file_size and max_nofile set the limit that is written there, unlimited sets none, everything else is refused, without the command nothing is set.", "quantifier": "for all arguments", "why_tests_cant": "Negative numbers and a missing argument are corners of an infinite set.", "anchors": ["src/mln_tools.c:57-141"]}
{"id": "C324", "title": "The boot parameters reach the process that runs", "statement": "After a start, --stop kills and --reload signals exactly the process that was started, as a daemon or not; with a file melon.pid that has no number nothing is signalled.", "quantifier": "for all numbers of processes, all contents of the file", "why_tests_cant": "Needs a daemon and two processes; tests have neither.", "anchors": ["src/mln_tools.c:144-174", "src/mln_tools.c:290-338", "src/mln_log.c:252-272", "src/mln_framework.c:47-61"]}
{"id": "C325", "title": "A JSON object is a finite map in the order of insertion", "statement": "Every sequence of mln_json_obj_update, mln_json_obj_search, mln_json_obj_remove and mln_json_object_iterate on an object gives what a finite map gives: a search finds the value last given to the key and not removed, an iteration (and so the encoder) sees every key once with its value, in the order in which the keys first came; the red-black tree below is not to be seen.", "quantifier": "all sequences of calls, all keys and values", "why_tests_cant": "what is found depends on the shape of the tree, which depends on all calls before", "anchors": ["src/mln_json.c: mln_json_obj_update, mln_json_obj_search, mln_json_obj_remove, mln_json_object_iterate, mln_json_kv_cmp"]}
{"id": "C326", "title": "A JSON array is a list", "statement": "mln_json_array_append, mln_json_array_update, mln_json_array_search and mln_json_array_length behave as on a list; mln_json_array_remove removes the element with the index; mln_json_array_iterate gives the elements to the handler in order until it returns nonzero and returns 0 if the handler always returned 0.", "quantifier": "all arrays, indices and handlers", "why_tests_cant": "every length, index and handler", "anchors": ["src/mln_json.c: mln_json_array_append, mln_json_array_update, mln_json_array_search, mln_json_array_length, mln_json_array_remove", "include/mln_json.h: mln_json_array_iterate"]}
{"id": "C327", "title": "A WebSocket match compares the fields", "statement": "mln_websocket_match succeeds exactly when the request has every field that was set with mln_websocket_set_field, with the value that was set (docs: it compares the header fields of the WebSocket object with those of the HTTP message).", "quantifier": "all fields, values and requests", "why_tests_cant": "the values are taken as patterns by an unanchored matcher; a test with equal and with altogether different values passes", "anchors": ["src/mln_websocket.c: mln_websocket_match, mln_websocket_match_iterate_handler", "src/mln_regexp.c: mln_reg_match"]}
{"id": "C328", "title": "Objects of classes are destructed once", "statement": "Objects made with new(type, ...) are constructed once; delete(o) destructs the object o with the destructor of its class, once, and then frees it, touching no other object; new gives NULL without calling a constructor when memory runs out, and delete(NULL) does nothing.", "quantifier": "all programs that make and delete objects, every pattern of failing allocations, every expression given to delete", "why_tests_cant": "a macro that evaluates its argument several times works in all tests that give it a variable", "anchors": ["include/mln_class.h: new, delete"]}
{"id": "C329", "title": "The notices of a program keep to their memory", "statement": "If the library is built with MLN_CONSTRUCTOR, a program sends a HTTP request at its start and at its end; what is sent is that request, and whatever fails, the list of addresses is freed at most once and not used after.", "quantifier": "every combination of failures of the lookup and of the sockets, every suffix", "why_tests_cant": "needs a machine without file descriptors at the start of a program", "anchors": ["src/mln_func.c: mln_notice, constructor, destructor"]}
{"id": "C330", "title": "Releasing a chain frees what it owns", "statement": "mln_chain_pool_release_all frees the nodes, the buffers, and the memory, mappings and files that belong to the buffers, each once, and nothing that was lent to them (shadow, temporary); mln_buf_new and mln_chain_new give a buffer and a node that own nothing but themselves, or fail when memory runs out.", "quantifier": "all chains, all kinds of buffers, all heaps", "why_tests_cant": "the address that is freed depends on how far the buffer was consumed; failing allocations are not tested", "anchors": ["src/mln_chain.c: mln_buf_new, mln_chain_new, mln_buf_pool_release, mln_chain_pool_release, mln_chain_pool_release_all"]}
{"id": "C331", "title": "Functions of Melang are equal when they are the same", "statement": "In a Melang program f == g holds exactly when f and g are the same function (of the library, or from the same definition with the same captured values), copies included; != is its opposite; other operators on functions are errors unless they are overloaded, and an overloaded operator decides alone.", "quantifier": "all definitions, captured values, copies and operators", "why_tests_cant": "empty functions and closures with different values are unlikely to be compared in tests", "anchors": ["src/mln_lang_func.c: mln_lang_func_oprs", "src/mln_lang.c: mln_lang_stack_handler_funcdef, mln_lang_func_detail_dup"]}
{"id": "C332", "title": "Chains keep the order of what is added", "statement": "After mln_chain_add of several chains to an empty chain, walking from the head meets all their nodes in the order they were added in and then NULL; mln_buf_size is 0 exactly when all of a buffer was consumed, and mln_buf_left_size counts what was consumed too.", "quantifier": "all numbers of nodes, all chains there before, all positions", "why_tests_cant": "a test adds single new nodes; chains of several nodes and repeated nodes are not tried", "anchors": ["include/mln_chain.h: mln_chain_add, mln_buf_size, mln_buf_left_size"]}
{"id": "C333", "title": "The script of the traces is the one in the configuration", "statement": "mln_trace_path gives the string p exactly when the configuration has the command trace_mode with the one argument p, a string, outside of the named domains; otherwise NULL.", "quantifier": "all configurations, all searches that find what is there", "why_tests_cant": "needs configurations of every shape", "anchors": ["src/mln_trace.c: mln_trace_path"]}
{"id": "C334", "title": "The first boot parameter decides", "statement": "mln_boot_params ignores arguments it does not know; of those it knows the first one is carried out, alone, and ends the process; without one it returns 0 and nothing is done. A handler is called at most once, however often its parameter is given.", "quantifier": "all lists of arguments, all tables of handlers (also such that return)", "why_tests_cant": "the process ends, and the order of many arguments is not tried", "anchors": ["src/mln_tools.c: boot_params, mln_boot_params"]}
{"id": "C335", "title": "A daemon has its standard files on the null file", "statement": "After mln_daemon the descriptors 0, 1 and 2 of a daemon are open for the null file, whatever was open before, and no other descriptor is changed.", "quantifier": "all descriptors open before, all limits, the null file there or not", "why_tests_cant": "needs processes started with closed descriptors, or without the null file", "anchors": ["src/mln_tools.c: mln_daemon"]}
