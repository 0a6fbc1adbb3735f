# Formal model of Melon in Lean 4

Source: `/repo` (Water-Melon/Melon, C).  Model and proofs: `/verif/lean/Verif/`.
One directory-less module family per C module: `Xxx.lean` (model, each definition
cites the C lines), `XxxSpec.lean` or a `Spec` section (small independent
specification), `XxxLemmas.lean` (helpers, when large), `XxxProps.lean` (property
theorems, non-vacuity examples, and refuted statements with witnesses).

## Trusted base

* Lean 4.33.0 kernel.
* Axioms: at most `propext`, `Classical.choice`, `Quot.sound` (section "Axioms"
  below records them per theorem).  No axioms of our own, no `sorry`, no
  `native_decide`, no `bv_decide`.
* The correspondence between the C text and the Lean definitions is by reading:
  every definition cites file and lines.  The C compiler, libc, pthreads and the
  operating system are outside the model.
* C integers: `mln_size_t`, `mln_uauto_t`, `mln_u64_t` are 64-bit unsigned,
  `mln_u32_t` 32-bit, two's complement, LP64.  Where wrap-around can matter the
  model uses `BitVec`/explicit `% 2^k`; elsewhere `Nat` with the bound stated.
* Undefined behaviour (out-of-bounds access, division by zero, over-long shift) is a
  distinct outcome (`none`/`Except`), never a totalised default, wherever a theorem
  depends on its absence.

## Plan per property

| id | what is modelled | how it is proved |
|----|------------------|------------------|
| C01 | ring as array of slots + head/tail/count, functions line by line | refinement relation `Rep q l`; each operation preserves it; induction on histories |
| C02 | search/iterate/destroy on the ring | from `Rep` |
| C03 | free_index loop | negation by witness; `_partial` for the states where it is right |
| C04 | stack as linked node list | refinement to a list, all histories |
| C05 | heap `Nat -> (prev,next)` with head/tail | representation predicate, add/del preserve it, frame conditions |
| C06 | array buffer + nalloc growth loop with fuel-free well-founded recursion where it terminates | refinement to a list; non-termination stated and proved for capacity 0 |
| C07, C08 | encode/decode loops with explicit index checks (`Option` on out-of-bounds) | induction on 3-byte groups; totality = memory safety |
| C09-C12 | update/final over a 64-byte buffer; compression function as BitVec code | chunking lemma: state = fold over complete blocks + buffered tail |
| C13 | key schedule, rounds, tables | each round step inverts; table facts by `decide +kernel` over 256 entries |
| C14 | bit permutations, Feistel rounds | permutation inversion by finite check lifted by a lemma; Feistel induction |
| C15 | KSA/PRGA | involution by keystream equality; permutation by swap invariant |
| C16, C17 | GF(256) log tables, matrices, Gauss-Jordan | field facts by finite check; elimination keeps A*X invariant; witnesses for non-MDS |
| C18, C19 | word/byte comparison paths | equality both directions; cyclic triple as witness against C19, `_partial` for byte path |
| C20 | prefix function and matcher | KMP invariant over borders |
| C21 | in-place slicing | induction on the text |
| C22-C24 | tree with parent pointers abstracted to an inductive tree where possible; chain and iterator separately | sortedness/multiset/invariants by induction |
| C25-C27 | list of heap-ordered trees with ids, marks, degrees | heap order, content multiset, Fibonacci bound |
| C28-C30 | bucket array with chains + global chain + resize | refinement to association list |
| C31-C39 | 257 limbs base 2^32, functions line by line | value function into `Int`/`Nat`; Knuth D via exact bounds |
| C40 | candidate loop and Miller-Rabin with an oracle for random bases | Fermat: a prime is never rejected; Bertrand for termination |
| C41-C44 | parser and writer on byte lists | structural induction; witnesses for the failing corners |
| C45, C46 | TLV parser/encoder | well-founded recursion on remaining length; tree induction |
| C47, C48 | frame generator/parser | case split on length form; witnesses for C48 |
| C49-C51 | loops over years/months | invariant on days |
| C52 | cron field parsing | partial, witness for "not strictly later" |
| C53 | item graph, suspect list, mark/sweep worklist | reachability invariant |
| C54 | cache map + free list | invariant by induction on histories |
| C55-C57 | small-step transition systems with one step per atomic region | inductive invariants over all schedules |
| C58 | XOR parity over padded packets | XOR cancellation |
| C59-C61 | size classes, chunk lists, bitmap | finite check over classes lifted by monotonicity; invariants |
| C62 | macros | induction on byte count |
| C63 | padding functions, CRT path | Mathlib number theory for RSA equation |
| C64, C65 | specifications of AES and DES written from the standards | equality with the code, by steps |
| C66-C68 | string helpers | induction on the strings |
| C69-C72 | number duplicate, ASN.1 encoders | buffer bounds as `Option` |
| C73, C74 | I/O thread messages, assembly spin lock | invariants over all schedules, witnesses |
| C75 | cron steps | monotonicity of every step |
| C76, C77 | hash tables | refinement to maps, ghost log of frees |
| C78-C81 | JSON | output buffer as `Option`; limits; objects as lists of pairs in the order of insertion |
| C82-C84 | thread pool | invariants over all schedules |
| C85, C86 | pools | invariants over towers of pools |
| C87, C88 | FEC decoder on any packets | case analysis, witnesses |
| C89 | garbage collector | graph invariants |
| C90, C91 | file cache | histories over the tree and chain models |
| C92-C94 | RSA over the proved big number operations | Mathlib (Euler, CRT) |
| C95-C97 | prime generator for big numbers | strong pseudoprimes; witnesses |
| C98 | heap nodes inserted again | sum of degrees grows until the table is left; parking bound for few nodes |
| C99 | regular expressions, all patterns | invariant of the matcher: text only shrinks from the front, captures are infixes |
| C100-C103 | regular expressions of single bytes | byte-by-byte fit as spec; induction over items and text |
| C104-C108 | repetitions, groups, alternatives | refutations for every pattern of a shape |
| C109-C113 | HTTP parser and generator | parser on bytes as a second function, invariant of the writer, round trip |
| C119 | HTTP lines accepted | inversion of the parser |
| C124-C131 | lexer and its preprocessor | lexemes as an inductive specification, the next token as a big-step relation over branches and macros, refutations for every text of a shape |
| C144-C146 | error values | bit fields as arithmetic; the printed text; refutations for every length that does not fit |
| C147-C150 | matrices | Mathlib's matrices over a field as specification; elimination keeps a row equivalence |
| C151-C157 | configuration files | a grammar of files with blanks and comments; loading simulates it for every rest of the file; refutations for every content |
| C158-C164 | the event loop | an operational model whose handlers do any operations (`plan`), with every use of freed memory an error; a principle of induction over all runs (`Law`), and one for a single descriptor (`Local`); specs over the history of calls; refutations for every number of rounds or every continuation; delivery (`delivered_partial`) follows one waiting event through the phases of two rounds |
| C165-C171 | RSA signatures | blocks that the public key opens as an inductive relation; DER trees as specification; a perfect power among the numbers that begin with given digits for the forgery |
| C172-C178 | messages between processes | a message as its bytes, the due calls of handlers; arbitrary divisions of a stream into pieces and wakeups |
| C195-C198 | hash tables: searching on, freeing, resetting | lists of buckets, permutations of entries |
| C199-C201 | JSON numbers and rests of texts | rational arithmetic as an instance of the abstract one |
| C202-C211 | script interpreter: statements, expressions, what goes wrong | step machine against a fuelled reference execution; simulation by induction on the fuel, both ways |
| C212-C215 | cron periods, sizes of FEC packets, the mutex of the thread pool | calendar arithmetic; bounds on lengths; invariant over schedules |
| C216-C221 | operators of the script language on numbers, booleans and nil | integers with truncating division, order of the rationals; case analysis |
| C222-C227 | message passing of the multithread framework | invariant that links the two kinds of chains; the stream written to one thread as a list of whole messages, filtered by sender; every sequence of events |
| C228-C234 | the WebSocket handshake | composition of the HTTP round trip, SHA-1, base64; explicit lists of fields; refutations for every request of a shape |
| C235, C236 | implicit tags in DER | a byte by byte check of all tags; the decoder of C45 |
| C237, C238 | tables and states of the parser generator | the row as a fold over the items, entries kept unless a conflict is recorded; a pass without change is a fixpoint; merging closed sets |
| C239 | lists with a sentinel | refinement to the chain of C02: the two variables put into a node of the heap |
| C240-C242 | spans of calls | induction on the tree of calls (first call, rest); the numbers of the spans are the positions in preorder |
| C243-C244 | completeness of the generated parser | the work list of states as an invariant (states not in the queue are done); then induction on the derivation, the machine kept in a state that holds the item being read |
| C245-C247 | search path of scripts and libraries | the walk over the variable's bytes against a list of directories; for long names the index computed from snprintf's result is outside |
| C248-C253 | jobs of the script language | one invariant over chains, names, cache and jobs, kept by each part of the code and lifted to all histories by one induction (`Kept`); fairness by the position in the chain |
| C254-C256 | tracing | an invariant that says that all pointers, events and timers lead to the one object there is; for each breach the state in which it is lost |
| C257-C259 | strings in scripts | `+`, index and comparisons of strings against texts and the byte order |
| C260-C262 | arrays of scripts | refinement of a dictionary with numbered places; the key tree on the red-black tree model |
| C263-C268 | names, calls and operators of scripts | the shared symbol table refines one dictionary for each call; search for functions against an inductive specification |
| C269-C270 | pipe between C code and a script | invariant: accepted = received ++ waiting, over all interleavings |
| C271-C273 | assignment, parameters, captured variables of the script language | store of values with addresses, induction over parameters and assignments |
| C274-C277 | watched variables of the script language | trace of calls against a search in the history; well-founded recursion over scopes |
| C278-C281 | Eval of texts, imported libraries | invariant with pending releases over all sequences of imports and ends of jobs |
| C282-C286 | supervision of processes | the list of processes, sockets and events as permutations of each other, over all sequences of ends |
| C312-C314 | messages of a WebSocket | calls against the rules of RFC 6455 for fragments; invariant on who owns the content |
| C315-C316 | garbage collection of scripts | the walk of the handlers is exactly reachability; the proof of C53 with two different handlers |
| C317-C319 | configuration from a program | the proofs about the tree (C31 ff.) give every call; a list of entries is the specification; hooks by induction on the list |
| C320-C321 | strings that are held | invariant between how often the program holds each string and the memory, kept by each call |
| C322-C324 | starting and stopping | credentials as in setuid(2); case analysis for all users; printing and reading of numbers by digits |
| C325-C326 | JSON objects and arrays as used by a program | simulation between the red-black tree and a finite map; lists |
| C327 | matching the fields of a WebSocket request | the theorem on patterns of plain bytes (RegexpItemProps), occurrences of a text |
| C328 | objects of classes | adaptive programs, an invariant over memory and log; refutations for every expression of a shape |
| C329 | the notices of mln_func.c | cases over the failures; induction over the bytes copied |
| C330 | chains of buffers | the heap as a list up to order; induction over the chain |
| C331 | functions as operands | cases over the operators; induction over how a function was made |
| C332 | adding to chains, sizes of buffers | paths through the links; induction over the nodes added |
| C333 | mln_trace_path | cases over the searches |
| C334, C335 | boot parameters, descriptors of a daemon | induction over the arguments and the table; the lowest free descriptor |
| C287 | the grammar of scripts has one reading | tables of first, second and following tokens, checked by the kernel; a theorem that such tables make readings unique (PgUnique) |
| C288-C290 | levels of operators, signs, `||` and `&&` | induction over expressions, a statement for each level; uniqueness from C287 |
| C291-C294 | starting up the framework, tracing in workers | the state of a process as a record, all histories of the master before a restart |
| C295-C297 | watched functions, hooks of paths | induction over programs; over sequences of settings |
| C187-C194 | the parser generator | derivations with values as an inductive relation; LR stacks as paths in the table, two machines running the same moves; worklist invariants for nullable and FIRST; refutations on concrete grammars for all texts of a shape |
| C179-C186 | the logger | an inductive relation between formats, arguments and texts; what was written to each descriptor |
| C136-C143 | expressions | evaluation as a separate interpreter over trees; the parser simulates it for every rest of the text; refutations for every callback |
| C120-C123 | TCP connections | sockets as lists of outcomes, conservation of bytes |
| C114-C118 | HTTP fields and status | table as a list, refutations for every name or value of a shape |

## What is modelled

Each line: source, Lean modules, what is left out.

| source | modules | left out |
|--------|---------|----------|
| mln_queue.[ch] | Queue* | - |
| mln_stack.[ch] | Stack* | - |
| include/mln_utils.h (chains, big-endian macros) | Chain*, BigEndian* | - |
| mln_list.c | MlnList* | - |
| mln_span.c, wrapper of mln_func.h | Span* | mln_span_move; failing allocations (they end in assert) |
| mln_array.[ch] | Array* | pool callbacks are an allocation flag |
| mln_base64.c | Base64* | - |
| mln_md5.c, mln_sha.c | Md, Md5*, Sha1*, Sha256* | - |
| mln_aes.c, mln_des.c, mln_rc.c | Aes*, Des*, Rc4* | the allocation wrappers new/pool_new |
| mln_rs.c, mln_matrix over GF(256) as used by it | Rs* | double matrices of mln_matrix.c |
| mln_string.[ch] | Str*, StrLife* (who frees strings) | allocation failure in slicing; in StrLife calls that change a text |
| mln_rbtree.[ch] | RbTree* | - |
| mln_fheap.[ch] | Fheap* | key_free callbacks; pools |
| mln_hash.c | Hash* | - |
| mln_bignum.c | Bn* | - |
| mln_prime_generator.c | Prime* | - |
| mln_json.c | Json*, JsonTree* (objects on the red-black tree, arrays) | doubles are abstract; mln_json_generate (JsonGen) without failing allocations and with its variadic list as a list of typed values; mln_json_dump |
| mln_asn1.c | Asn1* | stack depth |
| mln_websocket.c | WebSocket* (frames), WsSend* (the calls for messages, who frees the content), Ws* (handshake), WsMatch* (mln_websocket_match) | extension handlers |
| mln_tools.c | Time* (calendar), Boot* (limits, user, stop and reload), BootArgs* (boot parameters, descriptors of a daemon) | the owner of the log files |
| mln_cron.c | Cron* | - |
| mln_gc.c | Gc* | callbacks that remove items |
| mln_file.c | File* | temporary files |
| mln_thread_pool.c, mln_iothread.c | ThreadPool*, IoThread* | memory order weaker than sequential consistency |
| mln_thread.c | Itc* | configuration and arguments of threads, loading of entries, bits of a message (a byte knows its message), the event loop itself (Event*), the child's side (mln_thread_exit, mln_thread_kill) |
| include/mln_utils.h (spin lock) | SpinLock* | memory order weaker than sequential consistency |
| mln_fec.c | Fec* | - |
| mln_alloc.c | Alloc*, Shm* | locks of shared pools |
| mln_rsa.c | Rsa*, RsaSign*, RsaForge* | memory that runs out; of `hashval` only the octets that are used |
| mln_event.c | Event (epoll: setting and clearing descriptors, timers, timeouts, mln_event_dispatch), Fheap (`retime`) | kqueue and select, blocking modes, the callback of mln_event_dispatch, failing allocations, handlers run by other threads at the same time, mln_event_free |
| mln_parser_generator.c, mln_parser_generator.h | Pg | reading the productions (token names), FOLLOW sets (not used), repair of syntax errors, messages |
| mln_log.c | Log | writes that take a part only, file locks, NaN and infinities, mln_log_init apart from the path and the level |
| mln_fork.c (messages), mln_ipc.c | Ipc | fork, exec, signals, starting workers again, configuration |
| mln_regexp.c | Regexp* | allocation of the array of matches; `char` is signed |
| mln_lex.c, mln_lex.h | Lex, LexProps, LexRunProps, LexPpProps, LexBadProps | memory that runs out, read that fails, directories and search paths of #include, hooks of the user other than as a function, dump, what is freed; keywords and macros as lists instead of trees |
| mln_expr.c | Expr, ExprLexProps, ExprProps, ExprFailProps, ExprOpenProps | memory that runs out, doubles (an unknown function), what is freed |
| mln_error.c, RET and CODE | Err, ErrProps | the callback; `len` above INT_MAX |
| mln_conf.c | Conf, ConfLexProps, ConfProps; ConfApi, ConfApiProps (the calls of a program, with the tree; hooks; reload) | in Conf the trees of domains and commands are lists in the order of insertion; the path of the file; messages |
| mln_matrix.c | Matrix, MatrixProps | rounding (a double is an element of an ordered field); flat indices; mln_matrix_dump |
| mln_connection.c | Conn, ConnProps | variants without writev or sendfile, sendfile on sockets that do not block (shown not to be reached), positions of files, what is freed |
| mln_http.c | Http* | marks of the last buffer, dump, what is freed; NULL arguments; a table of 31 buckets as a list |
| mln_lang.c (the stack machine) | Lang, LangProps, LangStmProps, LangHaltProps, LangRefProps | the operators of each type (a parameter), functions, sets, arrays, properties, goto, scopes, overloaded operators, watched variables, the limit of the run stack; ASSERT (empty unless `__DEBUG__` is defined; with it a matching case of a switch fails an assertion, mln_lang.c:4022) |
| mln_lang_int.c, mln_lang_real.c, mln_lang_bool.c, mln_lang_nil.c (operators) | LangOp, LangOpProps | reals are rational numbers (no rounding, infinities, NaN); strings, objects, functions and arrays as operands, overloaded operators, watched variables |
| search of files in mln_lang_ast.c, mln_lex.c, mln_lang.c (Import, Eval) | SearchPath, SearchPathProps | the file system (a predicate: which paths exist); contents of buffers behind the zero |
| mln_lang.c (jobs, launcher, cache of syntax trees, Eval and Kill) | LangSched, LangSchedProps | threads; what scripts do in a turn (any list of actions); scopes and values |
| mln_trace.c | Trace, TraceProps, TracePath, TracePathProps | what scripts do; threads |
| mln_lang_str.c, string operands in mln_lang_int.c and the other tables | LangStr, LangStrProps | reals, overloaded operators |
| arrays of mln_lang.c, the index of mln_lang_array.c | LangArray, LangArrayProps, LangKey, LangKeyProps | reference counts, garbage collection |
| scopes and symbols of mln_lang.c, entering a function, the search for operator functions | LangSym, LangSymProps | values, copying and referring of variables, members of sets, reuse of nodes |
| pipe of mln_lang.c | LangPipe, LangPipeProps | threads beyond one step per call, allocation failures |
| assignment, parameters and captured variables of mln_lang.c | LangVar, LangVarProps | reference counts, the contents of arrays, objects and functions, allocation failures |
| Watch and Unwatch of mln_lang.c | LangWatch, LangWatchProps | what watch functions do except assignments, operators defined by scripts |
| sets and objects of mln_lang.c, assignment, comparison and properties of mln_lang_obj.c | LangObj, LangObjProps | overloaded operators, reference counts and the garbage collector, failures of allocation, members of arrays |
| handlers of mln_lang.c for the garbage collector | LangGc, LangGcProps | reference counts, changes of the trees by the handlers (recorded as cut references) |
| Import of mln_lang.c and its counts | LangImport, LangImportProps | init and destroy of the libraries, other resources of jobs |
| mln_fork.c, the processes (its messages are in Ipc) | Supervise, SuperviseProps | signals, the clear handler, failures of mln_tcp_conn_init and mln_event_fd_set (the master aborts) |
| mln_lang_ast.c: handlers of the lexer, words of the language | LangLex, LangLexProps | `#` commands in the theorems (the model has those of Lex); lines of tokens; failures of allocation |
| prod_tbl of mln_lang_ast.c, functions of all productions, handler of `\|\|` and `&&` | LangGram, LangExp, PgUnique, LangGramProps, LangExpProps, LangTreeProps | line numbers, texts of the tokens (a number stands for each), failures of allocation; the jumps over levels with one operand |
| mln_framework.c, mln_trace_init and its timer in the processes | Framework, FrameworkProps | boot parameters, limits, daemon, signals, what trace scripts do |
| mln_func.c callbacks and the wrappers of mln_func.h, mln_path.c | Hook, HookProps, Notice, NoticeProps (mln_notice) | results of connect and send; callbacks that call watched functions or change callbacks |
| mln_chain.c, the macros of mln_chain.h | ChainBuf, ChainBufProps, ChainAdd, ChainAddProps | releasing chains with cycles, munmap of a part of a mapping, overflow of sizes |
| mln_lang_func.c | LangFunc, LangFuncProps | parameters; the string operators handed over to are in LangStr; what an overloaded operator does |
| include/mln_class.h | ClassObj, ClassObjProps | constructors and destructors that make or delete objects; the layout of the structures |

Every source file has a line above; what it leaves out is in its last column.

Assumptions on the environment, besides the trusted base: `assert` is compiled in (the prime code
calls functions inside assertions, which would vanish with NDEBUG); callbacks of the user return and
keep the documented rules; a failed allocation is a flag or an oracle and may fail at any point where
the model says so.

## Properties that do not hold as stated

For these the negation is proved (for every bad input where the note says so, else with a witness), and
what is true is proved beside it.

* C03, Removing by index keeps the queue a FIFO: code defect: append after free_index is lost (refuted with a witness); proved for histories without append after free_index
* C06, Dynamic array keeps its elements across growth: code defect: with initial capacity 0 the growth loop never ends (proved); everything else proved for positive capacity without size overflow
* C12, Digest export never writes beyond the caller's buffer: code defect: mln_sha256_tobytes overruns the buffer by one byte for len 20, 24, 28 (proved); everything else proved
* C17, Reed-Solomon recovers from any k erasures: Proved for one parity vector (every n) and two parity vectors (n up to 255). Refuted for k>=3 with n>=11, k>=4 with n>=7, k>=5 with n>=4, k>=9 with n>=2, and k>=2 with n>=256: the parity rows are integer powers truncated to a byte, not field powers. The remaining small sizes are open.
* C18, String comparison is zero exactly on equal strings: code defect: two strings that share the data pointer compare equal whatever their lengths (proved); proved for distinct buffers
* C19, String comparison is a total order: code defects: strcmp is not antisymmetric and is cyclic on the word path, strseqcmp returns 1 for empty against nonempty in both directions (all proved); total orders proved on ASCII strings / lengths outside the word path, and lexicographic order for nonempty strings
* C24, Tree iteration visits every node once even under deletion: Exactly-once in insertion order is proved for every handler that deletes any present nodes. Readiness after an abort is refuted: if the handler deletes the current node and aborts, the flag stays set and the next iteration visits the first node twice. Handlers that insert are not covered.
* C26, Fibonacci heap delete removes the given node: holds when the minimum value is below every other key; refuted for every heap where the key of the node is below the minimum value and not least, and for every heap that holds another key below the minimum value: another node is removed
* C28, Hash table search returns what was inserted: Proved for every history when the table is not expandable, and for every history without mln_hash_update when it is. Refuted with mln_hash_update: on every fresh expandable table the first mln_hash_update of a new key uses the bucket pointer taken before the table was replaced (use after free).
* C29, Hash iteration visits every entry once in insertion order: Proved for tables that do not resize, distinct keys and handlers that keep or remove the visited entry. Refuted: after a resize, removing the visited entry uses a bucket pointer of the freed table; a handler that removes and stops leaves a dead entry that hides a later insertion of the same key from mln_hash_search. Missing: handlers that insert or remove other entries.
* C30, Hash table stays sane under resizing: Never zero and below 2^32: proved for every history (without mln_hash_update if expandable). The constant factor is refuted: every expandable table (calc_prime 0) has a history after which two entries sit in 1073741823 buckets.
* C31, Bignum addition and subtraction are exact: code defect: subtracting a larger-magnitude negative from a negative of the same length aborts (proved for every such pair); addition proved for all numbers whose sum fits, subtraction for all other pairs
* C33, Bignum division satisfies the Euclidean equation: Proved for a positive divisor or an exact division. Refuted by theorem div_negative for every negative divisor that does not divide (the remainder has the wrong sign), and by div_oob for a full width dividend with an unnormalised top limb, where the code reads past the limb array.
* C34, Bignum modular power is correct: Proved for exponents of at least 2 and operands within the size limit. pwr_one and pwr_zero prove that exponents 1 and 0 return the unreduced base and 1 whatever the modulus is.
* C35, Bignum shifts multiply and divide by powers of two: Proved for every count below 8224. shift_large proves that larger counts leave the number unchanged; rightShift_oob proves that a full width number shifted right by 1 to 31 bits reads past the limb array.
* C36, Bignum text conversion round-trips: Hexadecimal and decimal literals and the text output are proved. assign_oct_partial proves that an octal literal is read correctly exactly when all digits before the last three are zero (code defect); text_roundtrip_large proves that the text of every number from 10^2056 on is refused on input.
* C37, Bignum octet-string conversion round-trips: The value round trips for every accepted length. octet_roundtrip_compare proves that the number read back compares equal exactly when the length was minimal, so the comparison part fails for every longer length (code defect).
* C38, Bignum comparison is the numeric order: code defect: two negative numbers of the same length are ordered by magnitude, reversed (proved for every such pair); the order is right for all other pairs
* C39, Extended Euclid yields Bezout coefficients: Proved for positive operands when the second has at most 256 limbs and the first is readable by the division (see div_oob for what happens otherwise).
* C41, JSON encode then decode restores the value: Proved for every value without an empty array, with keys that the comparison orders (7-bit keys are: ordered_ascii) and with integers of absolute value up to 2^53 (doubles abstract, exact on these); decode_text: every text of the grammar Txt decodes to its value. round_trip_empty: the empty array comes back as an array of one element.
* C42, JSON string decoding is memory safe: Proved for literals without a raw NUL byte; string_overflow: a \u escape of code 2048 or more followed by two or more raw NUL bytes overruns the buffer.
* C43, JSON arrays decode to their elements: Proved for one or more elements. The text [] gives length 1, [ ] is rejected, a trailing comma adds an element.
* C44, JSON path index addresses the numbered element: The digits are read backwards: proved for components equal to their reversal (in particular one digit), refuted for every component of two different digits.
* C47, WebSocket parse inverts generate: Code defects: a masked close frame whose status equals the upper half of the key does not round-trip (parse_close_collision, for every such frame); 64-bit lengths use shifts that C leaves undefined, parse_wire_partial needs them to map 0 to 0; mln_websocket_close_generate ignores its status argument.
* C48, WebSocket parse never reads beyond the received bytes: Proved for frames complete in one buffer. Code defect: a field that is only partly received is read past the end of the buffer (parse_cut_*, for every such frame).
* C50, Date normalisation preserves the instant: code defect: a month above 12 indexes outside mon_days (proved for every such input); proved for months 1..12, days >= 1 and all other non-negative fields
* C51, UTC/Generalized time strings denote their instant: code defects: day 00 accepted, month 00 reads out of range, instants of the year 2000 encode to a string the parser rejects (all proved); the exact behaviour is characterised for every string
* C52, Cron yields a strictly later time: The full claim is false for the code. Proved for all bases: for stars and lists (days up to 28, every month, not both day and weekday) the result matches, is not before the base, and equals the base exactly when the base matches and the minute is a list. Refuted: a matching base is returned unchanged; a list of months already over reads outside mon_days; day 31 in a 30-day month gives the 1st; a lone period goes back; the result need not be the next match. Missing: matching for periods and month lists.
* C53, Garbage collector frees exactly the unreachable suspects: Proved for every graph, root set and suspect set in which the reachable items of other collectors are not suspected (in particular if there is one collector); also termination, each item freed once, and the collector is ready again. Refuted otherwise: an item reachable only through a suspected item of another collector is freed (foreign_lost). Callbacks that call mln_gc_remove are not modelled.
* C54, File cache never closes a file in use: Proved for 7-bit paths when the tree node of a file is never refused. Refuted otherwise: a refused node leaves freed memory in the list of unused files (refused_node_dangles, in every state); two paths whose 4-byte words differ by 2^31 break the order of the tree and a held path is cached twice (path_cached_twice).
* C55, Thread pool handles every resource exactly once: Exactly once and FIFO: proved for every schedule in which no handler ends its own thread (pool_die_uaf: then the child reads the freed pool). Counters: proved as long as pthread_create succeeds; create_fails_stuck: after a failure the member stays registered and mln_thread_pool_run never returns.
* C58, FEC recovers any single lost packet of a group: Proved for every group of 1 to 48 packets of 12 to 1442 bytes whose numbers do not pass 65535, every arrival order with repetitions, older packets and later ones inside the mask; byte for byte if the packet has version 2 and the SSRC of the last packet of the group. Refuted: numbers passing 65535 (group_wrap: every such group is undefined behaviour in the encoder), a count that is no multiple of the group size (encode_remainder), a packet numbered behind the mask among the received ones (decode_late).
* C59, Pool blocks are big enough and disjoint: Proved for every history on every tower of pools (over malloc or shared memory), requests below 2^61 bytes: no overlap among blocks of all levels, no allocator record inside a block, alignment 8 over malloc. Refuted for sizes of 2^64 - 147 and more: the size computation wraps and a chunk of at most 144 bytes is used (alloc_wraps).
* C60, Pool capacity is respected and returned: The limit is never exceeded (every history), and blocks above 2 MB are taken back exactly. Refuted: a freed block of up to 2 MB leaves its chunk charged (cap_not_returned, chunks go back after 1024 emptyings only), and a request the parent refuses stays charged for ever (cap_leak).
* C61, Shared-memory bitmap allocator hands out disjoint runs: Proved for every history with requests below 2^64 - 4200 bytes, including that a refusal means no free run and no gap (Full). Refuted for larger requests (large_wraps); a pool of between 2 MB + 1 KB and 2 MB + 2 KB is accepted and can hold nothing (small_pool_useless).
* C63, RSA decrypt inverts encrypt: Proved for one block of text of at least one octet and moduli of at most 4096 bits that are not too small for their octet length; both exponentiation paths. Refuted for the empty text (empty_text)..
* C66, Case-insensitive comparison is zero exactly on strings equal up to ASCII case: code defect: bytes after an embedded NUL are ignored (witness); exact behaviour characterised, the property proved for strings without NUL
* C69, A duplicated big number behaves like the original: Sign, length, limbs in use and comparison are proved. dup_add_wrong shows the code defect: addition reads the limbs above the length, which the duplicate leaves uninitialised. With zeroed memory the duplicate is identical (dup_zeroed).
* C72, ASN.1 encoders stay inside the buffers they allocate: Proved when allocations succeed. Code defect: after a failed allocation in mln_asn1_encode_add_content or mln_asn1_encode_merge the next call writes past its buffer (proved for every such state).
* C73, I/O thread messages are never used after they are freed: Holds under the client rules of C56. Refuted for every even non-zero feedback value (the field has one bit) and for a release that comes before the receiver has looked at the message again.
* C74, Inline-assembly spin lock gives mutual exclusion: Proved for lock and unlock alone. Refuted with trylock: its result is inverted against the manual, so it reports success on a taken lock and takes a free lock while reporting failure.
* C79, JSON decoding has no undefined behaviour: Proved for texts without NUL byte, without ten digits in a row and not ending in a blank; an opening brace followed by blanks only reads behind the text, an exponent of ten digits overflows an int.
* C84, A failed addition leaves the resource with the caller: Holds when the allocation of the resource node fails; refuted whenever the allocation of the member or pthread_create fails: the resource stays queued and is handled.
* C85, mln_alloc_re keeps contents and stays in bounds: Proved for blocks of the same pool. Refuted for blocks of another pool that are larger than the new block: the whole old block is copied over its end.
* C86, The available capacity is what is left: Proved for pools over malloc or another pool, and for a shared pool with one bitmap block. Refuted for an empty shared pool (available_empty) and for two bitmap blocks (available_two).
* C87, FEC decoding is safe on any received packets: Safe when there is not exactly one FEC packet. Refuted: every FEC packet of 26 bytes with one mask bit and a protection length over 1472 overruns the buffer (decode_overrun); a media packet behind the mask gives a negative shift (decode_late).
* C89, A collection leaves items in use alone: Proved if no freed item refers to one that stays. Refuted: an item in use that refers to itself and is referred to by a freed item loses its reference (live_cut).
* C92, Every key pair encrypts and decrypts: For 89 to 4096 bits, when the two numbers drawn are prime: the keys satisfy the RSA equations (keyGenerate_spec); proved to decrypt for bits of 19 to 31 modulo 32 and for multiples of 64; refuted for bits of 1 to 17 modulo 32 and for moduli one bit longer than a multiple of 32: no cipher text decrypts (generated_useless). Open: bits of 18 modulo 32 and above 4096.
* C93, The padding of a public encryption is unpredictable: Refuted for every rand_r: each octet of the padding seeds the next, so the first determines all others.
* C94, Decryption leaves the cipher text alone: Refuted: for every key pair and text covered, the buffer of the caller holds the padded plain text afterwards.
* C95, Prime candidates have the requested width and primes are kept: Proved for widths of 3 to 4096 bits. Widths of 4097 to 4112 bits are accepted by the code but the modular power is only covered up to 4096 bits.
* C96, Primes come from more than 2^32 candidates: Refuted for every rand_r and every width that is no multiple of 32: at most 2^32 candidates.
* C97, mln_bignum_prime gives a prime: Refuted with a witness (25 is returned for bases drawn as 7); proved is that the number passed the strong test for the bases drawn.
* C98, Setting timeouts again never overruns the heap's degree table: holds for at most 65 nodes; refuted for every heap of 66 or more nodes: the extracted node keeps its degree, and renewing the timeout that is due next with later and later times always ends with a write beside the table of 65 on the stack
* C101, mln_reg_match gives all matches: holds for patterns of plain bytes and dots; refuted for every pattern with an escape: the search stops when less text is left than the pattern has bytes, and the second of two adjacent matches is lost
* C102, Every text can be searched for the bytes it has: holds for bytes below 128; refuted for every pattern with a byte above 127 among plain items: it is found in no text at all (char taken as signed)
* C103, mln_reg_equal says 0 when it finds something: holds for patterns of single bytes that do not end in an escaped dollar sign; refuted for all that do: the value is the number of bytes left behind the match; for the empty pattern it is the length of the text
* C104, Repetition counts mean what they say: holds for one digit, also for x{N,}; counts are read in base 11, so x{N} is refused on a text of N bytes x for every N from 10 on
* C105, What follows a repetition has to match: refuted: a pattern that starts with a starred item is found in every text; x+r is found in every text of nothing but x, for every r; x*x has no match in x; .? takes no byte but 170
* C106, What follows an alternative has to match: refuted for every pattern x|yz: the expression after the last alternative is skipped unread, x|yz is found in y
* C107, mln_reg_match reports nothing when nothing matches: holds for patterns without groups made of plain bytes and dots; refuted for (x)y on every text without xy: one string is reported per x
* C108, Matching ends: holds for patterns of single bytes and for counted bytes; refuted: (x*)* never returns on any text that has a byte other than x
* C110, Malformed HTTP input is reported: refuted: without a handler mln_http_parse never returns M_HTTP_RET_ERROR (the precedence of = and == in line 137); every first line that is neither request nor status line gives M_HTTP_RET_DONE with the type unknown, and generating such a message follows a pointer that was never set; what holds is that the error field is set to 400
* C112, HTTP messages can be put behind each other: holds after a message with a body; refuted for every message without one: the tail given back is NULL and is followed by the next call
* C114, A field value cannot add fields: holds for values on one line; refuted: a value with a line end in it is the same message as one with two fields, for every message and every second field
* C116, HTTP field names have no case: refuted: a field is found exactly when the numbers of capital letters agree modulo 31 (the bucket is computed with case), so a name of fewer than 31 letters with another number of capital letters is never found, and setting it adds a second field
* C117, HTTP field removal is complete: holds when every field of the name has a value; refuted for every table where the first field of the name has none: nothing is removed
* C118, HTTP status numbers are read exactly: the number is read modulo 2^32 for every list of digits; 4294967496 is read as 200
* C120, A connection sends what was queued, in order: for every queue and socket the bytes taken are a prefix of those queued and either the rest is still queued or the queue is empty; nothing is lost when all buffers are in memory and none is empty and marked last; refuted otherwise: a queue that begins with such a buffer is dropped whole
* C121, M_C_FINISH means that the message was sent: holds for a socket that takes all that is offered; refuted for every buffer marked last of which the socket takes a part only
* C122, Buffers in files are sent: holds for a file behind a buffer in memory on a socket that blocks; refuted for every queue that begins with a file: it is dropped; on a socket that does not block also for every file behind a buffer in memory
* C126, Tokens carry the line and file where they stand: holds for a token that something follows in a single input without preprocessing; refuted: every word or number that ends a buffer, and the end itself, is reported in line 1, in files without the name of the file; the newline that ends #if, #define, #undef is not counted
* C127, Every byte of the input is data: holds for texts without the bytes 254 and 255; refuted: the byte 255 is the end of the input wherever it stands (and more tokens follow), behind a word it disappears; the byte 254 makes token fail
* C128, Every call of token returns: holds without preprocessing, and with preprocessing for every text that has a next token; refuted: #define or #undef with any name at the end of the input, and a macro whose text is the macro itself, never return
* C130, A branch that is not taken has no effect: holds for tokens, #if, #else, #endif and #define (rules skip, ifSkip, elseSkip, defineSkip of Next); refuted: #undef is executed in every branch, files are included and macros looked up in branches that are not taken
* C131, A failing call of token says why: holds without preprocessing for texts without the bytes 254 and 255; refuted: the byte 254, and #define of any macro that is defined already
* C134, Anchors inside a pattern match nothing: holds for ^ and texts without the byte A7; refuted: x^ is found in x followed by the byte A7 (the code of the caret), and x$r is found in x for every r
* C135, A class lists every byte written in it: holds for plain bytes; refuted: [.], [+], [*], [?], [$] and [|] are found in every text, even in the empty one
* C137, if without else: holds for a condition that is true; refuted: with a false condition the whole text fails, and if another if..else follows its else branch is run in its place without its condition being evaluated
* C138, A loop at the end of a text: holds for texts that end in a blank; refuted: loop a do b end without anything behind it runs b once and then fails, for every callback
* C139, The result can be used: holds if no value is a string constant and the callback gives strings of its own; refuted for every text that is a string constant and for the handler of the manual, which returns the name it is given
* C140, Constants have the value they are written with: holds for numbers below 2^63 of at most 1023 digits; refuted: larger decimal numbers give 2^63-1, hexadecimal numbers of more than 64 bits give -1, digits behind the 1023rd are ignored
* C141, Texts that are no expressions are refused: holds for calls, conditions and loops that are not closed, with every content: the text fails; refuted: any number of commas, also none, between arguments is taken for one; a comma at the end is passed over behind a variable and refused behind a constant; a namespace without a name is null
* C142, Running a file is running its text: holds for files of every length without loops; refuted: of two nested loops the outer one is not repeated once the inner one has been; a single rewind inside of the buffer comes back to its place
* C145, Error texts stay inside the buffer: holds for texts shorter than the buffer by two bytes; refuted: with a text as long as the buffer or longer the byte 0 is written behind the end, with one shorter by a byte the last byte is missing; an index that is not in the table of files is looked up outside of it
* C146, RET(0) is success: holds with a table of messages; refuted: without one RET(0) is an error everywhere
* C149, Inverting leaves the argument alone: holds for matrices that are not square; refuted: whenever there is a result the argument has become the unit matrix
* C150, Invertible matrices have an inverse: NULL is given only if a column without an entry of 1e-6 or more is left; refuted: every matrix with entries below 1e-6 in the first column, for every size also invertible ones
* C153, Incomplete configuration files are refused: holds for commands; refuted for domains: one that is not closed is accepted as if it were, for every content; and for comments: one that is not closed is accepted (load_ok covers this)
* C154, A comment ends at */: holds if there is an even number of stars before */; refuted: for every comment with an odd number of them what follows is lost without a message
* C155, Domains may have every name: holds for names other than main; refuted: a domain main makes loading fail, whatever is in it
* C156, Reloading reports a bad file: holds for good files; refuted: for every file that is refused it returns 0 if the hooks agree, and there is no configuration any more
* C157, Numbers in a configuration are exact: holds for numbers of at most 63 bits; refuted: every larger one becomes 2^63-1 without a message
* C160, Timeouts of descriptors are called when they are due: proved for all histories; refuted: every timeout of 2147484 ms or more is a signed overflow
* C161, Timers are called once, in time and in order: holds for timers of less than 4294968 ms; refuted: every longer one is called early, because its microseconds are counted in 32 bits
* C162, Oneshot events are oneshot: proved for M_EV_RECV and M_EV_SEND if the descriptor is never set without events; refuted: the handler of a oneshot M_EV_ERROR is called in every round
* C163, Events that are set are delivered: proved for lasting events: epoll is asked for exactly what is set, and what it reports comes to its handler in the next round, unless the program clears the descriptor, takes the handler away or ends the loop, and if the lock is free; refuted in three ways: after a first mln_event_fd_set without events nothing is ever seen until the descriptor is cleared; M_EV_APPEND of a oneshot event to a lasting one ends both with the first event; an event of a descriptor with a timeout is forgotten if the lock is taken when it is to be handled
* C164, The loop does not spin: refuted: with EPOLLHUP alone no handler is called in any number of rounds, and epoll reports it again at once
* C165, What is signed is accepted: for keys whose modulus has room for the padding: at least 2*256^(4*limbs-2); generated keys of 18 to 31 bits modulo 32, multiples of 64, and multiples of 32 with a modulus of exactly so many bits. Missing: the other sizes, whose padded blocks are larger than the modulus
* C168, Nothing is accepted behind a signature: refuted: for every key pair and all messages, a signature followed by any other of the same key is accepted
* C169, Nobody signs without the private key: refuted: for every exponent E and modulus of L limbs with E*(34+(E+7)/8) <= 4*(L-1) (E=3 from 28 limbs on) there is for every message a signature that every such key accepts
* C170, Verification is safe: holds if there is an octet behind the signature; refuted: the signature of zeros is read one octet past its end, for every key and message
* C171, Verification keeps the signature: refuted: the accepted signatures of forged are changed by verification
* C173, The last words of a worker: refuted for every stream whose end arrives in the same wakeup as its last piece; if the end arrives later, C172 applies
* C174, Messages without memory: dropped: for messages that have arrived as a whole when malloc fails; hangs: if a part is still to come the loop never ends, for every such part
* C175, A broken peer does no harm: refuted: a length below four is not refused, and the type is read past the end of the object; safe_partial covers every stream in which the lengths are at least four
* C176, Long messages are queued or refused: prepare_ok: below 4 GiB; too_long: from 2^32-4 bytes on the message is written past the end of the buffer
* C178, A failed registration changes nothing: refuted: if there is no memory for the node of the tree, the old handler is gone already
* C181, Percent signs in log messages: refuted: after a percent sign that no known letter follows, the rest of every message is replaced by an error text; process_writes covers the others
* C182, Doubles in log messages: refuted: from 10^249 on bytes behind the buffer are written; process_writes covers doubles below 10^246
* C184, Reloading the logger returns: refuted: with anything that does not name a level the error is logged while the lock is held, which never returns; reload_ok covers the others, provided the path does no harm (C185)
* C185, The path of the log file: refuted for directories of 512 bytes and more, for names that begin with a dot and have no slash, and for relative paths of more than 1024 bytes; path_taken_partial covers the other paths of up to 1022 bytes
* C188, A generated parser stays inside its table: refuted: mln_pg_goto makes no state for an item before which all items are complete, so the table of the usual grammar for sums and products has shifts to state -1, and a * a is read outside the table; parse_safe_partial covers all tables without such shifts
* C189, A generated parser accepts the sentences of its grammar: refuted: tokens behind one that may be empty are not taken into the lookahead; the converse is C187; parse_complete_partial proves it for the grammars without the three flaws (C188, C189, C190), conditions that can be checked (goodB_ok)
* C190, The order of the productions does not matter to the language: refuted: with the empty production listed first the terminals of the later ones get no FIRST set
* C191, A failing function makes the parser return NULL: refuted: the result of the machine that calls the functions is not looked at when the text has been read, and the data of another factor is returned; parse_value covers functions that do not fail
* C193, The FIRST sets are calculated exactly: complete only if every terminal stands in a production of a token that cannot be empty; refuted for the others
* C194, States are found again: refuted: two states can each be greater than the other, and a state is made twice; cmp_eq_zero: states taken for the same are the same
* C196, Searching on ends with NULL: refuted: when the last entry of the bucket matches, the context becomes NULL and the next call starts again from the beginning; iterator_all covers loops that test the context
* C200, Only numbers of the JSON grammar are taken: refuted: 1., 1e, 1E+ and 1.e- are taken for 1
* C202, Statements of scripts do what the statements of C do: for scripts as in Stm.Ok; what happens with the others is in C204 and C208-C210. Operators are a parameter; functions, sets, arrays, goto not modelled
* C203, Scripts stop exactly when they should: for scripts as in Stm.Ok; refuted for the others by C209 and C210
* C204, No script makes the interpreter access memory through a null pointer: proved for scripts as in Stm.Ok; refuted for empty statements, matching cases without statements, empty parentheses and empty conditions of if
* C205, Expressions of scripts have the value of the ordinary evaluation: for expressions as in E.Ok: no empty parentheses, and no = between what may be the same variable (C207)
* C207, Assigning a variable its own value leaves it as it is: refuted for every value: the left side is freed before the right side is copied, x becomes nil; C205 covers the other assignments
* C208, All expressions of a statement are evaluated: refuted: only the first expression is evaluated; in parentheses, conditions and for headers all are (C205, C202)
* C209, A for loop without condition runs until it is left: refuted: the value of the last expression evaluated is taken for the condition; loops with a condition are covered by C202
* C210, continue belongs to the loop and default to no value: refuted: continue only leaves the switch; a default is taken when reached. C202 covers switches with default last and no continue for an outer loop
* C211, Operands have the value they had when they were evaluated: refuted: a variable as left operand is read when the operator is applied; machine_evaluates says so in general
* C213, A cron period names the multiples: False: the period counts from the base (cron_period). For p dividing 60 the result is a multiple of p exactly if the minute of the base is one.
* C217, Equality of script values is symmetric and excludes less-than: False: an integer left of == cuts the real on the right, so 1 == 1.5 and 1 < 1.5 while 1.5 == 1 is false; holds for values of the same type and for reals that are integers. Comparing with a real beyond 64 bits is undefined behaviour.
* C219, Compound assignments of scripts abbreviate: False: the assignment takes the table of the right operand, the binary operator that of the left. i += true works, i + true is an error; r %= i, r <<= i, r |= i work, r % i, r << i, r | i are errors. Holds for integers, and for numbers with + - * /.
* C220, Negation is the opposite of a condition: False for nonzero reals within 2.2204460492503131E-16 of 0: both if (r) and if (!r) take the other branch.
* C226, The last messages of a thread are delivered: False: if the closing is noticed in the same call as the message, nothing read in that call is passed on (the example shows both outcomes).
* C227, The end of a thread is clean: False: a message is assumed at the start of every received buffer. If a buffer ends within a message (always if it is full: 1024 is no multiple of 72), or was used in part, bytes that are no message are treated as one, or a message is freed twice.
* C229, The bytes of the WebSocket handshake: The extensions only when the allocator gives a byte more than asked for (C232); the bytes for objects without further fields, with further fields the lookups of C228.
* C230, A client accepts exactly the right answers: False: the accept value is compared without regard to case, so wrong values are accepted (accept_wrong_value), and a Connection list with a further word is refused. validate_iff_partial tells exactly what is accepted.
* C231, A client can validate the answer to its own request: False: the key is not stored in the object; for a new object every good answer makes mln_websocket_validate follow a NULL pointer. With the key set by hand: C228.
* C232, No request makes the server's handshake use memory it does not have: False: a request without key (or with its name in other capitals) makes the server follow a NULL pointer, and every list of extensions makes it write one byte behind the buffer it asked for. Otherwise safe: response_total_partial.
* C233, A WebSocket request that could not be built is not sent: Safe, but the tests < 0 of mln_http_field_set never hold, so a request without key is sent as a success.
* C236, An implicit tag number that does not fit is refused: False: the number is put into the byte without a test, so every number from 32 to 63 turns a primitive value into one with the header of a constructed one (proved for all of them). Numbers below 32: implicit_retags.
* C242, Tracing can be stopped at any depth: False: after the starting function has returned mln_span_stop runs into assert(0) (for all calls before and after); in a called function it leaves the first span without an end. In the same function: dump_is_call_tree.
* C244, A generated parser accepts exactly the sentences of its grammar, each with its value: Proved for grammars with three properties, each needed: no shift to state -1 in the table (parse_bad), no token that may be empty directly behind a nonterminal and before further tokens (sentence_refused), and for each terminal a production that is not preceded by a possibly-empty production of the same token (order_matters). The conditions can be checked for a grammar (goodB_ok) and hold for the grammar of the library's test (testG_complete). Reduction functions do not fail; enough memory.
* C246, Looking for a file leaves the search path as it is: Refuted: the lookup writes a zero in place of the first semicolon of the string that getenv returned, so that afterwards the variable holds only the first directory and later lookups search only this one. Proved: absolute paths, paths that exist as they are and variables with one directory leave it unchanged.
* C247, No path makes the search write outside its buffer: Refuted for all long names: the return value of snprintf, which is the length that would have been needed, is used as index of the final zero. Proved: for shorter names no write outside, and the path is the intended one.
* C251, A job with a name is found by it, and no two jobs have one name: Refuted: when a creation is refused because the alias is in use, freeing the refused job removes the alias of the other job from the tree; that job can then no longer be killed and a third job gets the same alias. Proved for histories without a refused creation in which scripts create jobs without alias.
* C252, The launcher never uses a job that was freed: Refuted: a script that kills its own alias frees the job that is running. Proved for all other turns.
* C253, A job runs its own source: Refuted with the cache: paths that begin with / or @ are keys in the same cache as texts, so that a text which is such a path runs the file, and a file that was changed is not read again for 30 seconds while a job uses its tree. Proved for all histories in which all sources are texts.
* C254, Tracing uses nothing that was freed: Refuted: (1) if mln_trace_init fails after it made the language object, the variables keep pointing to the freed objects, and the timer that was set reads one of them; (2) mln_trace_finalize while a job can run leaves the launcher registered with the freed object. Proved for all histories without these two.
* C255, After a failed mln_trace_init it can be tried again: Refuted for failures of the job, the timer or the callback: each later initialisation fails, and finalize frees twice. Proved for the failures before.
* C256, The end of a trace gives back sockets and timer: Refuted: the pair of sockets is never closed, and after mln_trace_finalize the timer is set again for ever; k traces leave k pairs and k timers. Proved: the timer ends with a trace that ends by itself.
* C258, Strings are ordered in scripts: Refuted for the empty string: both "" > s and s > "" hold for every s that is not empty. Proved for all pairs of strings that are not empty; == and != are proved for all.
* C259, Comparing an integer with a string is consistent in scripts: Refuted: i == s converts the string to a number, s == i the number to a text, and the orders compare texts; " 1" equals 1 only from one side and is below it, 0 equals every word. Proved: an integer equals its own text from both sides, and s == i implies i == s.
* C260, Arrays of scripts are dictionaries with numbered places: Refuted: a literal with the key -1 sets the numbering back to 0, so that the next element gets a number that is in use; the number 2^63-1 overflows. Proved for histories without negative numbers in literals, numbers below 2^62 and at most 2^62 operations.
* C261, Using a variable as an index does not change it: Refuted: a[i] with i = -1 changes i to the number of the last element. Proved for all other values.
* C262, A string key finds its element again: Refuted: with keys of four bytes that are not all 7-bit the comparison is no order; after ten such keys the first is not found any more. Proved for keys of 7-bit characters.
* C265, A C function can set a variable for its caller: Refuted in the main program: mln_lang_scope_in compares a signed difference only with the upper bound, so that the place before the array counts as a scope, and the variable is joined to memory below the array. Proved in functions.
* C266, Calling a function by a name always comes to an end: Refuted: after a = 'a'; the call a(); and the expression $a; never return, and so for all cycles of names. Proved: when the search ends, it ends with what the strings lead to, and it ends whenever the strings lead to something.
* C267, Parameters of a function hold the arguments at their places: Proved for parameters with different names that are not captured as well and not called args when arguments are left over; refuted without these conditions (closure_wins); enter_vars says which value a name has in every case. Copying and referring of values is not modelled.
* C268, An operator calls the function a script has defined for it, and is the built-in operation otherwise: Refuted: the test whether the function of the operator is running never stops at the first scope, because mln_lang_scope_in also accepts places before the array; so once the flag is set every operator on the type reads outside of the array, unless it is used in its own function. The flag is set by any long name that begins with __ and the letter of the type. Proved: what an operator does in its own function, and without the flag.
* C269, Messages sent to a script arrive once and in order: Refuted as long as the pipe does not exist: mln_lang_ctx_pipe_send returns 0 and the message is dropped. Proved from the moment the pipe exists.
* C270, A script learns whether C code took its message: Refuted: true also when no handler has been set. Proved with a handler.
* C271, A script assignment gives the left side the value of the right side: Refuted: the old contents are given up before the new ones are read, so x = x makes every variable nil, and so does an assignment between two names of one value. Proved for different values, and exactly when it works.
* C272, A script function changes its caller's variables only through parameters with &: Refuted: every parameter behind one with & is passed by reference too. Proved for the parameters before the first &, and for parameters with &.
* C273, A captured variable is there when the function runs: Refuted: a captured name that is not defined has no value, and every use reads through a null pointer; names behind one with & are captured by reference too. Proved for names that are defined.
* C275, An assignment is an expression with the value assigned: Refuted for watched variables: with a watch function of the script the expression has no value at all, b = a = 1 reads through a null pointer; with one in C it has the value the watch function returned. Proved for variables nobody watches.
* C276, A watch function changes its arguments only through parameters with &: Refuted: with and without & both parameters are the watched value and the user data themselves. With & the property holds (params_refer).
* C277, A watched variable can be assigned: Refuted for a watch function that assigns to the variable it watches: every assignment to it then fails with a full stack of scopes. Proved for watch functions that assign to variables nobody watches.
* C278, Eval of a text runs that text: Refuted for every text that begins with @ (as a function definition does) in a job started from a file: the directory of that file takes the place of the @, or one or two bytes are dropped. Proved for other texts and for jobs started from a text.
* C281, An Import that fails gives a message: Refuted: a second Import of a library whose init fails prints a path that was never written; without memory for a new library a null pointer is used. Proved for the first import of a library.
* C285, A process that cannot be started leaves nothing behind: Refuted: both sockets stay open whenever fork fails. Proved when socketpair fails.
* C286, Starting a process returns: Refuted: if the child ends before it has written its byte the master reads the end of the socket in a loop for ever. Proved otherwise.
* C289, A sign in front belongs to the whole element behind it: Refuted for every sign, operand and index, property or call: the sign is applied to the operand before it is indexed or called. Proved with brackets around the element, and for !.
* C291, The framework runs in the mode that is configured: Refuted for numbers and characters: framework 1; is taken as off without a message. Proved for texts and booleans and for which modes are on.
* C292, Master and workers run their own functions: Proved for workers. Refuted for a master whose loop is ended: it goes on as a worker and aborts, because it has no connection to a master.
* C293, Messages of a worker reach its trace script: Refuted for every worker that is started again while the master traces: it keeps the master's script, which no loop runs any more, mln_trace still takes the messages, and mln_trace_init does not help. Proved for workers started at first, and for those started again when the script of the master had ended.
* C294, The variable MASTER tells the master from the workers: Refuted for every worker that is started again and has a script of its own. Proved for the master and the workers started at first.
* C296, A refused call looks like a failed one: Refuted for every function that returns a pointer: the refused call returns the pointer of all ones, which no caller takes for a failure. Proved for numbers with a sign.
* C298, Objects of scripts are records of their own: Missing: a place assigned to itself, which becomes nil (C271); reference counts, overloaded operators and failing allocations are not modelled.
* C301, A method call calls the function its name leads to: Refuted: a member (or, without a member, a variable) that holds its own name makes the call never return. Proved: a function is called if and only if the name leads to it.
* C302, this is the object the method was called for: Refuted: this is bound to the value of the variable before the dot and not to a copy; in a method called for a capitalised variable X, X = d changes this, and this = d changes the caller's variable. Proved: what this is at the begin of the method, and which names it does not see.
* C306, mln_json_generate refuses what is not a format: Refuted: whatever follows the closing bracket is ignored, and a comma before a closing bracket is accepted. Proved: nothing else is accepted.
* C307, A failed mln_json_generate leaves everything as it was: Refuted: an object or array that was to be added to is reset, and values given with j that were read before the failure are destroyed. Proved: a value of another type is kept, and only values given with j are destroyed.
* C310, Every comment of a script ends where it ends, every sign of the lexer can be used: Refuted: */ after an odd number of stars does not end a comment, what follows is lost without an error; ~= is a sign of the lexer that no accepted script contains. Proved: comments with an even number of stars before */ end there (reads).
* C312, Messages sent in pieces arrive whole: Missing: pieces of 65536 bytes and more (C47), frames that are spread over several buffers.
* C313, The content of a WebSocket object is freed once and not used after: Refuted: sending the content that was received (mln_websocket_get_content) reads it after it was freed. Proved: every sequence of calls with memory of the caller. Input on which mln_websocket_parse reads past a buffer (C48) is excluded.
* C314, A pong answers its ping: Refuted: a pong never carries anything. Proved: the refusal.
* C315, The garbage collector of scripts frees nothing that a script can still use: Refuted: what only functions captured, and what is only on the run stack or was just returned, is freed if it is suspected (a second reference to it was dropped before). Proved: without such values nothing in use is freed. Reference counts are not modelled.
* C317, A configuration changed by a program answers like a list of commands: Proved for names of 7-bit characters. Refuted for others: the comparison is no order and a command that was inserted is not found. Allocations succeed.
* C318, A command that was removed is gone: Refuted for all histories: a name may be inserted twice, and a removal takes away one of the two. Proved: it is gone if it was not inserted more often than removed.
* C319, A reload puts the new configuration in place and then calls the hooks: Refuted: a file that is not valid leaves no configuration, and the reload succeeds all the same; a callback that removes its own hook is read after it was freed. Proved: the order of the callbacks when they remove no hooks.
* C320, A string lives exactly as long as it is held: Proved for strings that are held fewer than 2^30 times. Refuted: the counter has 30 bits, so a string held 2^30 times is freed with the first mln_string_free. All pools are one pool; mln_string_upper and other calls that change a text are not in this model.
* C322, A process started by root gives up root: Refuted: the supplementary groups of the one who started it are never given up; if setuid fails the start succeeds and the process may become root again; started by another user with the same group it succeeds and runs as the one who started it; names are cut at 255 bytes. Proved: the numbers of the user, when setuid does not fail. The system calls follow setuid(2) of Linux.
* C323, Limits of the configuration are set or refused: Refuted: without an argument a NULL pointer is followed, negative numbers become huge limits.
* C324, The boot parameters reach the process that runs: Refuted: a daemon writes the number of the process that ends right after, so --stop kills a process that is not there (or another that got its number); --reload opens an empty path and never signals; a file without a number signals the group of the caller. Proved: --stop without daemon. It is assumed that nobody calls mln_log_init before.
* C325, A JSON object is a finite map in the order of insertion: Proved for 7-bit keys on the red-black tree itself. key_lost_refuted: with keys in UTF-8 the comparison is no order, and a key that was given a value is not found.
* C326, A JSON array is a list: iterate_refuted: the iteration over an empty array gives -1, whatever the handler. remove_refuted: with an index that is not the last the element stays and the last element is dropped.
* C327, A WebSocket match compares the fields: Proved for values without bytes that mean something in a pattern: success exactly when every field is there and contains the value. Refuted: a request that only contains the value is accepted (inside_refuted), a field set to the empty value is always refused (empty_refuted), a value with a special byte does not match itself (pattern_refuted).
* C328, Objects of classes are destructed once: Proved for objects given to delete as values. Refuted for expressions with effects, which delete evaluates four times: one object is tested, another destructed, another freed (delete_refuted), or NULL is used (taken_refuted). Constructors and destructors that make or delete objects themselves are not covered.
* C329, The notices of a program keep to their memory: memory_iff: the memory is used right except exactly when the address was found but there was no socket at the start (socket_refuted). zeros_refuted: zeros are sent behind the request, to 511 bytes.
* C330, Releasing a chain frees what it owns: release_partial: for chains whose buffers have `start` set, or have it NULL and are not consumed. moved_refuted: a buffer without `start` that was consumed in part frees an address that is no block. shared_refuted: a buffer in two nodes is freed twice. new_refuted: when memory runs out NULL is written.
* C331, Functions of Melang are equal when they are the same: equal_partial: functions whose bodies are not empty are equal exactly when they come from the same definition. empty_refuted: all functions with empty bodies are equal. captured_refuted: captured values are not compared.
* C332, Chains keep the order of what is added: all_partial: for nodes that are alone (next is NULL) and different. longer_refuted: adding a chain of two nodes and then another loses the second. twice_refuted: adding the last node again leaves a chain without end.
* C333, The script of the traces is the one in the configuration: path_partial: for configurations with one domain main and one command trace_mode. double_refuted: of two such commands either may be taken, as far as the contract of the search goes.
* C335, A daemon has its standard files on the null file: daemon_partial: when the null file can be opened. closed_refuted: otherwise the daemon goes on with the three descriptors closed, and the next file it opens becomes its standard input.

## Axioms

The axioms each theorem of the manifest depends on, from `#print axioms`: P `propext`, C `Classical.choice`, Q `Quot.sound`.

* C01: Queue.queue_fifo (PQ)
* C02: Queue.queue_fifo (PQ), Queue.queue_iterate_destroy (PQ)
* C03: Queue.queue_free_index_partial (PCQ), Queue.queue_free_index_then_append_loses (P), Queue.queue_free_index_tail (PCQ)
* C04: Stack.stack_lifo (PCQ), Stack.stack_iterate (PCQ), Stack.stack_destroy (PCQ), Stack.stack_dup (PCQ)
* C05: Chain.chain_history (PCQ)
* C06: Array.array_history_partial (PQ), Array.array_zero_capacity_diverges (PQ)
* C07: Base64.encode_eq_rfc (PCQ), Base64.decode_encode (PCQ)
* C08: Base64.decode_safe (PCQ), Base64.decode_empty_ub (PCQ)
* C09: Md5.md5_split (PCQ)
* C10: Sha1.sha1_split (PCQ)
* C11: Sha256.sha256_split (PCQ), Sha256.safeAdd_eq (PCQ), Sha256.fipsK_roots (PQ)
* C12: Md5.md5_tobytes (PCQ), Md5.md5_tostring (PCQ), Sha1.sha1_tobytes (PCQ), Sha1.sha1_tostring (PCQ), Sha256.sha256_tostring (PCQ), Sha256.sha256_tobytes_partial (PCQ), Sha256.sha256_tobytes_overrun (PQ)
* C13: Aes.decrypt_encrypt (PCQ), Aes.init_ok (PCQ), Aes.init_bad (PQ)
* C14: Des.des_inv (PQ), Des.des3_inv (PQ), Des.desBuf_roundtrip (PCQ), Des.des3Buf_roundtrip (PCQ), Des.desBuf_spec (PCQ), Des.des3Buf_spec (PCQ)
* C15: Rc4.rc4_roundtrip (PQ), Rc4.calc_calc (PQ), Rc4.calc_stream (PQ), Rc4.init_perm (PQ), Rc4.init_empty (PQ)
* C16: Rs.rs_decode_sound (PCQ), Rs.inverse_spec (PCQ), Rs.toM_mmul (PCQ), Rs.rs_decode_too_few (PQ)
* C17: Rs.rs_recover_one_partial (PCQ), Rs.rs_recover_two_partial (PCQ), Rs.rs_recover_any_false (PCQ)
* C18: Str.strcmp_zero (PCQ), Str.constStrcmp_zero (PCQ), Str.strncmp_zero (PCQ), Str.constStrncmp_zero (PCQ), Str.strseqcmp_zero (PCQ), Str.strcmp_same_buffer (PQ)
* C19: Str.strcmp_not_antisymm (PQ), Str.strcmp_cyclic (PQ), Str.strseqcmp_not_antisymm (P), Str.strcmp_order_partial (PCQ), Str.strcmp_key_partial (PCQ), Str.strseqcmp_lex_partial (PCQ)
* C20: Str.kmp_spec (PCQ), Str.kmp_found_iff (PCQ), Str.kmp_none_iff (PCQ), Str.kmp_empty (P)
* C21: Str.slice_spec (PCQ), Str.slices_unique (PCQ), Str.slice_bounds (PCQ), Str.slice_content (PCQ), Str.slice_free_end (PCQ)
* C22: RbTree.rbtree_refines (PCQ), RbTree.rbtree_search (PCQ), RbTree.rbtree_successor (PCQ)
* C23: RbTree.rbtree_balanced (PCQ)
* C24: RbTree.rbtree_iterate_partial (PCQ), RbTree.rbtree_iterate_each_once (PCQ), RbTree.rbtree_iterate_after_abort (PCQ), RbTree.rbtree_abort_leaves_flag (PCQ), RbTree.rbtree_ready_after_abort_false (PCQ)
* C25: Fheap.exec_spec (PCQ), Fheap.history (PCQ), Fheap.minimum_spec (PQ), Fheap.drain_spec (PCQ), Fheap.insert_spec (PQ), Fheap.extract_spec (PCQ), Fheap.decrease_spec (PQ)
* C26: Fheap.delete_partial (PCQ), Fheap.delete_refused (PCQ), Fheap.delete_wrong (PCQ)
* C27: Fheap.roots_fit (PCQ), Fheap.degree_lt (PCQ), Fheap.exec_spec (PCQ)
* C28: Hash.hash_refines_partial (PCQ), Hash.hash_search_inserted (PQ), Hash.update_fresh_uaf (PCQ)
* C29: Hash.hash_iterate_partial (PCQ), Hash.visit_all (P), Hash.visit_filter (P), Hash.iterate_stale (PQ), Hash.iterate_remove_stop (PCQ), Hash.iterate_skips (PQ)
* C30: Hash.hash_len_partial (PCQ), Hash.hash_len_fixed (PQ), Hash.hash_len_explodes (PCQ)
* C31: Bn.add_spec (PCQ), Bn.sub_spec_partial (PCQ), Bn.sub_negative_abort (PCQ)
* C32: Bn.mul_spec (PCQ)
* C33: Bn.div_mag (PCQ), Bn.div_spec_partial (PCQ), Bn.div_negative (PCQ), Bn.div_zero (PQ), Bn.div_oob (PCQ), Bn.div_unique (PCQ)
* C34: Bn.pwr_mod_partial (PCQ), Bn.pwr_mod_exact_partial (PCQ), Bn.pwr_one (PQ), Bn.pwr_zero (PQ), Bn.pwr_negative (P), Bn.pwr_mod_zero (PCQ), Bn.pwr_spec (PCQ), Bn.bitTestApi_spec (PQ)
* C35: Bn.leftShift_partial (PCQ), Bn.rightShift_partial (PCQ), Bn.shift_large (PQ), Bn.rightShift_oob (PCQ)
* C36: Bn.assign_hex (PCQ), Bn.assign_hex_refuse (PCQ), Bn.assign_dec (PCQ), Bn.assign_dec_long (PQ), Bn.assign_oct_partial (PCQ), Bn.toText_spec (PCQ), Bn.text_roundtrip_partial (PCQ), Bn.text_roundtrip_large (PCQ)
* C37: Bn.i2osp_spec (PCQ), Bn.os2ip_spec (PCQ), Bn.octet_roundtrip (PCQ), Bn.octet_roundtrip_compare (PCQ)
* C38: Bn.absCompare_spec (PCQ), Bn.compare_spec_partial (PCQ), Bn.compare_negative (PCQ)
* C39: Bn.extendEuclid_partial (PCQ), Bn.extendEuclid_zero (PQ)
* C40: Prime.generate_spec (PCQ), Prime.generate_least (PCQ), Prime.generate_ends (PQ), Prime.randScope_spec (none), Prime.witness_prime (PCQ)
* C41: Json.json_round_trip_partial (PCQ), Json.decode_text (PCQ), Json.enc_txt (PCQ), Json.round_trip_empty (PQ), Json.ordered_ascii (PCQ)
* C42: Json.string_safe_partial (PCQ), Json.string_overflow (PQ)
* C43: Json.json_array_partial (PCQ), Json.array_empty (PQ), Json.array_empty_blank (PQ), Json.array_comma (PQ)
* C44: Json.path_index_partial (PQ), Json.index_reversed (PQ), Json.path_index_wrong (PQ)
* C45: Asn1.decode_safe (PCQ), Asn1.header_safe (PCQ), Asn1.decode_truncated (PCQ), Asn1.length_shift_undefined (PCQ)
* C46: Asn1.decode_build (PCQ), Asn1.build_der (PCQ), Asn1.decode_der (PCQ), Asn1.lengthFill_spec (PCQ), Asn1.encodePrim_spec (PCQ), Asn1.tag_default (P)
* C47: WebSocket.parse_generate_partial (PCQ), WebSocket.parse_wire_partial (PCQ), WebSocket.generate_spec (PCQ), WebSocket.parse_close_collision (PCQ), WebSocket.closeGenerate_ignores_status (P)
* C48: WebSocket.parse_complete_partial (PCQ), WebSocket.parse_header_only (PQ), WebSocket.parse_cut_content (PQ), WebSocket.parse_cut_length (PCQ), WebSocket.parse_cut_length8 (PQ), WebSocket.parse_cut_key (PQ)
* C49: Time.time2utc_spec (PCQ), Time.utc2time_spec (PCQ), Time.utc2time_time2utc (PCQ), Time.time2utc_valid (PCQ), Time.time2utc_next_day (PCQ), Time.time2utc_next_second (PCQ), Time.dateOf_surj (PQ), Time.dateOf_inj (PQ), Time.monthDays_spec (PCQ), Time.time2utc_negative (P)
* C50: Time.adjust_spec (PCQ), Time.adjust_instant_partial (PCQ), Time.adjust_utc2time_partial (PCQ), Time.adjust_month_oob (PQ)
* C51: Time.s2time_utc_eq (PCQ), Time.s2time_gen_eq (PCQ), Time.utc_fields (PQ), Time.gen_fields (PQ), Time.s2time_rejects (PCQ), Time.s2time_utc_partial (PCQ), Time.s2time_gen_partial (PCQ), Time.gen_roundtrip (PCQ), Time.utc_roundtrip_partial (PCQ), Time.s2time_day_zero (PCQ), Time.s2time_month_zero (PCQ), Time.utc_year_2000 (PCQ)
* C52: Cron.cron_matches_partial (PCQ), Cron.cron_stuck (PCQ), Cron.cron_month_over (PCQ), Cron.cron_day31 (PCQ), Cron.cron_period_only_before (PCQ), Cron.cron_not_next (PCQ), Cron.cron_day_and_weekday (PCQ), Cron.field_listing (PCQ)
* C53: Gc.collect_exact (PCQ), Gc.new_ready (P), Gc.add_ready (PQ), Gc.suspect_ready (none), Gc.remove_ready (PQ), Gc.merge_ready (PQ), Gc.foreign_lost (PQ)
* C54: File.file_cache_partial (PCQ), File.refused_node_dangles (PQ), File.path_cached_twice (PQ)
* C55: ThreadPool.pool_once (PCQ), ThreadPool.pool_counters (PCQ), ThreadPool.create_fails_stuck (PCQ), ThreadPool.pool_die_uaf (P)
* C56: IoThread.iothread_no_use_after_free (PCQ), IoThread.iothread_delivery (PCQ), IoThread.iothread_once (PCQ), IoThread.iothread_wakeup (PCQ), IoThread.iothread_wakeup_locked (PCQ), IoThread.iothread_recv_drains (PCQ), IoThread.iothread_feedback (PCQ)
* C57: SpinLock.spin_mutual_exclusion (PCQ), SpinLock.spin_available (PCQ), SpinLock.spin_busy (PCQ)
* C58: Fec.recover_one (PCQ), Fec.restored_eq (PQ), Fec.encode_recovers (PCQ), Fec.group_wrap (PQ), Fec.generate_wrap (PQ), Fec.encode_remainder (PQ), Fec.decode_late (PCQ)
* C59: Alloc.pool_history (PCQ), Alloc.pool_history_shm (PCQ), Alloc.alloc_ok (PCQ), Alloc.free_ok (PCQ), Alloc.held_apart (PCQ), Alloc.meta_safe (PCQ), Alloc.aligned (PQ), Alloc.clsOf_spec (PQ), Alloc.alloc_wraps (PQ)
* C60: Alloc.cap_history (PCQ), Alloc.cap_respected (PCQ), Alloc.cap_large_partial (PCQ), Alloc.cap_not_returned (PCQ), Alloc.cap_leak (PQ)
* C61: Shm.shm_history (PCQ), Shm.shm_alloc (PCQ), Shm.shm_free (PCQ), Shm.shm_disjoint (PCQ), Shm.search_spec (PCQ), Shm.allowed_spec (PCQ), Shm.setBitmap_spec (PCQ), Shm.large_wraps (PQ), Shm.small_pool_useless (PQ)
* C62: BigEndian.decode_encode (PCQ), BigEndian.encode_spec (PCQ), BigEndian.decode_spec (PCQ), BigEndian.encode_wide (PQ)
* C63: Rsa.public_private_partial (PCQ), Rsa.private_public_partial (PCQ), Rsa.long_text_refused (PQ), Rsa.empty_text (P), Rsa.decrypted_nonempty (PCQ)
* C64: Aes.encrypt_fips (PCQ), Aes.gmul_ginv (PQ), Aes.init_short (PQ)
* C65: Des.des_fips (PCQ)
* C66: Str.strcasecmp_zero_partial (PCQ), Str.strcasecmp_zero_text (PCQ), Str.strcasecmp_nul (none)
* C67: Str.trim_spec (PQ), Str.trimmed_unique (P), Str.trim_idem (PQ), Str.upper_spec (PQ), Str.lower_spec (PQ), Str.case_length (PQ), Str.case_idem (PQ), Str.strcasecmp_lower (PQ)
* C68: Str.concat_spec (P), Str.concat_size (PQ)
* C69: Bn.dup_partial (PQ), Bn.dup_zeroed (PQ), Bn.dup_add_wrong (P)
* C70: Asn1.setof_canonical (PCQ), Asn1.setofCmp_sort (PCQ)
* C71: Asn1.bitContent_spec (PCQ)
* C72: Asn1.encodePrim_spec (PCQ), Asn1.encodeCons_spec (PCQ), Asn1.merge_spec (PCQ), Asn1.addContent_after_failure (PQ), Asn1.merge_failure_overflow (PCQ)
* C73: IoThread.iothread_no_use_after_free (PCQ), IoThread.iothread_even_feedback_use_after_free (PQ), IoThread.iothread_early_release_use_after_free (none)
* C74: SpinLock.spin_xchg_mutual_exclusion_partial (PCQ), SpinLock.spin_xchg_trylock_inverted (P), SpinLock.spin_xchg_mutual_exclusion_false (P), SpinLock.spin_xchg_lock_lost (PQ), SpinLock.spin_xchg_available_partial (PCQ)
* C75: Cron.cron_not_before (PCQ), Cron.cron_strictly_later (PCQ), Cron.cron_every_minute (PCQ), Cron.cron_too_short (PCQ)
* C76: Hash.hash_frees_once (PCQ)
* C77: Hash.hash_refines (PCQ)
* C78: Json.json_encode_safe (PCQ), Json.encode_huge (PCQ)
* C79: Json.decode_safe_partial (PCQ), Json.decode_open (PQ), Json.decode_exponent (PQ), Json.string_overflow (PQ)
* C80: Json.policy_enforced (PCQ)
* C81: Json.json_object_map (PCQ), Json.update_get (PCQ), Json.search_get (PCQ)
* C82: ThreadPool.pool_counters (PCQ)
* C83: ThreadPool.pool_worker (PCQ), ThreadPool.max_wraps (PCQ)
* C84: ThreadPool.add_fails_partial (P), ThreadPool.add_fails_queued (P), ThreadPool.add_fails_handled (PQ)
* C85: Alloc.realloc_same (PCQ), Alloc.realloc_other_overrun (PQ)
* C86: Alloc.available_pool (PQ), Shm.available_partial (PQ), Shm.available_empty (PQ), Shm.available_two (PQ)
* C87: Fec.decode_safe_partial (PQ), Fec.decode_overrun (PCQ), Fec.decode_late (PCQ)
* C88: Fec.recover_none (PCQ), Fec.recover_many (PCQ)
* C89: Gc.clean_garbage_partial (PCQ), Gc.live_cut (PCQ)
* C90: File.file_open_answers (PCQ), File.file_close_evicts (PCQ)
* C91: File.file_cache_partial (PCQ), File.file_destroy_closes (PCQ)
* C92: Rsa.keyGenerate_spec (PCQ), Rsa.generated_round_trip_partial (PCQ), Rsa.generated_useless (PCQ), Rsa.keyGenerate_refused (PQ), Rsa.short_modulus_useless (PCQ)
* C93: Rsa.padding_from_first (PQ)
* C94: Rsa.public_private_partial (PCQ)
* C95: Bn.prime_partial (PCQ), Bn.rounds_prime (PCQ), Bn.prime_refused (PQ), Bn.randomPrime_spec (PCQ), Bn.witness_spec (PCQ)
* C96: Bn.candidates_few (PQ)
* C97: Bn.prime_composite (PCQ), Bn.prime_partial (PCQ)
* C98: Fheap.retime_safe_partial (PCQ), Fheap.retime_overflow (PCQ), Fheap.retime_overflow_history (PCQ), Fheap.step_cases (PCQ)
* C99: Regexp.matches_inside (PQ), Regexp.left_over (PQ), Regexp.here_good (PQ)
* C100: Regexp.equal_items (PCQ), Regexp.match_items (PCQ)
* C101: Regexp.match_items (PCQ), Regexp.match_lost (PCQ)
* C102: Regexp.equal_items (PCQ), Regexp.equal_high (PCQ)
* C103: Regexp.equal_items (PCQ), Regexp.dollar_value (PCQ), Regexp.empty_value (PQ)
* C104: Regexp.count_digit_partial (PCQ), Regexp.count_text (PCQ), Regexp.limit_base11 (PCQ), Regexp.count_larger (PQ), Regexp.count_refused (PCQ), Regexp.equal_open (PCQ), Regexp.equal_open_digit (PCQ)
* C105: Regexp.star_everywhere (PCQ), Regexp.star_keeps (PCQ), Regexp.plus_found (PCQ), Regexp.dot_question (PCQ)
* C106: Regexp.or_skips (PCQ), Regexp.or_found (PCQ)
* C107: Regexp.stale_captures (PCQ), Regexp.match_items (PCQ)
* C108: Regexp.equal_items (PCQ), Regexp.match_items (PCQ), Regexp.count_text (PCQ), Regexp.endless (PCQ)
* C109: Http.parse_chunks (PCQ), Http.parse_split (PCQ), Http.parse_ends (PCQ)
* C110: Http.parse_no_error (PCQ), Http.parse_bad_line (PCQ), Http.generate_unknown (P)
* C111: Http.generate_spec (PCQ), Http.writeAll_spec (PCQ), Http.write_spec (PCQ)
* C112: Http.generate_spec (PCQ), Http.generate_twice (PCQ)
* C113: Http.round_trip (PCQ), Http.parse_message (PCQ)
* C114: Http.round_trip (PCQ), Http.value_splits (PQ), Http.value_injects (PCQ)
* C115: Http.set_get (PCQ), Http.iterator_spec (PCQ), Http.hit_spec (PCQ)
* C116: Http.get_spec (PCQ), Http.bucket_case (PCQ), Http.get_other_case (PCQ)
* C117: Http.remove_all_partial (PQ), Http.remove_stops (PQ), Http.fieldRemove_spec (PQ)
* C118: Http.status_wraps (PQ), Http.status_wrong (none)
* C119: Http.headline_sound (PCQ), Http.field_sound (P)
* C120: Conn.send_prefix (PCQ), Conn.send_good_partial (PQ), Conn.empty_last_lost (PQ), Conn.send_drops (PQ), Conn.send_value (PQ)
* C121: Conn.finish_partial (PQ), Conn.finish_wrong (PQ)
* C122: Conn.file_behind_partial (PCQ), Conn.file_lost (PQ), Conn.file_behind_lost (PQ), Conn.send_nonblock (PQ)
* C123: Conn.recv_spec (P), Conn.recv_value (P)
* C124: Lex.token_lexeme (PCQ), Lex.token_total (PCQ), Lex.run_lexes (PCQ), Lex.read_write (PCQ)
* C125: Lex.numType_iff (PCQ), Lex.token_lexeme (PCQ), Lex.token_total (PCQ), Lex.byte_kinds (PQ)
* C126: Lex.line_partial (PCQ), Lex.last_line (PCQ), Lex.line_false (P), Lex.file_false (P), Lex.command_line (PCQ)
* C127: Lex.token_lexeme (PCQ), Lex.eof_inside (PCQ), Lex.err_inside (PCQ), Lex.eof_swallowed (P)
* C128: Lex.token_total (PCQ), Lex.pp_next (PCQ), Lex.define_hangs (PCQ), Lex.recursion_hangs (PCQ)
* C129: Lex.pp_next (PCQ), Lex.macroValue_ok (PCQ), Lex.refines_else (PQ), Lex.refines_endif (PCQ), Lex.refines_if (PQ), Lex.refines_ifSkip (PQ)
* C130: Lex.pp_next (PCQ), Lex.undef_always (PCQ), Lex.ignored_undef (PCQ), Lex.ignored_include (PCQ), Lex.ignored_unknown (PCQ)
* C131: Lex.token_total (PCQ), Lex.err_inside (PCQ), Lex.redefine (PCQ)
* C132: Regexp.equal_elems (PCQ)
* C133: Regexp.equal_plus (PCQ), Regexp.plus_needs (PCQ), Regexp.equal_alts (PCQ)
* C134: Regexp.caret_inside (PCQ), Regexp.caret_byte (PCQ), Regexp.dollar_inside (PCQ)
* C135: Regexp.equal_elems (PCQ), Regexp.dot_class (PQ)
* C136: Expr.run_eval (PCQ), Expr.parses (PCQ)
* C137: Expr.if_then (PCQ), Expr.if_no_else (PCQ), Expr.else_taken (PCQ)
* C138: Expr.run_eval (PCQ), Expr.loop_at_end (PQ)
* C139: Expr.result_usable_partial (PCQ), Expr.result_string (PCQ), Expr.result_name (PCQ)
* C140: Expr.run_eval (PCQ), Expr.valInit_const (PQ), Expr.dec_large (PCQ), Expr.hex_large (PCQ), Expr.oct_long (PCQ), Expr.digit_value (PQ)
* C141: Expr.if_open (PCQ), Expr.then_open (PCQ), Expr.else_open (PCQ), Expr.loop_open (PCQ), Expr.call_open (PCQ), Expr.ns_open (PCQ), Expr.loose_call (PCQ), Expr.comma_var (PCQ), Expr.comma_const (PCQ), Expr.if_without_then (PCQ), Expr.loop_without_do (PCQ), Expr.word_alone (PCQ)
* C142: Expr.file_eval_partial (PCQ), Expr.file_loop (PQ), Expr.rewind_file (PQ), Expr.rewind_outside (none)
* C143: Expr.token_spell (PCQ), Expr.quoted_body (PCQ)
* C144: Err.code_ret (PCQ), Err.message_ret (PCQ), Err.error_round (PCQ), Err.ret_int (PCQ)
* C145: Err.error_round (PCQ), Err.errorString_ok (PQ), Err.errorString_overflow (PQ), Err.errorString_short (PCQ), Err.file_outside (PCQ)
* C146: Err.ret_zero_partial (PCQ), Err.ret_zero (PCQ)
* C147: Matrix.mul_product (PCQ), Matrix.mul_sizes (PQ)
* C148: Matrix.inverse_ok (PCQ), Matrix.inverse_singular (PCQ), Matrix.inverse_sizes (PQ)
* C149: Matrix.inverse_sizes (PQ), Matrix.inverse_ok (PCQ), Matrix.inverse_destroys (PCQ)
* C150: Matrix.inverse_fails (PCQ), Matrix.inverse_small (PQ), Matrix.inverse_null (PCQ)
* C151: Conf.load_ok (PCQ), Conf.search_item (PQ)
* C152: Conf.nested_domain_refused (PCQ), Conf.extra_brace_refused (PCQ), Conf.no_name_refused (PCQ), Conf.bad_command_refused (PCQ)
* C153: Conf.bad_command_refused (PCQ), Conf.open_string_refused (PCQ), Conf.open_domain_accepted (PCQ), Conf.load_ok (PCQ)
* C154: Conf.load_ok (PCQ), Conf.odd_stars_go_on (PCQ)
* C155: Conf.load_ok (PCQ), Conf.main_domain_refused (PCQ)
* C156: Conf.reload_good (PCQ), Conf.runHooks_iff (PQ), Conf.reload_bad (PQ)
* C157: Conf.atol_signed (PQ), Conf.load_ok (PCQ), Conf.large_number (PCQ)
* C158: Event.memory_safe (PCQ)
* C159: Event.handlers_given (PCQ), Event.cleared_silent (PCQ)
* C160: Event.timeouts_due (PCQ), Event.timeout_overflow (PQ)
* C161: Event.timers_punctual_partial (PCQ), Event.timers_called_partial (PCQ), Event.timer_early (PQ)
* C162: Event.oneshot_once (PCQ), Event.error_again (PQ)
* C163: Event.set_nothing (PCQ), Event.append_oneshot (PCQ), Event.busy_lost (PQ), Event.asked_partial (PCQ), Event.delivered_partial (PCQ)
* C164: Event.hangup_spins (PQ)
* C165: Rsa.sign_verify_partial (PCQ), Rsa.generated_sign_verify_partial (PCQ)
* C166: Rsa.sign_type (PCQ)
* C167: Rsa.binds (PCQ), Rsa.accepted (PCQ)
* C168: Rsa.longer_accepted (PCQ)
* C169: Rsa.forged (PCQ)
* C170: Rsa.verify_defined_partial (PCQ), Rsa.reads_past (PCQ)
* C171: Rsa.forged (PCQ)
* C172: Ipc.delivered (PCQ), Ipc.delivered_all (PCQ), Ipc.sent (PQ), Ipc.end_to_end (PCQ)
* C173: Ipc.lost_at_close (P)
* C174: Ipc.dropped (PCQ), Ipc.hangs (PCQ)
* C175: Ipc.short_bad (PCQ), Ipc.safe_partial (PCQ)
* C176: Ipc.prepare_ok (PQ), Ipc.too_long (PQ)
* C177: Ipc.setHandlers_find (P), Ipc.handlerSet_find (P)
* C178: Ipc.handler_kept_partial (none), Ipc.handler_lost (PQ)
* C179: Log.process_writes (PCQ), Log.sysLog_writes (PCQ)
* C180: Log.below_silent (PCQ)
* C181: Log.percent_cut (PCQ), Log.process_writes (PCQ)
* C182: Log.double_bad (PCQ), Log.process_writes (PCQ)
* C183: Log.setLevel_ok (PCQ), Log.start_refuses (PCQ)
* C184: Log.reload_ok (PCQ), Log.reload_hangs (PCQ)
* C185: Log.path_taken_partial (PCQ), Log.long_dir_bad (PCQ), Log.dot_file_bad (PCQ), Log.long_path_bad (PCQ)
* C186: Log.reload_keeps (PCQ)
* C187: Pg.parse_value (PCQ)
* C188: Pg.parse_safe_partial (PCQ), Pg.parse_bad (PQ)
* C189: Pg.sentence_refused (PQ), Pg.parse_bad (PQ), Pg.parse_value (PCQ), Pg.parse_complete_partial (PCQ), Pg.testG_complete (PCQ)
* C190: Pg.order_matters (PCQ), Pg.Derives.perm (none)
* C191: Pg.failure_hidden (PQ), Pg.parse_value (PCQ)
* C192: Pg.nullable_correct (PCQ), Pg.nullable_ends (PCQ)
* C193: Pg.first_sound (PCQ), Pg.first_complete_partial (PCQ), Pg.first_of_text_partial (PCQ), Pg.first_ends (PCQ), Pg.first_missing (PQ), Pg.first_complete_ordered (PCQ), Pg.emptyLast_of (P)
* C194: Pg.cmp_both_greater (PQ), Pg.state_twice (P), Pg.cmp_eq_zero (PQ)
* C195: Hash.iterator_all (PCQ)
* C196: Hash.iterator_endless (PQ), Hash.iterator_all (PCQ)
* C197: Hash.remove_frees (PCQ), Hash.reset_empty (PCQ)
* C198: Hash.reset_empty (PCQ)
* C199: Json.number_value (PCQ)
* C200: Json.number_lenient (PQ), Json.number_value (PCQ)
* C201: Json.decode_trailing (PCQ), Json.decode_colon (PCQ)
* C202: Lang.script_executes (PCQ), Lang.runs (PCQ)
* C203: Lang.script_halts_iff (PCQ), Lang.script_diverges (PCQ)
* C204: Lang.script_never_null (PCQ), Lang.empty_statement_null (P), Lang.empty_statement_later_null (PQ), Lang.empty_case_null (PQ), Lang.empty_parens_null (P), Lang.empty_if_null (P)
* C205: Lang.machine_evaluates (PQ)
* C206: Lang.logic_truth (PQ), Lang.or_skips (PQ), Lang.and_skips (PQ)
* C207: Lang.self_assignment_destroys (P), Lang.self_assignment_reference (P), Lang.double_assignment_destroys (P)
* C208: Lang.comma_statement_runs_first_only (PQ), Lang.comma_statement_reference (P), Lang.script_executes (PCQ)
* C209: Lang.for_without_condition_tests_init (PQ), Lang.endless_for_stops (PQ), Lang.for_without_condition_reference (PQ), Lang.script_executes (PCQ)
* C210: Lang.continue_leaves_switch_only (P), Lang.continue_in_switch_reference (P), Lang.default_first_taken (P), Lang.default_first_reference (P), Lang.script_executes (PCQ)
* C211: Lang.operands_read_late (PCQ), Lang.machine_evaluates (PQ)
* C212: Cron.cron_period (PCQ), Cron.cron_item_period (PCQ), Cron.cron_star_list (PCQ), Cron.cron_negative_period (PCQ), Cron.cron_large_period (PCQ), Cron.cron_week_seven (PCQ)
* C213: Cron.cron_period_multiple (PCQ), Cron.cron_period_unaligned (PCQ)
* C214: Fec.generate_fits (PCQ), Fec.encode_fits (PCQ), Fec.encode_refuses (PQ), Fec.decode_two_fec (PCQ), Fec.decode_no_fec (PCQ), Fec.decode_refuses (PQ), Fec.decode_fits (PCQ)
* C215: ThreadPool.pool_mutex (PCQ), ThreadPool.pool_exclusive (PCQ)
* C216: LangOp.ne_negates (PCQ), LangOp.gt_flips (PCQ), LangOp.ge_flips (PCQ), LangOp.le_negates (PCQ), LangOp.lt_exact (PCQ), LangOp.eq_self (PCQ), LangOp.eq_same_type (PCQ)
* C217: LangOp.eq_not_symmetric (PCQ), LangOp.eq_symmetric_partial (PCQ), LangOp.eq_and_lt (PCQ), LangOp.trichotomy_partial (PCQ), LangOp.eq_large_undefined (PCQ)
* C218: LangOp.arith_exact (PCQ), LangOp.div_mod_exact (PCQ), LangOp.div_zero (PCQ), LangOp.div_min_undefined (PCQ), LangOp.shift_undefined (PCQ), LangOp.shr_exact (PCQ)
* C219: LangOp.compound_agrees_partial (PCQ), LangOp.compound_bool (PCQ), LangOp.compound_real (PCQ)
* C220: LangOp.not_opposite_partial (PCQ), LangOp.not_both (PCQ)
* C221: LangOp.inc_dec (PCQ)
* C222: Itc.itc_safe (PCQ)
* C223: Itc.itc_armed (PCQ)
* C224: Itc.itc_fifo (PCQ), Itc.itc_delivered (PCQ)
* C225: Itc.itc_no_garbage (PCQ)
* C226: Itc.closed_lost (PCQ)
* C227: Itc.closed_garbage (PQ), Itc.closed_full_buffer (PQ), Itc.closed_used (PQ)
* C228: WsHand.handshake (PCQ)
* C229: WsHand.request_bytes (PCQ), WsHand.keyBytes_eq (PCQ), WsHand.response_bytes_partial (PCQ), WsHand.extension_names_partial (PCQ), WsHand.digest_eq (PCQ), WsHand.rfc_example (PCQ)
* C230: WsHand.validate_iff_partial (PCQ), WsHand.accept_any_case (PCQ), WsHand.accept_wrong_value (PCQ), WsHand.connection_list_refused (PCQ)
* C231: WsHand.request_keeps_key (PCQ), WsHand.validate_no_key (PCQ)
* C232: WsHand.response_total_partial (PCQ), WsHand.missing_key (PCQ), WsHand.missing_key_is_websocket (PCQ), WsHand.extensions_overflow (PCQ), WsHand.extension_overflow (PCQ)
* C233: WsHand.request_total (PCQ), WsHand.request_without_key (PCQ)
* C234: WsHand.ws_set_get (PCQ)
* C235: Asn1.implicit_retags (PCQ), Asn1.implicit_range (P), Asn1.implicit_decodes (PCQ)
* C236: Asn1.implicit_wide_number (PCQ), Asn1.implicit_retags (PCQ)
* C237: Pg.table_serves (PQ), Pg.refused_iff_conflict (PQ), Pg.generate_serves (PCQ)
* C238: Pg.closure_closed (PCQ), Pg.states_closed (PCQ), Pg.generate_serves (PCQ)
* C239: MlnList.list_history (PCQ), MlnList.step_ok (PCQ), MlnList.init_ok (PQ), MlnList.init_adds (PQ)
* C240: Span.dump_is_call_tree (PCQ), Span.dump_is_call_tree_threads (PCQ), Span.times_nest (PQ), Span.timeCost_eq (PQ)
* C241: Span.release_frees_all (PCQ)
* C242: Span.stop_after_return (PCQ), Span.stop_below (PCQ), Span.dump_is_call_tree (PCQ)
* C243: Pg.goto_complete (PCQ)
* C244: Pg.parse_complete_partial (PCQ), Pg.parse_iff_partial (PCQ), Pg.unambiguous_partial (PCQ), Pg.testG_complete (PCQ), Pg.goodB_ok (PCQ), Pg.first_complete_ordered (PCQ), Pg.emptyLast_of (P), Pg.sentence_refused (PQ), Pg.parse_bad (PQ), Pg.order_matters (PCQ)
* C245: SearchPath.lookup_meant (PQ), SearchPath.meant_first (PQ)
* C246: SearchPath.env_cut (PQ), SearchPath.second_lookup (PQ), SearchPath.find_keeps_partial (PQ)
* C247: SearchPath.long_bad (PQ), SearchPath.long_lib_bad (PQ), SearchPath.at_bad (PQ), SearchPath.at_bad_top (PQ), SearchPath.import_bad (PQ), SearchPath.import_report_bad (PQ), SearchPath.eval_bad (PCQ), SearchPath.find_safe_partial (PQ), SearchPath.at_dir_partial (PQ), SearchPath.at_here_partial (PQ), SearchPath.eval_dir_partial (PCQ)
* C248: LangSched.history_ok (PCQ), LangSched.newJob_ok (PCQ), LangSched.jobFree_ok (PCQ), LangSched.suspend_ok (PCQ), LangSched.resume_ok (PCQ)
* C249: LangSched.history_pend (PQ), LangSched.step_pend (PQ)
* C250: LangSched.gets_turn (PCQ), LangSched.step_idx (PCQ)
* C251: LangSched.names_partial (PCQ), LangSched.alias_lost (PCQ), LangSched.alias_twice (PCQ), LangSched.named_unique (PQ)
* C252: LangSched.launch_safe_partial (PCQ), LangSched.kill_self_bad (PCQ)
* C253: LangSched.own_tree_partial (PCQ), LangSched.other_source_bad (PCQ)
* C254: Trace.safe_partial (PCQ), Trace.start_good (none), Trace.late_bad (PQ), Trace.finalize_bad (PCQ)
* C255: Trace.early_partial (none), Trace.late_bad (PQ)
* C256: Trace.timer_partial (PCQ), Trace.pairs_kept (PQ), Trace.init_opens (P), Trace.leak (PCQ), Trace.timer_stays (PQ)
* C257: LangStr.plus_text (PCQ), LangStr.pluseq_plus (PCQ), LangStr.plus_strings (PCQ), LangStr.index_spec (PQ), LangStr.index_total (PQ)
* C258: LangStr.eq_exact (PCQ), LangStr.order_partial (PCQ), LangStr.trichotomy_partial (PCQ), LangStr.empty_order (PCQ)
* C259: LangStr.own_text_equal (PCQ), LangStr.str_eq_int (PCQ), LangStr.eq_symmetric_partial (PCQ), LangStr.eq_not_symmetric (PCQ), LangStr.zero_equals_words (PCQ), LangStr.order_textual (PCQ), LangStr.ne_negation (PCQ), LangStr.others_never_equal (PCQ)
* C260: LangArray.array_refines_partial (PCQ), LangArray.literal_minus_one (PCQ), LangArray.largest_undefined (PCQ)
* C261: LangArray.index_kept_partial (P), LangArray.minus_one_changed (PQ)
* C262: LangKey.keys_partial (PCQ), LangKey.touches_spec (PCQ), LangKey.key_lost (PQ)
* C263: LangSym.names (PCQ), LangSym.names_id (PCQ), LangSym.rel_run (PCQ), LangSym.search_look (PCQ)
* C264: LangSym.call_restores (PCQ), LangSym.call_fresh (PCQ)
* C265: LangSym.upper_outside (PCQ), LangSym.upper_partial (PCQ)
* C266: LangSym.call_hangs (P), LangSym.call_self_hangs (PCQ), LangSym.call_partial (PCQ), LangSym.new_partial (P)
* C267: LangSym.args_bound (PCQ), LangSym.enter_vars (PCQ), LangSym.closure_wins (PCQ)
* C268: LangSym.operator_outside (PCQ), LangSym.flag_any (PQ), LangSym.operator_partial (PCQ)
* C269: LangPipe.accepted_lost (PQ), LangPipe.once_partial (PQ), LangPipe.refused_no_change (P), LangPipe.accepted_iff (PQ), LangPipe.unsubscribed_refused (P)
* C270: LangPipe.sendUp_lost (PQ), LangPipe.sendUp_partial (PQ)
* C271: LangVar.assign_partial (PQ), LangVar.assign_self (PQ), LangVar.assign_iff (PQ)
* C272: LangVar.by_value_partial (PQ), LangVar.by_reference (PQ), LangVar.by_value_refuted (PQ)
* C273: LangVar.captured_partial (PQ), LangVar.captured_undefined (PQ)
* C274: LangWatch.watch_called (PQ), LangWatch.step_calls (P), LangWatch.watch_silent (P)
* C275: LangWatch.value_null (none), LangWatch.value_internal (none), LangWatch.chain_null (none), LangWatch.value_partial (none), LangWatch.chain_partial (PQ)
* C276: LangWatch.params_refer (none), LangWatch.udata_changed (PQ)
* C277: LangWatch.watch_loops (PQ), LangWatch.watch_partial (PQ)
* C278: LangImport.eval_text_refuted (PQ), LangImport.eval_text_partial (PQ)
* C279: LangImport.loaded_while_used (PCQ), LangImport.one_handle (PCQ)
* C280: LangImport.loaded_once (PCQ), LangImport.unloaded_then (PCQ), LangImport.closes_iff (PCQ)
* C281: LangImport.cached_bad (PQ), LangImport.memory_bad (PQ), LangImport.answers_partial (PQ), LangImport.first_message (PQ)
* C282: Supervise.supervised_kept (PCQ), Supervise.noticed (PCQ), Supervise.started (P), Supervise.execs_listed (P), Supervise.restart_fails (P)
* C283: Supervise.once_gone (PCQ), Supervise.once_only (PQ)
* C284: Supervise.child_alone (PCQ), Supervise.child_alone_first (PCQ)
* C285: Supervise.leak_refuted (PQ), Supervise.leak_count (PCQ), Supervise.no_pair_partial (none)
* C286: Supervise.start_hangs (P), Supervise.restart_hangs (P), Supervise.answer_iff (PQ), Supervise.start_returns_partial (PQ)
* C287: Pg.der_unique (PCQ), LangGram.cert_ok (PQ), LangGram.grammar_ok (PQ), LangGram.script_unique (PCQ), LangGram.expression_unique (PCQ), LangGram.parser_reads (PCQ), LangGram.parsers_agree (PCQ)
* C288: LangExp.reads (PCQ), LangExp.reads_only (PCQ), LangExp.value_iff (PCQ), LangExp.two_operators (PCQ), LangExp.assignments (PCQ)
* C289: LangExp.sign_first (PCQ), LangExp.sign_last_refuted (PCQ), LangExp.sign_last_partial (PCQ), LangExp.not_last (PCQ)
* C290: LangExp.logic_short (PCQ), LangExp.logic_only (PCQ)
* C291: Framework.status_refuted (P), Framework.status_partial (P), Framework.status_on (P)
* C292: Framework.worker_calls (none), Framework.master_ends_refuted (none)
* C293: Framework.again_deaf (PQ), Framework.first_traces (none), Framework.again_traces_partial (PQ), Framework.master_ctx (P)
* C294: Framework.master_variable_refuted (PQ), Framework.master_variable_partial (none)
* C295: Hook.run_seen (P), Hook.run_called (P), Hook.run_nested (PCQ), Hook.refused_quiet (P), Hook.watched_same (P), Hook.set_inside_refuted (none)
* C296: Hook.refused_pointer (PQ), Hook.refused_int_partial (PQ)
* C297: Hook.path_sets (P)
* C298: LangObj.objects_partial (PCQ), LangObj.script_partial (PCQ), LangObj.refused (PCQ)
* C299: LangObj.new_object (PCQ), LangObj.fresh_object (P)
* C300: LangObj.shared (P), LangObj.seen (PCQ), LangObj.equal_iff (PQ)
* C301: LangObj.method_partial (P), LangObj.method_hangs (P)
* C302: LangObj.this_partial (P), LangObj.this_changes (PQ), LangObj.this_assigned (PQ)
* C303: LangExp.reads_text (PCQ), LangExp.script_iff (PCQ), LangExp.script_parsed (PCQ), LangExp.script_text (PCQ), LangExp.nearest (PCQ)
* C304: LangExp.nested (P), LangExp.nested_parsed (PCQ), LangExp.ifs_closed (PCQ)
* C305: Json.generates (PCQ), Json.generates_only (PQ)
* C306: Json.behind_refuted (PCQ), Json.comma_refuted (PCQ), Json.generates_only (PQ)
* C307: Json.failure_resets (PQ), Json.failure_destroys_refuted (PQ), Json.failure_keeps (PQ), Json.failure_partial (PCQ)
* C308: LangLex.reads (PCQ), LangLex.script_tokens (PCQ), LangLex.written_unique (PCQ)
* C309: LangLex.script_tree (PCQ), LangLex.spell_sign (PQ), LangLex.stands_tok (PQ)
* C310: LangLex.stars_refuted (PCQ), LangLex.tilde_refuted (PCQ), LangLex.unnamed_refused (PCQ), LangLex.reads (PCQ)
* C311: LangLex.open_refused (PCQ), LangLex.escape_refused (PCQ)
* C312: WsSend.messages_partial (PCQ)
* C313: WsSend.content_partial (PCQ), WsSend.echo_refuted (PCQ), WsSend.inv_init (none)
* C314: WsSend.pong_refuted (PCQ), WsSend.both_refused (P)
* C315: LangGc.usable_kept_partial (PCQ), LangGc.captured_refuted (PCQ), LangGc.temporary_refuted (PCQ), LangGc.kept_closed (PCQ)
* C316: LangGc.collected (PCQ), LangGc.mem_members (PCQ)
* C317: ConfApi.calls_partial (PCQ), ConfApi.found_iff (PCQ), ConfApi.lost_refuted (PQ)
* C318: ConfApi.removed_refuted (PCQ), ConfApi.found_iff (PCQ)
* C319: ConfApi.reload_partial (PQ), ConfApi.reload_conf_partial (PQ), ConfApi.reload_refuted (PQ), ConfApi.unset_refuted (PCQ)
* C320: StrLife.held_partial (PCQ), StrLife.nothing_left (PCQ), StrLife.count_refuted (PQ)
* C321: StrLife.lent_after (PCQ), StrLife.held_partial (PCQ)
* C322: Boot.user_partial (P), Boot.groups_refuted (P), Boot.setuid_refuted (P), Boot.other_refuted (PQ), Boot.name_refuted (PQ), Boot.unknown (PQ), Boot.nobody (P)
* C323: Boot.limit_partial (PQ), Boot.limit_refuted (PQ)
* C324: Boot.stop_partial (PCQ), Boot.stop_refuted (PCQ), Boot.reload_refuted (P), Boot.garbage_refuted (PCQ), Boot.atoi_print (PCQ)
* C325: JsonTree.map_partial (PCQ), JsonTree.search_partial (PCQ), JsonTree.json_update (PCQ), JsonTree.key_lost_refuted (PQ)
* C326: JsonTree.array_list (PQ), JsonTree.iterate_partial (P), JsonTree.iterate_stop (P), JsonTree.iterate_refuted (none), JsonTree.remove_partial (PQ), JsonTree.remove_refuted (PCQ)
* C327: WsMatch.match_partial (PCQ), WsMatch.same_partial (PCQ), WsMatch.missing (P), WsMatch.no_room (P), WsMatch.inside_refuted (PCQ), WsMatch.empty_refuted (PQ), WsMatch.pattern_refuted (P)
* C328: ClassObj.objects_partial (PCQ), ClassObj.delete_partial (P), ClassObj.null (none), ClassObj.delete_refuted (P), ClassObj.taken_refuted (P)
* C329: Notice.program_partial (PQ), Notice.message_ok (PQ), Notice.inside (PQ), Notice.memory_iff (PQ), Notice.socket_refuted (PQ), Notice.zeros_refuted (PQ)
* C330: ChainBuf.release_partial (PCQ), ChainBuf.moved_refuted (P), ChainBuf.shared_refuted (PCQ), ChainBuf.new_refuted (none), ChainBuf.new_owns (none)
* C331: LangFunc.equal_partial (P), LangFunc.nonequal_eq (P), LangFunc.equal_equiv (P), LangFunc.empty_refuted (P), LangFunc.captured_refuted (P), LangFunc.unsupported (P), LangFunc.overloaded (PQ), LangFunc.supported (P), LangFunc.no_memory (P)
* C332: ChainAdd.all_partial (PQ), ChainAdd.add_ok (P), ChainAdd.longer_refuted (PQ), ChainAdd.twice_refuted (PQ), ChainAdd.sizes (PQ), ChainAdd.size_zero (PCQ)
* C333: TracePath.path_partial (PCQ), TracePath.path_sound (PCQ), TracePath.no_conf (P), TracePath.double_refuted (PQ)
* C334: BootArgs.first_decides (P), BootArgs.unknown (P), BootArgs.once (PQ)
* C335: BootArgs.daemon_partial (PQ), BootArgs.closed_refuted (PQ)
