{
"C01": "refinement of the slot-array table to a finite map, for every history, lawful policy, capacity and memory behaviour",
"C02": "every reachable table; the fuel-based probe loops never diverge; only faults are assert/abort at the documented capacity limit",
"C03": "every reachable table",
"C04": "every reachable table, walk with erasure of an arbitrary subset",
"C05": "every reachable table, memory failure and overflow",
"C06": "constructions/destructions are tracked by ghost counters in the model; the run faults on double destroy / overwrite",
"C07": "every reachable table; starting capacity must be a power of two (else init is undefined)",
"C08": "every reachable table",
"C09": "refuted: init leaves capacity_ set with a null table; proved when allocation succeeds",
"C10": "refuted: grow doubles past kMaxCapacity check; proved bound",
"C100": "Refuted on every target: AddSafe never answers false, MultiplySafe accepts products up to twice too large. The factor-two bound is proved where Log2 is right.",
"C101": "Refuted when the system refuses the key (the destructor then deletes an uninitialised key); proved for all interleavings otherwise, with the exact condition",
"C102": "",
"C103": "_vsnprintf and _vscprintf are modelled from their documented behaviour; texts of INT_MAX characters or more are excluded from the equality (the termination theorem covers them).",
"C104": "violated: the implicit copy operations copy refcount_; a copy made by new T(*q) is never destroyed (C104_copy_leaks) and assignment overwrites the count. Object assignment is modelled for classes without handle members.",
"C105": "violated: the implicit copy operations copy the links. C105_node_linked and C105_list_partial give the exact behaviour.",
"C106": "Refuted in two points: lookup on an object whose dlopen failed calls dlsym(NULL = RTLD_DEFAULT) and finds symbols of the whole process, and the implicit copy constructor leads to a second dlclose while the original is in use. Proved for all histories without copies: the balance of opens and closes, no leak, and lookups on valid objects; and that handles whose objects come from Open are null or valid.",
"C107": "Refuted: from an lvalue MakeScopeGuard deduces T = F& and the guard keeps a reference. Exact behaviour proved in that case (current value, dangling, or empty), full claim proved for rvalues.",
"C108": "Refuted for copies (the implicit copy restores the value of before the original guard) and for destruction in the wrong order; proved for single guards in every overlap.",
"C109": "Every allocation is asked of the policy given and returned to it, in all histories.",
"C11": "HashSet instance of the table, memory available, histories below the capacity limit",
"C110": "Refuted: the wrappers' allocPolicy() is their own base-class policy, made by AllocPolicy(); table_ has another one. Exact behaviour proved: changes are ignored; in full for stateless policies.",
"C111": "Refuted: the constructor's policy parameter is unnamed and unused, and moves leave the policy behind. Proved: exact requests when AllocPolicy() policies are interchangeable; memory returned to its origin without moves.",
"C112": "In all histories; the two ways of adding give the same table.",
"C113": "Refuted for HashTable and HashSet (the old array is released before the reference is followed); exact behaviour proved: as by value unless the capacity changes. Proved for HashMap, which makes the entry first.",
"C114": "Proved for HashTable and HashSet. Refuted for HashMap, which moves key and value into an entry before it asks for memory; proved there for the first attempt and for arguments that moves leave as they are.",
"C115": "Exact result for every overlap; the naive claim is refuted for each of the three functions (a destination inside the source text repeats a prefix). Bounds and termination hold without restriction (C115_bounded, C115_strcat_bounded).",
"C116": "Calls do not overlap (overlapping first uses are C66); the system's key functions are taken at their contract.",
"C117": "The move constructor moves the comparator too (am-priority-queue.h:57-60), so a queue ordered by a std::function cannot be reused after being moved from: the second add calls the empty function (refuted). Proved for comparators that survive a move, and for any comparator when the moved-from queue gets no second item.",
"C118": "Proved for comparators with arbitrary state and arbitrary answers; examples show that both bounds are met with equality.",
"C119": "Potential-function argument: what is saved up for the next resizing grows by a constant per added payload. Entries touched are derived from the capacities seen after each call.",
"C12": "two tables with different hash functions, same answers up to walk order",
"C120": "Addresses are entry indices of one array; the array is the same as long as the allocation counter is.",
"C121": "The policy is modelled as code with a state (Calls.lean); its answers are taken to be consistent. The two pairs of indistinguishable hashes are constants of the specification; an example shows that such a pair is indeed confused.",
"C122": "Refuted for static options (declared without a parser): they are one object for all parsers, so what the first parser was given makes the second fail with 'specified more than once' (C122_as_alone_refuted); and they are never taken off the list, so a Parser constructed after the end of one uses a dead object (C122_static_lifetime_refuted). Proved: as alone when no static option is shared; with sharing, memory safety, the frame of parse and reset, reset, and that the first value stays. Option objects appear as their constructor leaves them (C90).",
"C123": "Refuted for destructors that use the handle being assigned or destroyed (g = nullptr where ~T does g = nullptr releases twice: assertion), that make a handle on their own object (destroyed twice; an assertion for VirtualRefcounted, C123_self_handle_asserts), and for 'no handle ever holds an object under destruction'. Proved for all other programs: no fault, counts right at every moment, balanced when idle, effect of each step, the library always returns; and with empty destructors the machine does what the model of C45 does (C123_quiet).",
"C124": "Refuted for destructors that remove their own key (destroyed twice, because the entry is marked removed only after the destructor), add with a resize (the dying payload is moved and destroyed again), call clear, look up during ~HashTable (reads destroyed payloads), add during clear (entry stays with elements() = 0); lookups during clear can miss keys that are still there. Proved without these: no fault, exact map semantics, lifetimes; a table initialised large enough needs no resize rule (C124_presized_partial); with empty destructors the machine is the atomic model (C124_quiet_*). Each rule is shown necessary by its own refutation.",
"C125": "Refuted for a destructor that assigns or destroys the Function being assigned (destroy() leaves impl_ pointing to the dying callable: destroyed twice), copies or moves from it, or calls it; for v = w where the old callable of v owns w; for a callable that reads its captures after replacing, or (inline storage) moving away, the Function it is called through. Proved without these: no fault, exact values and outputs, storage kind, every callable destroyed exactly once, for all nestings. Each rule has its own refutation. C125_quiet: with idle destructors the machine is the atomic model of C51-C54, faults included. A callable counts as destroyed from the start of its destructor.",
"C126": "Refuted: of two initialisers on the brace's line the second is deleted (main refutation); a comment before the brace is deleted; a brace without a space before it is deleted or fails an assertion; catch (...) dereferences null; a line beginning with a non-ASCII byte calls isspace with a negative value; a redeclared empty function fails an assertion. Proved for files laid out otherwise: the output is exactly the file with the specified edits; code characters and comma count kept. Clang's lexer and tree are input.",
"C127": "Refuted: an empty function in the tool's own style (braces joined on a line of their own) loses its closing brace, so a second run damages the output of the first. Proved for files laid out as the tool expects.",
"C128": "Refuted: fgets with 1024 bytes cuts a longer line into two paths; popen's failure is not checked. Proved for lines shorter than 1023 characters (ASCII, no NUL).",
"C129": "Refuted: the file is truncated before it is written, so a crash can leave it empty, and a failed write is reported as success. Proved: without failures the file has its new text exactly when success is reported; errors and faults leave it unchanged; other files untouched; exit code.",
"C13": "refuted: a and ~a always collide (arithmetic shift); at most 8 keys per hash value proved; the table's own scrambling clause proved",
"C130": "Exact texts of all six messages. Lines on which parse faults (unknown --no- options, C71) are outside.",
"C131": "Refuted for text with characters above 127 (char is signed and is sign-extended) and for HashInt32 (arithmetic right shifts on int32_t); holds for 7-bit text, for integers whose shifted intermediate values keep the top bit clear, and for all 64-bit integers and pointers.",
"C132": "Refuted: the std::string overload goes through c_str(), so text from the first NUL on is lost. Proved: the pieces are those of the text before the first NUL, and the inverse law holds for strings without NUL.",
"C133": "Members start null, the destructor body itself does nothing beyond destroying the members. Clients must call a member AtomicRef only through a reference they own and must not destroy a free-standing one during a call on it. Cyclic structures do leak (shown by example), hence the rank hypothesis of C133_no_leak.",
"C134": "Refuted for single calls: the spin lock is unfair, so a get() can starve under a fair schedule (C134_every_call_ends_refuted). Proved: lock holders and Release end within seven own steps; some call takes effect again and again while any thread wants the AtomicRef, provided reads do not stay stale for ever.",
"C135": "Model: Calls.lean (policy as stateful code). A policy whose own code fails ends the history with that failure; lookups write nothing before the policy's last call, so the table is then as before the operation. Policies that call back into the table are not covered here (C124 covers destructors that do).",
"C136": "Refuted: the results of pthread_setspecific and TlsSetValue are not looked at. Proved: exactly the refused values are missing (C136_kept_partial), nothing is lost if the system has memory (C136_memory); on Windows, where allocate() is private, the failures of C67 and C101 cannot happen (C136_windows).",
"C137": "FormatMessageA is taken at its contract (writes at most the given number of bytes, terminated on success). GetProcAddress is not modelled (lookup: C106, POSIX).",
"C138": "Refuted as a whole: a class that must omit its value, does not override canOmitValue and refuses null makes parse format a null value (C138_parse_safe_refuted). Proved: where undefined behaviour can come from and a rule that excludes it (C138_undefined_behaviour_partial, C138_rule_for_classes_partial), and all the rest of the protocol. C138_header_classes: the model of the header's own classes is an instance. Client code that calls back into the parser is not modelled.",
"C139": "Refuted: init on a Maybe that holds a value destroys it before constructing the new one and still says it is valid if that throws; its destructor destroys the old value a second time (C139_exception_refuted). Proved: the exact effect of every throwing call, including that one (C139_exact_partial), and safety of all histories in which init throws only on a Maybe without value (C139_safe_partial).",
"C14": "refuted: HashInt32 is defined on exactly four arguments under C++14/17 (C14_hashInt32_partial); HashInt64 exact (C14_hashInt64_exact): never for 0, negative keys or keys from 2^36 on, always for 1..2^34, so for no heap pointer above 64 GiB and no null pointer",
"C140": "Refuted: a copy assignment that throws leaves an array whose destructor destroys elements that were never constructed (C140_exception_refuted). Proved: a throwing constructor leaks exactly its buffer and the k elements constructed before and changes nothing else, for all histories (C140_constructors_partial); the exact state after a throwing assignment (C140_assignment_partial).",
"C141": "Refuted: every assignment destroys the old callable first and leaves impl_ pointing to it if the new one cannot be made (C141_exception_refuted). Proved: the exact effect of every throwing call in every history, with a value 'broken' for such Functions, and that nothing is ever leaked (C141_exact_partial); full safety if assignments throw only onto an empty Function and not when given an inline callable (C141_safe_partial).",
"C142": "Refuted: a throwing add loses the new item and leaves what a move left of another one, for integers a duplicate (C142_add_refuted), and after a throwing pop the heap order is gone, so that a later pop returns an item that is not best (C142_order_refuted). Proved for every comparator: memory safety and the exact effect on the multiset of items of every call of every history (C142_history_partial).",
"C143": "Refuted: add marks the entry live and counts it before it constructs the payload, so a throwing constructor leaves a live entry without a payload, and the table's destructor is undefined behaviour (C143_ctor_refuted). Proved: if payload constructors do not throw, every history is the history without the throwing calls (C143_history_partial, C143_finite_map_partial, C143_no_fault_partial); and a throwing call either leaves the table exactly as it was or a payload constructor threw and the table cannot be destroyed (C143_throwing_call_partial). Which constructor throws is exact: calls construct exactly as many payloads as do not throw (C143_which_constructor_partial).",
"C144": "Refinement in both directions between an abstract machine with a control stack, on which destructors run as frames are taken off, and a denotation with finally (C144_finally); C144_save_restores is stated about the machine alone, in any state.",
"C145": "Refuted: the sign of char is the target's choice and is not fixed by a cast, so text with characters above 127 hashes differently; exact for one such character (C145_one_high_character: always different), equal for 7-bit text. With unsigned char HashCharSequence is the published function for all text (C145_published_unsigned).",
"C146": "Lock-step equality of the wrapping machine with the unbounded one (C146_no_overflow) from distinct non-null addresses of the handles; counts equal numbers of handles, which are fewer than addresses. Single-threaded; manual AddRef calls without handles are not covered.",
"C147": "Lifetimes, values and interleavings are proved without bound; the strong exception guarantee is refuted (a start that fails has already moved rvalue arguments away) and proved when only lvalues are given. The callback itself is assumed to return.",
"C148": "Full claim refuted; proved: with client ordering every execution is fault-free and equals the sequentially consistent one, isolation in every execution that does not fault, and a use may fault exactly when it is not ordered after the write of key_. View semantics specialised to two variables written once each.",
"C149": "The strong guarantee and repeatability are refuted by concrete runs; the exact state after an exception is proved for all cases, the strong guarantee of Pop* under elision, and repeatability of EraseIf when the predicate removes shells. Library calls (emplace_back, erase at the end) under their standard guarantees; InsertAt, EmplaceAt, RemoveAt are single library calls and not treated.",
"C15": "chunking proved for all chunkings; result() is not repeatable (refuted)",
"C150": "Refuted: the copied list is not ended when the second formatting fails (am-string.h:122-124) nor when make_unique throws; parsev never ends its list. The exact balance in every case is proved, and memory safety in all.",
"C151": "The strong guarantee is refuted for add and pop by concrete runs; the exact damage is proved for every throwing operation, its bound for items with the strong guarantee, and agreement with the model of C38-C40 when nothing throws. push_back has the standard's strong guarantee; the comparator does not throw here (C142).",
"C152": "Exact domain, exact effect and exactly what is destroyed, for histories that give back what they took; the ledger (count = handles + taken - given back) for all histories. A raw `new T` is followed by AddRef at once in the model. C152_overflow: 2^w references by hand wrap the counter (handles alone cannot, C146).",
"C153": "All-or-nothing is proved under elision and refuted without; the exact effect is proved for every pattern of exceptions, and agreement with C108 when nothing throws.",
"C154": "Exact for both kinds of platform; the property is proved where char is unsigned and refuted where it is signed. C154_c_locale connects it to C36.",
"C155": "The full property is refuted by a constructor with a temporary handle on `this`. Exact: survival, the count at every moment (ledger), and success of `RefPtr<T> h(new T)`. Objects made inside such a constructor have plain constructors.",
"C16": "all byte sequences",
"C17": "any width of size_t",
"C18": "any width of size_t",
"C19": "refuted for n >= 2^32 (Log2 truncates to 32 bits on LP64); proved for n < 2^32",
"C20": "all nonzero values; zero is a failed assert",
"C21": "refuted: the check is always true; exactly when it is undefined: C21_uint64AddSafe_exact",
"C22": "refuted at concrete witnesses; the exact set of accepted (and undefined) operands for all inputs is proved (_exact)",
"C23": "any pointer width of at least 32 bits",
"C24": "any width of size_t",
"C25": "exact on all inputs, out untouched on failure",
"C26": "refuted at 2^32*2^32 (accepted with result 0); exact otherwise",
"C27": "all strings, buffers and sizes",
"C28": "all strings, buffers and sizes",
"C29": "refuted: reads past the source's NUL, and n = 0 leaves the destination unterminated; exact otherwise",
"C30": "all outcomes of vsnprintf under its C contract",
"C31": "refuted at length INT_MAX (len + 1 overflows); exact below",
"C32": "all strings and non-empty separators",
"C33": "all strings; field specification Fields",
"C34": "joined length below 2^64",
"C35": "all byte strings",
"C36": "refuted for bytes 128..254 (toupper on a negative int); exact behaviour on every string: C36_case_exact",
"C37": "POSIX branch",
"C38": "strict weak order comparison; C38_strict_weak_needed shows that a strict partial order is not enough",
"C39": "any comparison function; moved-out slots are modelled. C39_any_comparator: the same for comparators with a state, whose answers may follow no order",
"C40": "strict weak order comparison",
"C41": "every legal history over any lists and nodes, debug and release builds, incl. erase-while-iterating and list destruction",
"C42": "refuted via removeFromParentList; the exact length for every legal history: C42_length_exact",
"C43": "after every legal history, any subset, both directions, other lists unchanged",
"C44": "refuted in release builds (stale links); exact in debug builds, and the exact answer of release builds for every legal history: C44_membership_release",
"C45": "refuted by head = head->next (old value destroyed by nested cascade before use); exact: a history on existing handles succeeds iff every assignment is sound (operands and target do not die with the reference given up), and every successful history is balanced, with exact effects and exact set of destroyed objects (C45_exact, C45_ok_balanced, C45_ok_effect, C45_destroyed)",
"C46": "refuted for self copy-assignment of the sole reference; exact: succeeds iff the handle is null or shared (C46_exact); self-move succeeds iff the handle survives, and leaves null",
"C47": "every interleaving, any number of threads, sequentially consistent",
"C48": "refuted: the object is never destroyed",
"C49": "every interleaving of the atomic steps, any number of threads, address reuse (ABA) included; loads of thing_ in lock and failing CASes may read any value, so weak memory is covered (C93_interleaving); one AtomicRef at a time",
"C50": "every legal history of library handles",
"C51": "all histories except self-assignment; exact description includes copies of empty non-const Functions (hollow, see C53)",
"C52": "all histories except self-assignment (C54)",
"C53": "refuted: a non-const empty source is wrapped, the copy tests true and its call asserts; exact behaviour proved",
"C54": "refuted; exact behaviour of each form of self-assignment proved",
"C55": "every history; self-assignment is C57",
"C56": "refuted: assignment to a valid Maybe and move leak; exact ledger proved",
"C57": "refuted; exact behaviour proved",
"C58": "Refuted as stated: move assignment onto an array that has a buffer leaks that buffer and its elements. C58_ledger: for every history, the contents are right and exactly the overwritten arrays' buffers and elements are leaked.",
"C59": "Refuted as stated: sizeof(T)*n wraps; a failed allocation with a fallible policy leaves size_ = n and a null pointer, so the destructor dereferences null. Partial: exact conditions under which the buffer has n slots. All theorems hold for every width of size_t.",
"C60": "Proved for all arrays of all legal histories.",
"C61": "Proved for every nesting of scopes and writes (traces of destructor-ordered programs, so also for early exits).",
"C62": "Proved; also that out-of-order destruction trips the assertion.",
"C63": "Proved.",
"C64": "Proved for every width and signedness, including integer promotion.",
"C65": "Proved for distinct vectors; MoveExtend(&v,&v) of a non-empty vector is shown never to end.",
"C66": "Refuted in full: a second thread can pass the compare-exchange before the first has created the key and then uses an uninitialised key. Partial: every interleaving that does not fault isolates threads; faults only arise in that window or after failed key creation; preallocated keys are safe. Sequentially consistent model.",
"C67": "Refuted: after a failed key creation a retry of allocate() returns true. Partial: the first call's result is exact.",
"C68": "Refuted: try_lock() acquires without recording the owner, so AssertCurrentThreadOwns and Owned() are wrong. Partial: exact for histories using lock().",
"C69": "Overflow refuted; exact whenever the result is representable.",
"C70": "Refuted: NaN is reported infinite; for double only uninitialised bits of the union decide. Partial: exact characterisation of what is computed.",
"C71": "Violated: an unknown option starting with --no- is dereferenced while null (am-argparser.h:672-674); C71_unknown_no_crashes shows every such argument at the front faults. Proved for all command lines without such an argument.",
"C72": "Violated for Option<bool>: a recognised boolean option with an attached non-boolean text, or followed by one, is accepted and ignored (am-argparser.h:717-723), and may then occur again. Proved otherwise: every accepted line is cut into properly spelled items, with exactly their effect; every refusal has a message or is a help request.",
"C73": "Positionals and extras, on every accepted line.",
"C74": "Passthrough tail; C74_tail_not_interpreted shows that the arguments behind -- influence nothing else.",
"C75": "For options that take a value. Boolean options differ between the two spellings (C77).",
"C76": "Enable options: --x, --no-x, absent, with a value.",
"C77": "Violated: `-b file` leaves -b unset. Proved for the option in last place, followed by a boolean, or with one attached. The remaining case exactly: C77_bool_ignored.",
"C78": "Violated for numerals outside int: with a 64-bit long, 4294967297 gives 1. Proved: only numerals are accepted, and those within int exactly. The exact value: C78_int_code.",
"C79": "Violated: reset() leaves error_, extra_args_, passthrough_args_ and has_passthrough_args_. Proved: option values and results are those of a new parser as long as no -- has been seen; earlier extras stay in front. After a `--`, exactly: C79_reset_after_dashes.",
"C80": "C80_usage_full: the whole text in order, with the help of every entry wrapped greedily at 50 characters without losing a character; C80_usage_error: what is printed after a failed parse. Strings are ASCII (Uppercase of other bytes is C36) and help() is not null; one fprintf is one line of the output.",
"C81": "emit() applies edits that each have a character of their own (C81_emit_partial) and, with asserts, never returns when calls conflict (C81_conflicts_detected). Violated in full: an empty range swallows a character, an insertion at the end of the file and an insertion just before a replacement fail an assertion. The visitors that make the calls: C126.",
"C82": "all values",
"C83": "wrap-around arithmetic",
"C84": "refuted; exact behaviour proved",
"C85": "Refuted: self copy assignment of a non-empty array reads destroyed elements, self move assignment empties the array and leaks. Partial: exact behaviour in all cases.",
"C86": "Proved away from Windows; refuted on Windows for a NaN divisor and for 0 mod 0; partial theorem for all other pairs.",
"C87": "C87_time_point, for every tick length and every timespec whose nanosecond count does not overflow; C26-style overflow is a fault of the model.",
"C88": "C88_proper_lines_accepted: completeness of the parser for the grammar Line of SpecLine.lean; ambiguity (two options with one form, inline one-letter values) is outside the grammar and covered by the soundness theorem of C72.",
"C89": "C89_stop_ends_parse.",
"C90": "C90_constructor (iff), C90_built, C90_build_asserts. C90_built also shows that Config.Valid, the hypothesis of C71-C80 and C88-C91, holds of every parser a program can build with the classes of the header.",
"C91": "C91_reported for accepted command lines, C91_default_when_new for new and reset parsers.",
"C92": "Happens-before from program order, synchronising hand-overs and the default (seq_cst) operations on refcount_. Interleavings are sequentially consistent.",
"C93": "Happens-before as in C92 plus the allocator edge (free before reuse). C93_interleaving proves that any execution with coherent modification order of thing_ is an interleaving of the model, in which only loads and failing CASes may read stale values. One AtomicRef: with several, the modification orders together need not embed in one interleaving. Accesses of several threads that both own references are the client's business and not covered.",
"C94": "stat and mkdir are parameters with the contract in Os/Spec.lean (a graph of names with link following up to a limit).",
"C95": "Refuted: where strerror_r is the POSIX one (not glibc, not Windows) its failure is ignored and the buffer may be left unterminated. Proved for every other reply of the platform.",
"C96": "Refuted: ~ leaves the range of an enumeration without fixed underlying type and negative enumerators (undefined behaviour for every value, C96_complement_undefined_refuted); comparison with a type that cannot represent the enumerator wraps. Proved: |, &, ^ on every enumeration, ~ on those with a fixed type or a negative enumerator, comparisons whenever the type represents the enumerator.",
"C97": "Refuted: StorageBuffer is aligned for uint64_t only, so Maybe<T> misplaces every T with a larger alignment (long double, __int128, SIMD types); tables and arrays come from malloc, so types with more than malloc's alignment are misplaced. Proved: Function in full; bounds and disjointness everywhere; alignment of Maybe up to alignof(uint64_t), of tables and arrays up to malloc's.",
"C98": "Refuted: names of 16 bytes or more on Linux (64 on macOS) are dropped silently; SetThreadName(thread, name) does nothing on macOS; on Windows a missing SetThreadDescription leaks a module reference and a name that is not UTF-8 throws, which in a new thread terminates the process. Proved: order, exactly-once call, copies by value, references, progress; names within the limits; and exactly, for every platform, name and earlier name: which calls throw, what the name is afterwards, and which calls leak a module reference. The copying inside NewThread is one atomic step; nested std::bind arguments are not modelled.",
"C99": "Refuted on GCC/Clang: Log2 on 64-bit (argument narrowed to 32 bits), FindLeftmostBit64 where long has 32 bits (off by 32), FindRightmostBit on MinGW64. Exact characterisation per function; MSVC targets are all right."
}