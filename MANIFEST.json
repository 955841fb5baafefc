{
 "claims": [
  {
   "property": "C01",
   "status": "proved",
   "theorems": [
    "Verif.HashTable.C01_finite_map"
   ],
   "note": "refinement of the slot-array table to a finite map, for every history, lawful policy, capacity and memory behaviour"
  },
  {
   "property": "C02",
   "status": "proved",
   "theorems": [
    "Verif.HashTable.C02_probing_terminates_in_bounds",
    "Verif.HashTable.C02_no_fault"
   ],
   "note": "every reachable table; the fuel-based probe loops never diverge; only faults are assert/abort at the documented capacity limit"
  },
  {
   "property": "C03",
   "status": "proved",
   "theorems": [
    "Verif.HashTable.C03_elements_counts_keys"
   ],
   "note": "every reachable table"
  },
  {
   "property": "C04",
   "status": "proved",
   "theorems": [
    "Verif.HashTable.C04_walk"
   ],
   "note": "every reachable table, walk with erasure of an arbitrary subset"
  },
  {
   "property": "C05",
   "status": "proved",
   "theorems": [
    "Verif.HashTable.C05_failed_add_changes_nothing"
   ],
   "note": "every reachable table, memory failure and overflow"
  },
  {
   "property": "C06",
   "status": "proved",
   "theorems": [
    "Verif.HashTable.C06_lifetimes_balanced"
   ],
   "note": "constructions/destructions are tracked by ghost counters in the model; the run faults on double destroy / overwrite"
  },
  {
   "property": "C07",
   "status": "proved",
   "theorems": [
    "Verif.HashTable.C07_capacity_invariant"
   ],
   "note": "every reachable table; starting capacity must be a power of two (else init is undefined)"
  },
  {
   "property": "C08",
   "status": "proved",
   "theorems": [
    "Verif.HashTable.C08_move"
   ],
   "note": "every reachable table"
  },
  {
   "property": "C09",
   "status": "partial",
   "theorems": [
    "Verif.HashTable.C09_failed_init_refuted",
    "Verif.HashTable.C09_failed_init_partial"
   ],
   "note": "refuted: init leaves capacity_ set with a null table; proved when allocation succeeds"
  },
  {
   "property": "C10",
   "status": "partial",
   "theorems": [
    "Verif.HashTable.C10_growth_refuted",
    "Verif.HashTable.C10_growth_partial"
   ],
   "note": "refuted: grow doubles past kMaxCapacity check; proved bound"
  },
  {
   "property": "C11",
   "status": "proved",
   "theorems": [
    "Verif.HashTable.C11_set"
   ],
   "note": "HashSet instance of the table, memory available, histories below the capacity limit"
  },
  {
   "property": "C12",
   "status": "proved",
   "theorems": [
    "Verif.HashTable.C12_hash_independent"
   ],
   "note": "two tables with different hash functions, same answers up to walk order"
  },
  {
   "property": "C13",
   "status": "partial",
   "theorems": [
    "Verif.Hash.C13_hashInt32_refuted",
    "Verif.Hash.C13_hashInt32_partial",
    "Verif.Hash.C13_computeHash"
   ],
   "note": "refuted: a and ~a always collide (arithmetic shift); at most 8 keys per hash value proved; the table's own scrambling clause proved"
  },
  {
   "property": "C14",
   "status": "partial",
   "theorems": [
    "Verif.Hash.C14_int_hashes_refuted",
    "Verif.Hash.C14_hashInt32_partial",
    "Verif.Hash.C14_hashInt64_partial",
    "Verif.Hash.C14_hashInt64_exact",
    "Verif.Hash.C14_hashInt64_range",
    "Verif.Hash.C14_hashPointer"
   ],
   "note": "refuted: HashInt32 is defined on exactly four arguments under C++14/17 (C14_hashInt32_partial); HashInt64 exact (C14_hashInt64_exact): never for 0, negative keys or keys from 2^36 on, always for 1..2^34, so for no heap pointer above 64 GiB and no null pointer"
  },
  {
   "property": "C15",
   "status": "partial",
   "theorems": [
    "Verif.Hash.C15_chunking",
    "Verif.Hash.C15_add_char",
    "Verif.Hash.C15_result_refuted"
   ],
   "note": "chunking proved for all chunkings; result() is not repeatable (refuted)"
  },
  {
   "property": "C16",
   "status": "proved",
   "theorems": [
    "Verif.Hash.C16_sdbm",
    "Verif.Hash.C16_append"
   ],
   "note": "all byte sequences"
  },
  {
   "property": "C17",
   "status": "proved",
   "theorems": [
    "Verif.Bits.C17_isPowerOfTwo_iff"
   ],
   "note": "any width of size_t"
  },
  {
   "property": "C18",
   "status": "proved",
   "theorems": [
    "Verif.Bits.C18_align_is_least_multiple",
    "Verif.Bits.C18_align_wraps_to_zero",
    "Verif.Bits.C18_align_idempotent",
    "Verif.Bits.C18_align_monotone",
    "Verif.Bits.C18_align_rejects_bad_alignment"
   ],
   "note": "any width of size_t"
  },
  {
   "property": "C19",
   "status": "partial",
   "theorems": [
    "Verif.Bits.C19_log2_refuted",
    "Verif.Bits.C19_log2_undefined",
    "Verif.Bits.C19_log2_partial",
    "Verif.Bits.C19_log2_sees_low_word",
    "Verif.Bits.C19_log2_zero"
   ],
   "note": "refuted for n >= 2^32 (Log2 truncates to 32 bits on LP64); proved for n < 2^32"
  },
  {
   "property": "C20",
   "status": "proved",
   "theorems": [
    "Verif.Bits.C20_findLeftmostBit32",
    "Verif.Bits.C20_findLeftmostBit64",
    "Verif.Bits.C20_findRightmostBit",
    "Verif.Bits.C20_zero"
   ],
   "note": "all nonzero values; zero is a failed assert"
  },
  {
   "property": "C21",
   "status": "partial",
   "theorems": [
    "Verif.Bits.C21_isUint32AddSafe_always_true",
    "Verif.Bits.C21_isUint64AddSafe_never_false",
    "Verif.Bits.C21_addSafe_refuted",
    "Verif.Bits.C21_uint64AddSafe_exact"
   ],
   "note": "refuted: the check is always true; exactly when it is undefined: C21_uint64AddSafe_exact"
  },
  {
   "property": "C22",
   "status": "partial",
   "theorems": [
    "Verif.Bits.C22_multiplySafe_refuted",
    "Verif.Bits.C22_uint32MultiplySafe_partial",
    "Verif.Bits.C22_isUint64MultiplySafe_never_false",
    "Verif.Bits.C22_uint64MultiplySafe_partial",
    "Verif.Bits.C22_uint32MultiplySafe_exact",
    "Verif.Bits.C22_uint64MultiplySafe_exact"
   ],
   "note": "refuted at concrete witnesses; the exact set of accepted (and undefined) operands for all inputs is proved (_exact)"
  },
  {
   "property": "C23",
   "status": "proved",
   "theorems": [
    "Verif.Bits.C23_pointer_bits_roundtrip",
    "Verif.Bits.C23_pointer_bits_split",
    "Verif.Bits.C23_too_many_bits"
   ],
   "note": "any pointer width of at least 32 bits"
  },
  {
   "property": "C24",
   "status": "proved",
   "theorems": [
    "Verif.Bits.C24_isAligned_iff",
    "Verif.Bits.C24_alignedBase_greatest",
    "Verif.Bits.C24_rejects_bad_alignment"
   ],
   "note": "any width of size_t"
  },
  {
   "property": "C25",
   "status": "proved",
   "theorems": [
    "Verif.Arith.C25_tryUint32Add_exact",
    "Verif.Arith.C25_tryUint64Add_exact"
   ],
   "note": "exact on all inputs, out untouched on failure"
  },
  {
   "property": "C26",
   "status": "partial",
   "theorems": [
    "Verif.Arith.C26_tryUint64Multiply_refuted",
    "Verif.Arith.C26_tryUint64Multiply_partial",
    "Verif.Arith.C26_tryUint64Multiply_no_fault"
   ],
   "note": "refuted at 2^32*2^32 (accepted with result 0); exact otherwise"
  },
  {
   "property": "C27",
   "status": "proved",
   "theorems": [
    "Verif.Str.C27_safeStrcpy",
    "Verif.Str.C27_safeStrcpy_nothing"
   ],
   "note": "all strings, buffers and sizes"
  },
  {
   "property": "C28",
   "status": "proved",
   "theorems": [
    "Verif.Str.C28_safeStrcat",
    "Verif.Str.C28_no_overrun"
   ],
   "note": "all strings, buffers and sizes"
  },
  {
   "property": "C29",
   "status": "partial",
   "theorems": [
    "Verif.Str.C29_safeStrcpyN_refuted",
    "Verif.Str.C29_unterminated_refuted",
    "Verif.Str.C29_safeStrcpyN_partial"
   ],
   "note": "refuted: reads past the source's NUL, and n = 0 leaves the destination unterminated; exact otherwise"
  },
  {
   "property": "C30",
   "status": "proved",
   "theorems": [
    "Verif.Str.C30_safeVsprintf",
    "Verif.Str.C30_zero"
   ],
   "note": "all outcomes of vsnprintf under its C contract"
  },
  {
   "property": "C31",
   "status": "partial",
   "theorems": [
    "Verif.Str.C31_sprintf_refuted",
    "Verif.Str.C31_sprintf_partial"
   ],
   "note": "refuted at length INT_MAX (len + 1 overflows); exact below"
  },
  {
   "property": "C32",
   "status": "proved",
   "theorems": [
    "Verif.Str.C32_join_split"
   ],
   "note": "all strings and non-empty separators"
  },
  {
   "property": "C33",
   "status": "proved",
   "theorems": [
    "Verif.Str.C33_split_fields",
    "Verif.Str.C33_split_join",
    "Verif.Str.C33_split_rounds",
    "Verif.Str.C33_empty_separator_asserts"
   ],
   "note": "all strings; field specification Fields"
  },
  {
   "property": "C34",
   "status": "proved",
   "theorems": [
    "Verif.Str.C34_join"
   ],
   "note": "joined length below 2^64"
  },
  {
   "property": "C35",
   "status": "proved",
   "theorems": [
    "Verif.Str.C35_startsWith",
    "Verif.Str.C35_endsWith"
   ],
   "note": "all byte strings"
  },
  {
   "property": "C36",
   "status": "partial",
   "theorems": [
    "Verif.Str.C36_case_refuted",
    "Verif.Str.C36_case_partial",
    "Verif.Str.C36_case_exact"
   ],
   "note": "refuted for bytes 128..254 (toupper on a negative int); exact behaviour on every string: C36_case_exact"
  },
  {
   "property": "C37",
   "status": "proved",
   "theorems": [
    "Verif.Str.C37_path_format"
   ],
   "note": "POSIX branch"
  },
  {
   "property": "C38",
   "status": "proved",
   "theorems": [
    "Verif.PQueue.C38_best",
    "Verif.PQueue.C38_strict_weak_needed"
   ],
   "note": "strict weak order comparison; C38_strict_weak_needed shows that a strict partial order is not enough"
  },
  {
   "property": "C39",
   "status": "proved",
   "theorems": [
    "Verif.PQueue.C39_multiset",
    "Verif.PQueue.C39_any_comparator",
    "Verif.PQueue.C39_peek_is_next_pop"
   ],
   "note": "any comparison function; moved-out slots are modelled. C39_any_comparator: the same for comparators with a state, whose answers may follow no order"
  },
  {
   "property": "C40",
   "status": "proved",
   "theorems": [
    "Verif.PQueue.C40_drain_sorts"
   ],
   "note": "strict weak order comparison"
  },
  {
   "property": "C41",
   "status": "proved",
   "theorems": [
    "Verif.IList.C41_sequence"
   ],
   "note": "every legal history over any lists and nodes, debug and release builds, incl. erase-while-iterating and list destruction"
  },
  {
   "property": "C42",
   "status": "partial",
   "theorems": [
    "Verif.IList.C42_length_refuted",
    "Verif.IList.C42_length_partial",
    "Verif.IList.C42_length_exact"
   ],
   "note": "refuted via removeFromParentList; the exact length for every legal history: C42_length_exact"
  },
  {
   "property": "C43",
   "status": "proved",
   "theorems": [
    "Verif.IList.C43_erase_while_iterating"
   ],
   "note": "after every legal history, any subset, both directions, other lists unchanged"
  },
  {
   "property": "C44",
   "status": "partial",
   "theorems": [
    "Verif.IList.C44_membership_refuted",
    "Verif.IList.C44_membership_debug_partial",
    "Verif.IList.C44_membership_release",
    "Verif.IList.C44_membership_release_sound"
   ],
   "note": "refuted in release builds (stale links); exact in debug builds, and the exact answer of release builds for every legal history: C44_membership_release"
  },
  {
   "property": "C45",
   "status": "partial",
   "theorems": [
    "Verif.RefPtr.C45_counts_refuted",
    "Verif.RefPtr.C45_counts_partial",
    "Verif.RefPtr.C45_effect_partial",
    "Verif.RefPtr.C45_exact",
    "Verif.RefPtr.C45_ok_balanced",
    "Verif.RefPtr.C45_ok_effect",
    "Verif.RefPtr.C45_destroyed"
   ],
   "note": "refuted by head = head->next (old value destroyed by nested cascade before use); exact: a history on existing handles succeeds iff every assignment is sound (operands and target do not die with the reference given up), and every successful history is balanced, with exact effects and exact set of destroyed objects (C45_exact, C45_ok_balanced, C45_ok_effect, C45_destroyed)"
  },
  {
   "property": "C46",
   "status": "partial",
   "theorems": [
    "Verif.RefPtr.C46_self_assign_refuted",
    "Verif.RefPtr.C46_self_assign_partial",
    "Verif.RefPtr.C46_exact"
   ],
   "note": "refuted for self copy-assignment of the sole reference; exact: succeeds iff the handle is null or shared (C46_exact); self-move succeeds iff the handle survives, and leaves null"
  },
  {
   "property": "C47",
   "status": "proved",
   "theorems": [
    "Verif.RefTS.C47_destroyed_once",
    "Verif.RefTS.C47_progress"
   ],
   "note": "every interleaving, any number of threads, sequentially consistent"
  },
  {
   "property": "C48",
   "status": "partial",
   "theorems": [
    "Verif.RefTS.C48_virtual_refuted",
    "Verif.RefTS.C48_virtual_leaks_partial"
   ],
   "note": "refuted: the object is never destroyed"
  },
  {
   "property": "C49",
   "status": "proved",
   "theorems": [
    "Verif.AtomicRef.C49_safe",
    "Verif.AtomicRef.C49_register",
    "Verif.AtomicRef.C49_get_owned",
    "Verif.AtomicRef.C49_balanced",
    "Verif.AtomicRef.C49_accounts",
    "Verif.AtomicRef.C49_count",
    "Verif.AtomicRef.C49_unlocks"
   ],
   "note": "every interleaving of the atomic steps, any number of threads, address reuse (ABA) included; loads of thing_ in lock and failing CASes may read any value, so weak memory is covered (C93_interleaving); one AtomicRef at a time"
  },
  {
   "property": "C50",
   "status": "proved",
   "theorems": [
    "Verif.SharedLib.C50_closed_once",
    "Verif.SharedLib.C50_open"
   ],
   "note": "every legal history of library handles"
  },
  {
   "property": "C51",
   "status": "partial",
   "theorems": [
    "Verif.Function.C51_last_source_partial",
    "Verif.Function.C51_callable_partial",
    "Verif.Function.C51_last_source_refuted"
   ],
   "note": "all histories except self-assignment; exact description includes copies of empty non-const Functions (hollow, see C53)"
  },
  {
   "property": "C52",
   "status": "proved",
   "theorems": [
    "Verif.Function.C52_lifetimes",
    "Verif.Function.C52_no_leak",
    "Verif.Function.C52_inline",
    "Verif.Function.C52_inline_kept"
   ],
   "note": "all histories except self-assignment (C54)"
  },
  {
   "property": "C53",
   "status": "partial",
   "theorems": [
    "Verif.Function.C53_copy_of_empty_refuted",
    "Verif.Function.C53_copy_of_empty_partial"
   ],
   "note": "refuted: a non-const empty source is wrapped, the copy tests true and its call asserts; exact behaviour proved"
  },
  {
   "property": "C54",
   "status": "partial",
   "theorems": [
    "Verif.Function.C54_self_assign_refuted",
    "Verif.Function.C54_self_assign_partial"
   ],
   "note": "refuted; exact behaviour of each form of self-assignment proved"
  },
  {
   "property": "C55",
   "status": "proved",
   "theorems": [
    "Verif.Maybe.C55_value_semantics"
   ],
   "note": "every history; self-assignment is C57"
  },
  {
   "property": "C56",
   "status": "partial",
   "theorems": [
    "Verif.Maybe.C56_destroys_refuted",
    "Verif.Maybe.C56_ledger_partial",
    "Verif.Maybe.C56_destroys_partial"
   ],
   "note": "refuted: assignment to a valid Maybe and move leak; exact ledger proved"
  },
  {
   "property": "C57",
   "status": "partial",
   "theorems": [
    "Verif.Maybe.C57_self_assign_refuted",
    "Verif.Maybe.C57_self_assign_partial"
   ],
   "note": "refuted; exact behaviour proved"
  },
  {
   "property": "C58",
   "status": "partial",
   "theorems": [
    "Verif.FixedArray.C58_balanced_refuted",
    "Verif.FixedArray.C58_value_semantics_partial",
    "Verif.FixedArray.C58_all_released_partial",
    "Verif.FixedArray.C58_ledger"
   ],
   "note": "Refuted as stated: move assignment onto an array that has a buffer leaks that buffer and its elements. C58_ledger: for every history, the contents are right and exactly the overwritten arrays' buffers and elements are leaked."
  },
  {
   "property": "C59",
   "status": "partial",
   "theorems": [
    "Verif.FixedArray.C59_overflow_refuted",
    "Verif.FixedArray.C59_failure_refuted",
    "Verif.FixedArray.C59_allocate_partial",
    "Verif.FixedArray.C59_too_small_partial"
   ],
   "note": "Refuted as stated: sizeof(T)*n wraps; a failed allocation with a fallible policy leaves size_ = n and a null pointer, so the destructor dereferences null. Partial: exact conditions under which the buffer has n slots. All theorems hold for every width of size_t."
  },
  {
   "property": "C60",
   "status": "proved",
   "theorems": [
    "Verif.FixedArray.C60_equality"
   ],
   "note": "Proved for all arrays of all legal histories."
  },
  {
   "property": "C61",
   "status": "proved",
   "theorems": [
    "Verif.Raii.C61_restores",
    "Verif.Raii.C61_nested"
   ],
   "note": "Proved for every nesting of scopes and writes (traces of destructor-ordered programs, so also for early exits)."
  },
  {
   "property": "C62",
   "status": "proved",
   "theorems": [
    "Verif.Raii.C62_stack",
    "Verif.Raii.C62_misuse_detected"
   ],
   "note": "Proved; also that out-of-order destruction trips the assertion."
  },
  {
   "property": "C63",
   "status": "proved",
   "theorems": [
    "Verif.Raii.C63_fires",
    "Verif.Raii.C63_at_most_once",
    "Verif.Raii.C63_exactly_once",
    "Verif.Raii.C63_cancelled"
   ],
   "note": "Proved."
  },
  {
   "property": "C64",
   "status": "proved",
   "theorems": [
    "Verif.Flags.C64_operators",
    "Verif.Flags.C64_compound",
    "Verif.Flags.C64_enum_operators"
   ],
   "note": "Proved for every width and signedness, including integer promotion."
  },
  {
   "property": "C65",
   "status": "proved",
   "theorems": [
    "Verif.Vec.C65_move_extend",
    "Verif.Vec.C65_move_extend_self",
    "Verif.Vec.C65_pop_back",
    "Verif.Vec.C65_pop_front",
    "Verif.Vec.C65_insert_at",
    "Verif.Vec.C65_remove_at",
    "Verif.Vec.C65_erase_if"
   ],
   "note": "Proved for distinct vectors; MoveExtend(&v,&v) of a non-empty vector is shown never to end."
  },
  {
   "property": "C66",
   "status": "partial",
   "theorems": [
    "Verif.ThreadLocal.C66_isolation_refuted",
    "Verif.ThreadLocal.C66_isolated_partial",
    "Verif.ThreadLocal.C66_only_in_window_partial",
    "Verif.ThreadLocal.C66_preallocated_partial"
   ],
   "note": "Refuted in full: a second thread can pass the compare-exchange before the first has created the key and then uses an uninitialised key. Partial: every interleaving that does not fault isolates threads; faults only arise in that window or after failed key creation; preallocated keys are safe. Sequentially consistent model."
  },
  {
   "property": "C67",
   "status": "partial",
   "theorems": [
    "Verif.ThreadLocal.C67_retry_refuted",
    "Verif.ThreadLocal.C67_honest_partial",
    "Verif.ThreadLocal.C67_after_failure_partial",
    "Verif.ThreadLocal.C67_false_means_failed"
   ],
   "note": "Refuted: after a failed key creation a retry of allocate() returns true. Partial: the first call's result is exact."
  },
  {
   "property": "C68",
   "status": "partial",
   "theorems": [
    "Verif.Mutex.C68_try_lock_refuted",
    "Verif.Mutex.C68_assert_partial",
    "Verif.Mutex.C68_no_try_lock_partial"
   ],
   "note": "Refuted: try_lock() acquires without recording the owner, so AssertCurrentThreadOwns and Owned() are wrong. Partial: exact for histories using lock()."
  },
  {
   "property": "C69",
   "status": "partial",
   "theorems": [
    "Verif.Num.C69_overflow_refuted",
    "Verif.Num.C69_duration_partial",
    "Verif.Num.C69_normal_partial"
   ],
   "note": "Overflow refuted; exact whenever the result is representable."
  },
  {
   "property": "C70",
   "status": "partial",
   "theorems": [
    "Verif.Num.C70_nan_refuted",
    "Verif.Num.C70_double_refuted",
    "Verif.Num.C70_float_partial",
    "Verif.Num.C70_double_partial"
   ],
   "note": "Refuted: NaN is reported infinite; for double only uninitialised bits of the union decide. Partial: exact characterisation of what is computed."
  },
  {
   "property": "C71",
   "status": "partial",
   "theorems": [
    "Verif.ArgParser.C71_parse_returns_refuted",
    "Verif.ArgParser.C71_unknown_no_crashes",
    "Verif.ArgParser.C71_parse_returns_partial"
   ],
   "note": "Violated: an unknown option starting with --no- is dereferenced while null (am-argparser.h:672-674); C71_unknown_no_crashes shows every such argument at the front faults. Proved for all command lines without such an argument."
  },
  {
   "property": "C72",
   "status": "partial",
   "theorems": [
    "Verif.ArgParser.C72_accepts_only_explained_refuted",
    "Verif.ArgParser.C72_accepted_is_explained_partial",
    "Verif.ArgParser.C72_refused_has_reason"
   ],
   "note": "Violated for Option<bool>: a recognised boolean option with an attached non-boolean text, or followed by one, is accepted and ignored (am-argparser.h:717-723), and may then occur again. Proved otherwise: every accepted line is cut into properly spelled items, with exactly their effect; every refusal has a message or is a help request."
  },
  {
   "property": "C73",
   "status": "proved",
   "theorems": [
    "Verif.ArgParser.C73_positionals_in_order"
   ],
   "note": "Positionals and extras, on every accepted line."
  },
  {
   "property": "C74",
   "status": "proved",
   "theorems": [
    "Verif.ArgParser.C74_passthrough_verbatim",
    "Verif.ArgParser.C74_tail_not_interpreted"
   ],
   "note": "Passthrough tail; C74_tail_not_interpreted shows that the arguments behind -- influence nothing else."
  },
  {
   "property": "C75",
   "status": "proved",
   "theorems": [
    "Verif.ArgParser.C75_long_value_syntax",
    "Verif.ArgParser.C75_short_value_syntax",
    "Verif.ArgParser.C75_repeated_collects",
    "Verif.ArgParser.C75_repeated_in_order"
   ],
   "note": "For options that take a value. Boolean options differ between the two spellings (C77)."
  },
  {
   "property": "C76",
   "status": "proved",
   "theorems": [
    "Verif.ArgParser.C76_enable_sets",
    "Verif.ArgParser.C76_no_clears",
    "Verif.ArgParser.C76_absent_default",
    "Verif.ArgParser.C76_value_rejected"
   ],
   "note": "Enable options: --x, --no-x, absent, with a value."
  },
  {
   "property": "C77",
   "status": "partial",
   "theorems": [
    "Verif.ArgParser.C77_bool_given_has_value_refuted",
    "Verif.ArgParser.C77_bool_given_has_value_partial",
    "Verif.ArgParser.C77_bool_ignored"
   ],
   "note": "Violated: `-b file` leaves -b unset. Proved for the option in last place, followed by a boolean, or with one attached. The remaining case exactly: C77_bool_ignored."
  },
  {
   "property": "C78",
   "status": "partial",
   "theorems": [
    "Verif.ArgParser.C78_int_exact_refuted",
    "Verif.ArgParser.C78_int_exact_partial",
    "Verif.ArgParser.C78_numerals_accepted",
    "Verif.ArgParser.C78_int_code"
   ],
   "note": "Violated for numerals outside int: with a 64-bit long, 4294967297 gives 1. Proved: only numerals are accepted, and those within int exactly. The exact value: C78_int_code."
  },
  {
   "property": "C79",
   "status": "partial",
   "theorems": [
    "Verif.ArgParser.C79_reset_is_new_refuted",
    "Verif.ArgParser.C79_reset_is_new_partial",
    "Verif.ArgParser.C79_reset_after_dashes"
   ],
   "note": "Violated: reset() leaves error_, extra_args_, passthrough_args_ and has_passthrough_args_. Proved: option values and results are those of a new parser as long as no -- has been seen; earlier extras stay in front. After a `--`, exactly: C79_reset_after_dashes."
  },
  {
   "property": "C80",
   "status": "proved",
   "theorems": [
    "Verif.ArgParser.C80_help_wrapped",
    "Verif.ArgParser.C80_entry_printed",
    "Verif.ArgParser.C80_usage_line",
    "Verif.ArgParser.C80_usage_error",
    "Verif.ArgParser.C80_usage_full"
   ],
   "note": "C80_usage_full: the whole text in order, with the help of every entry wrapped greedily at 50 characters without losing a character; C80_usage_error: what is printed after a failed parse. Strings are ASCII (Uppercase of other bytes is C36) and help() is not null; one fprintf is one line of the output."
  },
  {
   "property": "C81",
   "status": "partial",
   "theorems": [
    "Verif.Rewriter.C81_emit_refuted",
    "Verif.Rewriter.C81_insert_at_end_refuted",
    "Verif.Rewriter.C81_insert_before_replace_refuted",
    "Verif.Rewriter.C81_emit_partial",
    "Verif.Rewriter.C81_conflicts_detected"
   ],
   "note": "emit() applies edits that each have a character of their own (C81_emit_partial) and, with asserts, never returns when calls conflict (C81_conflicts_detected). Violated in full: an empty range swallows a character, an insertion at the end of the file and an insertion just before a replacement fail an assertion. The visitors that make the calls: C126."
  },
  {
   "property": "C82",
   "status": "proved",
   "theorems": [
    "Verif.Hash.C82_hashCombine_injective"
   ],
   "note": "all values"
  },
  {
   "property": "C83",
   "status": "proved",
   "theorems": [
    "Verif.Hash.C83_hashInt64_balanced"
   ],
   "note": "wrap-around arithmetic"
  },
  {
   "property": "C84",
   "status": "partial",
   "theorems": [
    "Verif.Maybe.C84_init_alias_refuted",
    "Verif.Maybe.C84_init_alias_partial"
   ],
   "note": "refuted; exact behaviour proved"
  },
  {
   "property": "C85",
   "status": "partial",
   "theorems": [
    "Verif.FixedArray.C85_self_copy_refuted",
    "Verif.FixedArray.C85_self_assign_partial"
   ],
   "note": "Refuted: self copy assignment of a non-empty array reads destroyed elements, self move assignment empties the array and leaks. Partial: exact behaviour in all cases."
  },
  {
   "property": "C86",
   "status": "partial",
   "theorems": [
    "Verif.Num.C86_posix",
    "Verif.Num.C86_windows_refuted",
    "Verif.Num.C86_windows_zero_refuted",
    "Verif.Num.C86_windows_partial"
   ],
   "note": "Proved away from Windows; refuted on Windows for a NaN divisor and for 0 mod 0; partial theorem for all other pairs."
  },
  {
   "property": "C87",
   "status": "proved",
   "theorems": [
    "Verif.Num.C87_time_point"
   ],
   "note": "C87_time_point, for every tick length and every timespec whose nanosecond count does not overflow; C26-style overflow is a fault of the model."
  },
  {
   "property": "C88",
   "status": "proved",
   "theorems": [
    "Verif.ArgParser.C88_proper_lines_accepted"
   ],
   "note": "C88_proper_lines_accepted: completeness of the parser for the grammar Line of SpecLine.lean; ambiguity (two options with one form, inline one-letter values) is outside the grammar and covered by the soundness theorem of C72."
  },
  {
   "property": "C89",
   "status": "proved",
   "theorems": [
    "Verif.ArgParser.C89_stop_ends_parse"
   ],
   "note": "C89_stop_ends_parse."
  },
  {
   "property": "C90",
   "status": "proved",
   "theorems": [
    "Verif.ArgParser.C90_constructor",
    "Verif.ArgParser.C90_built",
    "Verif.ArgParser.C90_build_asserts"
   ],
   "note": "C90_constructor (iff), C90_built, C90_build_asserts. C90_built also shows that Config.Valid, the hypothesis of C71-C80 and C88-C91, holds of every parser a program can build with the classes of the header."
  },
  {
   "property": "C91",
   "status": "proved",
   "theorems": [
    "Verif.ArgParser.C91_reported",
    "Verif.ArgParser.C91_default_when_new"
   ],
   "note": "C91_reported for accepted command lines, C91_default_when_new for new and reset parsers."
  },
  {
   "property": "C92",
   "status": "proved",
   "theorems": [
    "Verif.RefTS.C92_destructor_last"
   ],
   "note": "Happens-before from program order, synchronising hand-overs and the default (seq_cst) operations on refcount_. Interleavings are sequentially consistent."
  },
  {
   "property": "C93",
   "status": "proved",
   "theorems": [
    "Verif.AtomicRef.C93_race_free",
    "Verif.AtomicRef.C93_seen",
    "Verif.AtomicRef.C93_interleaving"
   ],
   "note": "Happens-before as in C92 plus the allocator edge (free before reuse). C93_interleaving proves that any execution with coherent modification order of thing_ is an interleaving of the model, in which only loads and failing CASes may read stale values. One AtomicRef: with several, the modification orders together need not embed in one interleaving. Accesses of several threads that both own references are the client's business and not covered."
  },
  {
   "property": "C94",
   "status": "proved",
   "theorems": [
    "Verif.Os.C94_posix",
    "Verif.Os.C94_exclusive",
    "Verif.Os.C94_windows",
    "Verif.Os.C94_create"
   ],
   "note": "stat and mkdir are parameters with the contract in Os/Spec.lean (a graph of names with link following up to a limit)."
  },
  {
   "property": "C95",
   "status": "partial",
   "theorems": [
    "Verif.Os.C95_message_refuted",
    "Verif.Os.C95_message_partial",
    "Verif.Os.C95_windows_fallback",
    "Verif.Os.C95_zero"
   ],
   "note": "Refuted: where strerror_r is the POSIX one (not glibc, not Windows) its failure is ignored and the buffer may be left unterminated. Proved for every other reply of the platform."
  },
  {
   "property": "C96",
   "status": "partial",
   "theorems": [
    "Verif.Flags.C96_complement_refuted",
    "Verif.Flags.C96_plain_operators",
    "Verif.Flags.C96_complement_partial",
    "Verif.Flags.C96_complement_undefined_refuted",
    "Verif.Flags.C96_comparison_refuted",
    "Verif.Flags.C96_comparison_sign_refuted",
    "Verif.Flags.C96_comparison_partial"
   ],
   "note": "Refuted: ~ leaves the range of an enumeration without fixed underlying type and negative enumerators (undefined behaviour for every value, C96_complement_undefined_refuted); comparison with a type that cannot represent the enumerator wraps. Proved: |, &, ^ on every enumeration, ~ on those with a fixed type or a negative enumerator, comparisons whenever the type represents the enumerator."
  },
  {
   "property": "C97",
   "status": "partial",
   "theorems": [
    "Verif.Storage.C97_storage_refuted",
    "Verif.Storage.C97_maybe_inside",
    "Verif.Storage.C97_maybe_partial",
    "Verif.Storage.C97_maybe_overaligned_refuted",
    "Verif.Storage.C97_function",
    "Verif.Storage.C97_table_inside",
    "Verif.Storage.C97_heap_partial",
    "Verif.Storage.C97_heap_overaligned_refuted",
    "Verif.Storage.C97_array_inside"
   ],
   "note": "Refuted: StorageBuffer is aligned for uint64_t only, so Maybe<T> misplaces every T with a larger alignment (long double, __int128, SIMD types); tables and arrays come from malloc, so types with more than malloc's alignment are misplaced. Proved: Function in full; bounds and disjointness everywhere; alignment of Maybe up to alignof(uint64_t), of tables and arrays up to malloc's."
  },
  {
   "property": "C98",
   "status": "partial",
   "theorems": [
    "Verif.Thread.C98_name_refuted",
    "Verif.Thread.C98_name_failures_refuted",
    "Verif.Thread.C98_name_partial",
    "Verif.Thread.C98_body",
    "Verif.Thread.C98_spawn",
    "Verif.Thread.C98_call",
    "Verif.Thread.C98_progress",
    "Verif.Thread.C98_no_name_stops",
    "Verif.Thread.C98_windows_name_refuted",
    "Verif.Thread.C98_own_name_exact_partial",
    "Verif.Thread.C98_other_name_exact_partial"
   ],
   "note": "Refuted: names of 16 bytes or more on Linux (64 on macOS) are dropped silently; SetThreadName(thread, name) does nothing on macOS; on Windows a missing SetThreadDescription leaks a module reference and a name that is not UTF-8 throws, which in a new thread terminates the process. Proved: order, exactly-once call, copies by value, references, progress; names within the limits; and exactly, for every platform, name and earlier name: which calls throw, what the name is afterwards, and which calls leak a module reference. The copying inside NewThread is one atomic step; nested std::bind arguments are not modelled."
  },
  {
   "property": "C99",
   "status": "partial",
   "theorems": [
    "Verif.Bits.C99_leftmost32",
    "Verif.Bits.C99_log2_partial",
    "Verif.Bits.C99_leftmost64_partial",
    "Verif.Bits.C99_leftmost64_off",
    "Verif.Bits.C99_rightmost_partial",
    "Verif.Bits.C99_portable_refuted",
    "Verif.Bits.C99_msvc_partial",
    "Verif.Bits.C99_same_as_model"
   ],
   "note": "Refuted on GCC/Clang: Log2 on 64-bit (argument narrowed to 32 bits), FindLeftmostBit64 where long has 32 bits (off by 32), FindRightmostBit on MinGW64. Exact characterisation per function; MSVC targets are all right."
  },
  {
   "property": "C100",
   "status": "partial",
   "theorems": [
    "Verif.Bits.C100_addSafe_never_false",
    "Verif.Bits.C100_checks_refuted",
    "Verif.Bits.C100_multiplySafe_partial",
    "Verif.Bits.C100_where"
   ],
   "note": "Refuted on every target: AddSafe never answers false, MultiplySafe accepts products up to twice too large. The factor-two bound is proved where Log2 is right."
  },
  {
   "property": "C101",
   "status": "partial",
   "theorems": [
    "Verif.ThreadLocal.C101_destroy_refuted",
    "Verif.ThreadLocal.C101_destroy_partial",
    "Verif.ThreadLocal.C101_one_request",
    "Verif.ThreadLocal.C101_destroy_faults_iff"
   ],
   "note": "Refuted when the system refuses the key (the destructor then deletes an uninitialised key); proved for all interleavings otherwise, with the exact condition"
  },
  {
   "property": "C102",
   "status": "proved",
   "theorems": [
    "Verif.ThreadLocal.C102_roundtrip_iff",
    "Verif.ThreadLocal.C102_default",
    "Verif.ThreadLocal.C102_single"
   ],
   "note": ""
  },
  {
   "property": "C103",
   "status": "proved",
   "theorems": [
    "Verif.Str.C103_safeVsprintf_same",
    "Verif.Str.C103_safeVsprintf_terminates",
    "Verif.Str.C103_sprintf_same"
   ],
   "note": "_vsnprintf and _vscprintf are modelled from their documented behaviour; texts of INT_MAX characters or more are excluded from the equality (the termination theorem covers them)."
  },
  {
   "property": "C104",
   "status": "partial",
   "theorems": [
    "Verif.RefPtr.C104_copies_refuted",
    "Verif.RefPtr.C104_copies_partial",
    "Verif.RefPtr.C104_copy_leaks",
    "Verif.RefPtr.C104_copy_effect",
    "Verif.RefPtr.C104_assign_refuted",
    "Verif.RefPtr.C104_assign_partial"
   ],
   "note": "violated: the implicit copy operations copy refcount_; a copy made by new T(*q) is never destroyed (C104_copy_leaks) and assignment overwrites the count. Object assignment is modelled for classes without handle members."
  },
  {
   "property": "C105",
   "status": "partial",
   "theorems": [
    "Verif.IList.C105_node_refuted",
    "Verif.IList.C105_node_partial",
    "Verif.IList.C105_node_linked",
    "Verif.IList.C105_list_partial",
    "Verif.IList.C105_list_refuted"
   ],
   "note": "violated: the implicit copy operations copy the links. C105_node_linked and C105_list_partial give the exact behaviour."
  },
  {
   "property": "C106",
   "status": "partial",
   "theorems": [
    "Verif.SharedLib.C106_loaded",
    "Verif.SharedLib.C106_no_leak",
    "Verif.SharedLib.C106_lookup",
    "Verif.SharedLib.C106_invalid_finds_nothing_refuted",
    "Verif.SharedLib.C106_copy_keeps_loaded_refuted",
    "Verif.SharedLib.C106_opens_partial"
   ],
   "note": "Refuted in two points: lookup on an object whose dlopen failed calls dlsym(NULL = RTLD_DEFAULT) and finds symbols of the whole process, and the implicit copy constructor leads to a second dlclose while the original is in use. Proved for all histories without copies: the balance of opens and closes, no leak, and lookups on valid objects; and that handles whose objects come from Open are null or valid."
  },
  {
   "property": "C107",
   "status": "partial",
   "theorems": [
    "Verif.Raii.C107_runs_what_it_was_given_refuted",
    "Verif.Raii.C107_temp_partial",
    "Verif.Raii.C107_move_partial",
    "Verif.Raii.C107_ref_exact",
    "Verif.Raii.C107_ref_partial",
    "Verif.Raii.C107_moved_partial",
    "Verif.Raii.C107_cancelled_partial"
   ],
   "note": "Refuted: from an lvalue MakeScopeGuard deduces T = F& and the guard keeps a reference. Exact behaviour proved in that case (current value, dangling, or empty), full claim proved for rvalues."
  },
  {
   "property": "C108",
   "status": "partial",
   "theorems": [
    "Verif.Raii.C108_restores_partial",
    "Verif.Raii.C108_copy_restores_refuted",
    "Verif.Raii.C108_copy_partial",
    "Verif.Raii.C108_any_order_refuted",
    "Verif.Raii.C108_returnAndVoid"
   ],
   "note": "Refuted for copies (the implicit copy restores the value of before the original guard) and for destruction in the wrong order; proved for single guards in every overlap."
  },
  {
   "property": "C109",
   "status": "proved",
   "theorems": [
    "Verif.Alloc.C109_policies",
    "Verif.Alloc.C109_returned"
   ],
   "note": "Every allocation is asked of the policy given and returned to it, in all histories."
  },
  {
   "property": "C110",
   "status": "partial",
   "theorems": [
    "Verif.Alloc.C110_wrapper_policy_refuted",
    "Verif.Alloc.C110_change_ignored_refuted",
    "Verif.Alloc.C110_exact_partial",
    "Verif.Alloc.C110_stateless_partial"
   ],
   "note": "Refuted: the wrappers' allocPolicy() is their own base-class policy, made by AllocPolicy(); table_ has another one. Exact behaviour proved: changes are ignored; in full for stateless policies."
  },
  {
   "property": "C111",
   "status": "partial",
   "theorems": [
    "Verif.Alloc.C111_policy_ignored_refuted",
    "Verif.Alloc.C111_returned_refuted",
    "Verif.Alloc.C111_default_partial",
    "Verif.Alloc.C111_returned_partial"
   ],
   "note": "Refuted: the constructor's policy parameter is unnamed and unused, and moves leave the policy behind. Proved: exact requests when AllocPolicy() policies are interchangeable; memory returned to its origin without moves."
  },
  {
   "property": "C112",
   "status": "proved",
   "theorems": [
    "Verif.HashTable.C112_add_then_set",
    "Verif.HashTable.C112_finite_map"
   ],
   "note": "In all histories; the two ways of adding give the same table."
  },
  {
   "property": "C113",
   "status": "partial",
   "theorems": [
    "Verif.HashTable.C113_table_partial",
    "Verif.HashTable.C113_map",
    "Verif.HashTable.C113_table_refuted"
   ],
   "note": "Refuted for HashTable and HashSet (the old array is released before the reference is followed); exact behaviour proved: as by value unless the capacity changes. Proved for HashMap, which makes the entry first."
  },
  {
   "property": "C114",
   "status": "partial",
   "theorems": [
    "Verif.HashTable.C114_table",
    "Verif.HashTable.C114_map_refuted",
    "Verif.HashTable.C114_map_partial",
    "Verif.HashTable.C114_map_first_partial"
   ],
   "note": "Proved for HashTable and HashSet. Refuted for HashMap, which moves key and value into an entry before it asks for memory; proved there for the first attempt and for arguments that moves leave as they are."
  },
  {
   "property": "C115",
   "status": "partial",
   "theorems": [
    "Verif.Str.C115_strcpy_partial",
    "Verif.Str.C115_strcpy_into_itself_partial",
    "Verif.Str.C115_strcpy_refuted",
    "Verif.Str.C115_strcat_partial",
    "Verif.Str.C115_strcat_tail_partial",
    "Verif.Str.C115_self_append_partial",
    "Verif.Str.C115_strcat_refuted",
    "Verif.Str.C115_strcpyN_partial",
    "Verif.Str.C115_strcpyN_into_itself_partial",
    "Verif.Str.C115_strcpyN_refuted",
    "Verif.Str.C115_bounded",
    "Verif.Str.C115_strcat_bounded"
   ],
   "note": "Exact result for every overlap; the naive claim is refuted for each of the three functions (a destination inside the source text repeats a prefix). Bounds and termination hold without restriction (C115_bounded, C115_strcat_bounded)."
  },
  {
   "property": "C116",
   "status": "proved",
   "theorems": [
    "Verif.ThreadLocal.Many.C116_independent",
    "Verif.ThreadLocal.Many.C116_exhausted"
   ],
   "note": "Calls do not overlap (overlapping first uses are C66); the system's key functions are taken at their contract."
  },
  {
   "property": "C117",
   "status": "partial",
   "theorems": [
    "Verif.PQueue.C117_reuse_partial",
    "Verif.PQueue.C117_moved_partial",
    "Verif.PQueue.C117_moved_queue_refuted"
   ],
   "note": "The move constructor moves the comparator too (am-priority-queue.h:57-60), so a queue ordered by a std::function cannot be reused after being moved from: the second add calls the empty function (refuted). Proved for comparators that survive a move, and for any comparator when the moved-from queue gets no second item."
  },
  {
   "property": "C118",
   "status": "proved",
   "theorems": [
    "Verif.PQueue.C118_add",
    "Verif.PQueue.C118_pop",
    "Verif.PQueue.C118_history"
   ],
   "note": "Proved for comparators with arbitrary state and arbitrary answers; examples show that both bounds are met with equality."
  },
  {
   "property": "C119",
   "status": "proved",
   "theorems": [
    "Verif.HashTable.C119_moves",
    "Verif.HashTable.C119_work"
   ],
   "note": "Potential-function argument: what is saved up for the next resizing grows by a constant per added payload. Entries touched are derived from the capacities seen after each call."
  },
  {
   "property": "C120",
   "status": "proved",
   "theorems": [
    "Verif.HashTable.C120_stable",
    "Verif.HashTable.C120_allocates",
    "Verif.HashTable.C120_reserved"
   ],
   "note": "Addresses are entry indices of one array; the array is the same as long as the allocation counter is."
  },
  {
   "property": "C121",
   "status": "proved",
   "theorems": [
    "Verif.HashTable.C121_questions",
    "Verif.HashTable.C121_few"
   ],
   "note": "The policy is modelled as code with a state (Calls.lean); its answers are taken to be consistent. The two pairs of indistinguishable hashes are constants of the specification; an example shows that such a pair is indeed confused."
  },
  {
   "property": "C122",
   "status": "partial",
   "theorems": [
    "Verif.ArgParser.Many.C122_unshared_partial",
    "Verif.ArgParser.Many.C122_as_alone_refuted",
    "Verif.ArgParser.Many.C122_no_dead_object",
    "Verif.ArgParser.Many.C122_static_lifetime_refuted",
    "Verif.ArgParser.Many.C122_not_registered",
    "Verif.ArgParser.Many.C122_reset",
    "Verif.ArgParser.Many.C122_first_value_stays"
   ],
   "note": "Refuted for static options (declared without a parser): they are one object for all parsers, so what the first parser was given makes the second fail with 'specified more than once' (C122_as_alone_refuted); and they are never taken off the list, so a Parser constructed after the end of one uses a dead object (C122_static_lifetime_refuted). Proved: as alone when no static option is shared; with sharing, memory safety, the frame of parse and reset, reset, and that the first value stays. Option objects appear as their constructor leaves them (C90)."
  },
  {
   "property": "C123",
   "status": "partial",
   "theorems": [
    "Verif.RefPtr.Reenter.C123_reentrant_partial",
    "Verif.RefPtr.Reenter.C123_effect_partial",
    "Verif.RefPtr.Reenter.C123_returns",
    "Verif.RefPtr.Reenter.C123_quiet",
    "Verif.RefPtr.Reenter.C123_reentrant_refuted",
    "Verif.RefPtr.Reenter.C123_self_handle_refuted",
    "Verif.RefPtr.Reenter.C123_self_handle_asserts",
    "Verif.RefPtr.Reenter.C123_never_dangling_refuted"
   ],
   "note": "Refuted for destructors that use the handle being assigned or destroyed (g = nullptr where ~T does g = nullptr releases twice: assertion), that make a handle on their own object (destroyed twice; an assertion for VirtualRefcounted, C123_self_handle_asserts), and for 'no handle ever holds an object under destruction'. Proved for all other programs: no fault, counts right at every moment, balanced when idle, effect of each step, the library always returns; and with empty destructors the machine does what the model of C45 does (C123_quiet)."
  },
  {
   "property": "C124",
   "status": "partial",
   "theorems": [
    "Verif.HashTable.C124_destructors_partial",
    "Verif.HashTable.C124_no_fault_partial",
    "Verif.HashTable.C124_presized_partial",
    "Verif.HashTable.C124_quiet_remove",
    "Verif.HashTable.C124_quiet_clear",
    "Verif.HashTable.C124_quiet_destroy",
    "Verif.HashTable.C124_rules_suffice_partial",
    "Verif.HashTable.C124_own_key_refuted",
    "Verif.HashTable.C124_resize_refuted",
    "Verif.HashTable.C124_nested_clear_refuted",
    "Verif.HashTable.C124_lookup_in_dtor_refuted",
    "Verif.HashTable.C124_add_in_clear_refuted",
    "Verif.HashTable.C124_find_during_clear_refuted"
   ],
   "note": "Refuted for destructors that remove their own key (destroyed twice, because the entry is marked removed only after the destructor), add with a resize (the dying payload is moved and destroyed again), call clear, look up during ~HashTable (reads destroyed payloads), add during clear (entry stays with elements() = 0); lookups during clear can miss keys that are still there. Proved without these: no fault, exact map semantics, lifetimes; a table initialised large enough needs no resize rule (C124_presized_partial); with empty destructors the machine is the atomic model (C124_quiet_*). Each rule is shown necessary by its own refutation."
  },
  {
   "property": "C125",
   "status": "partial",
   "theorems": [
    "Verif.Function.C125_reentrant_partial",
    "Verif.Function.C125_no_leak_partial",
    "Verif.Function.C125_quiet",
    "Verif.Function.C125_rules_suffice_partial",
    "Verif.Function.C125_replace_dying_refuted",
    "Verif.Function.C125_copy_dying_refuted",
    "Verif.Function.C125_move_dying_refuted",
    "Verif.Function.C125_call_dying_refuted",
    "Verif.Function.C125_owned_source_refuted",
    "Verif.Function.C125_use_after_replace_refuted",
    "Verif.Function.C125_use_after_move_refuted"
   ],
   "note": "Refuted for a destructor that assigns or destroys the Function being assigned (destroy() leaves impl_ pointing to the dying callable: destroyed twice), copies or moves from it, or calls it; for v = w where the old callable of v owns w; for a callable that reads its captures after replacing, or (inline storage) moving away, the Function it is called through. Proved without these: no fault, exact values and outputs, storage kind, every callable destroyed exactly once, for all nestings. Each rule has its own refutation. C125_quiet: with idle destructors the machine is the atomic model of C51-C54, faults included. A callable counts as destroyed from the start of its destructor."
  },
  {
   "property": "C126",
   "status": "partial",
   "theorems": [
    "Verif.Restyler.C126_edits_partial",
    "Verif.Restyler.C126_cosmetic_partial",
    "Verif.Restyler.C126_some_result",
    "Verif.Restyler.C126_cosmetic_refuted",
    "Verif.Restyler.C126_comment_refuted",
    "Verif.Restyler.C126_brace_refuted",
    "Verif.Restyler.C126_no_space_refuted",
    "Verif.Restyler.C126_catch_all_refuted",
    "Verif.Restyler.C126_non_ascii_refuted",
    "Verif.Restyler.C126_indent_exact",
    "Verif.Restyler.C126_redeclared_refuted",
    "Verif.Restyler.C126_white"
   ],
   "note": "Refuted: of two initialisers on the brace's line the second is deleted (main refutation); a comment before the brace is deleted; a brace without a space before it is deleted or fails an assertion; catch (...) dereferences null; a line beginning with a non-ASCII byte calls isspace with a negative value; a redeclared empty function fails an assertion. Proved for files laid out otherwise: the output is exactly the file with the specified edits; code characters and comma count kept. Clang's lexer and tree are input."
  },
  {
   "property": "C127",
   "status": "partial",
   "theorems": [
    "Verif.Restyler.C127_styled_unchanged_partial",
    "Verif.Restyler.C127_styled_unchanged_refuted",
    "Verif.Restyler.C127_idempotent_refuted"
   ],
   "note": "Refuted: an empty function in the tool's own style (braces joined on a line of their own) loses its closing brace, so a second run damages the output of the first. Proved for files laid out as the tool expects."
  },
  {
   "property": "C128",
   "status": "partial",
   "theorems": [
    "Verif.Restyler.Tool.C128_trim_exact",
    "Verif.Restyler.Tool.C128_paths_partial",
    "Verif.Restyler.Tool.C128_include_dirs",
    "Verif.Restyler.Tool.C128_paths_refuted",
    "Verif.Restyler.Tool.C128_popen_refuted",
    "Verif.Restyler.Tool.C128_markers"
   ],
   "note": "Refuted: fgets with 1024 bytes cuts a longer line into two paths; popen's failure is not checked. Proved for lines shorter than 1023 characters (ASCII, no NUL)."
  },
  {
   "property": "C129",
   "status": "partial",
   "theorems": [
    "Verif.Restyler.Tool.C129_interrupted_refuted",
    "Verif.Restyler.Tool.C129_full_device_refuted",
    "Verif.Restyler.Tool.C129_in_place_partial",
    "Verif.Restyler.Tool.C129_print",
    "Verif.Restyler.Tool.C129_fault_unchanged",
    "Verif.Restyler.Tool.C129_others_untouched",
    "Verif.Restyler.Tool.C129_exit_code"
   ],
   "note": "Refuted: the file is truncated before it is written, so a crash can leave it empty, and a failed write is reported as success. Proved: without failures the file has its new text exactly when success is reported; errors and faults leave it unchanged; other files untouched; exit code."
  },
  {
   "property": "C130",
   "status": "proved",
   "theorems": [
    "Verif.ArgParser.C130_error_names_culprit"
   ],
   "note": "Exact texts of all six messages. Lines on which parse faults (unknown --no- options, C71) are outside."
  },
  {
   "property": "C131",
   "status": "partial",
   "theorems": [
    "Verif.Hash.C131_text_refuted",
    "Verif.Hash.C131_int32_refuted",
    "Verif.Hash.C131_published_refuted",
    "Verif.Hash.C131_text_partial",
    "Verif.Hash.C131_int32_partial",
    "Verif.Hash.C131_int64",
    "Verif.Hash.C131_integer4"
   ],
   "note": "Refuted for text with characters above 127 (char is signed and is sign-extended) and for HashInt32 (arithmetic right shifts on int32_t); holds for 7-bit text, for integers whose shifted intermediate values keep the top bit clear, and for all 64-bit integers and pointers."
  },
  {
   "property": "C132",
   "status": "partial",
   "theorems": [
    "Verif.Str.C132_split_string_refuted",
    "Verif.Str.C132_split_string_partial"
   ],
   "note": "Refuted: the std::string overload goes through c_str(), so text from the first NUL on is lost. Proved: the pieces are those of the text before the first NUL, and the inverse law holds for strings without NUL."
  },
  {
   "property": "C133",
   "status": "proved",
   "theorems": [
    "Verif.AtomicRef.Graph.C133_safe",
    "Verif.AtomicRef.Graph.C133_register",
    "Verif.AtomicRef.Graph.C133_get_owned",
    "Verif.AtomicRef.Graph.C133_balanced",
    "Verif.AtomicRef.Graph.C133_no_leak",
    "Verif.AtomicRef.Graph.C133_accounts",
    "Verif.AtomicRef.Graph.C133_count",
    "Verif.AtomicRef.Graph.C133_ends",
    "Verif.AtomicRef.Graph.C133_no_deadlock",
    "Verif.AtomicRef.Graph.C133_member_calls"
   ],
   "note": "Members start null, the destructor body itself does nothing beyond destroying the members. Clients must call a member AtomicRef only through a reference they own and must not destroy a free-standing one during a call on it. Cyclic structures do leak (shown by example), hence the rank hypothesis of C133_no_leak."
  },
  {
   "property": "C134",
   "status": "partial",
   "theorems": [
    "Verif.AtomicRef.C134_holder_ends",
    "Verif.AtomicRef.C134_progress_partial",
    "Verif.AtomicRef.C134_every_call_ends_refuted"
   ],
   "note": "Refuted for single calls: the spin lock is unfair, so a get() can starve under a fair schedule (C134_every_call_ends_refuted). Proved: lock holders and Release end within seven own steps; some call takes effect again and again while any thread wants the AtomicRef, provided reads do not stay stale for ever."
  },
  {
   "property": "C135",
   "status": "proved",
   "theorems": [
    "Verif.HashTable.C135_any_policy_is_a_bag",
    "Verif.HashTable.C135_any_policy_no_fault",
    "Verif.HashTable.C135_any_policy_runs",
    "Verif.HashTable.C135_any_policy_questions"
   ],
   "note": "Model: Calls.lean (policy as stateful code). A policy whose own code fails ends the history with that failure; lookups write nothing before the policy's last call, so the table is then as before the operation. Policies that call back into the table are not covered here (C124 covers destructors that do)."
  },
  {
   "property": "C136",
   "status": "partial",
   "theorems": [
    "Verif.ThreadLocal.C136_stored_refuted",
    "Verif.ThreadLocal.C136_kept_partial",
    "Verif.ThreadLocal.C136_memory",
    "Verif.ThreadLocal.C136_windows"
   ],
   "note": "Refuted: the results of pthread_setspecific and TlsSetValue are not looked at. Proved: exactly the refused values are missing (C136_kept_partial), nothing is lost if the system has memory (C136_memory); on Windows, where allocate() is private, the failures of C67 and C101 cannot happen (C136_windows)."
  },
  {
   "property": "C137",
   "status": "proved",
   "theorems": [
    "Verif.SharedLib.C137_closed_once",
    "Verif.SharedLib.C137_open"
   ],
   "note": "FormatMessageA is taken at its contract (writes at most the given number of bytes, terminated on success). GetProcAddress is not modelled (lookup: C106, POSIX)."
  },
  {
   "property": "C138",
   "status": "partial",
   "theorems": [
    "Verif.ArgParser.Client.C138_null_only_if_omissible",
    "Verif.ArgParser.Client.C138_only_after_will_repeat",
    "Verif.ArgParser.Client.C138_texts_from_line",
    "Verif.ArgParser.Client.C138_one_offer_per_argument",
    "Verif.ArgParser.Client.C138_positionals_in_order",
    "Verif.ArgParser.Client.C138_halting_is_final",
    "Verif.ArgParser.Client.C138_no_repeat_fails",
    "Verif.ArgParser.Client.C138_refusal_partial",
    "Verif.ArgParser.Client.C138_undefined_behaviour_partial",
    "Verif.ArgParser.Client.C138_rule_for_classes_partial",
    "Verif.ArgParser.Client.C138_parse_safe_refuted",
    "Verif.ArgParser.Client.C138_record_is_passive",
    "Verif.ArgParser.Client.C138_header_classes",
    "Verif.ArgParser.Client.C138_first_registered",
    "Verif.ArgParser.Client.C138_reset_calls"
   ],
   "note": "Refuted as a whole: a class that must omit its value, does not override canOmitValue and refuses null makes parse format a null value (C138_parse_safe_refuted). Proved: where undefined behaviour can come from and a rule that excludes it (C138_undefined_behaviour_partial, C138_rule_for_classes_partial), and all the rest of the protocol. C138_header_classes: the model of the header's own classes is an instance. Client code that calls back into the parser is not modelled."
  },
  {
   "property": "C139",
   "status": "partial",
   "theorems": [
    "Verif.Maybe.C139_exact_partial",
    "Verif.Maybe.C139_exception_refuted",
    "Verif.Maybe.C139_safe_partial"
   ],
   "note": "Refuted: init on a Maybe that holds a value destroys it before constructing the new one and still says it is valid if that throws; its destructor destroys the old value a second time (C139_exception_refuted). Proved: the exact effect of every throwing call, including that one (C139_exact_partial), and safety of all histories in which init throws only on a Maybe without value (C139_safe_partial)."
  },
  {
   "property": "C140",
   "status": "partial",
   "theorems": [
    "Verif.FixedArray.C140_exception_refuted",
    "Verif.FixedArray.C140_constructors_partial",
    "Verif.FixedArray.C140_assignment_partial"
   ],
   "note": "Refuted: a copy assignment that throws leaves an array whose destructor destroys elements that were never constructed (C140_exception_refuted). Proved: a throwing constructor leaks exactly its buffer and the k elements constructed before and changes nothing else, for all histories (C140_constructors_partial); the exact state after a throwing assignment (C140_assignment_partial)."
  },
  {
   "property": "C141",
   "status": "partial",
   "theorems": [
    "Verif.Function.C141_exact_partial",
    "Verif.Function.C141_exception_refuted",
    "Verif.Function.C141_safe_partial"
   ],
   "note": "Refuted: every assignment destroys the old callable first and leaves impl_ pointing to it if the new one cannot be made (C141_exception_refuted). Proved: the exact effect of every throwing call in every history, with a value 'broken' for such Functions, and that nothing is ever leaked (C141_exact_partial); full safety if assignments throw only onto an empty Function and not when given an inline callable (C141_safe_partial)."
  },
  {
   "property": "C142",
   "status": "partial",
   "theorems": [
    "Verif.PQueue.C142_add_partial",
    "Verif.PQueue.C142_pop_partial",
    "Verif.PQueue.C142_history_partial",
    "Verif.PQueue.C142_add_refuted",
    "Verif.PQueue.C142_order_refuted"
   ],
   "note": "Refuted: a throwing add loses the new item and leaves what a move left of another one, for integers a duplicate (C142_add_refuted), and after a throwing pop the heap order is gone, so that a later pop returns an item that is not best (C142_order_refuted). Proved for every comparator: memory safety and the exact effect on the multiset of items of every call of every history (C142_history_partial)."
  },
  {
   "property": "C143",
   "status": "partial",
   "theorems": [
    "Verif.HashTable.C143_history_partial",
    "Verif.HashTable.C143_no_fault_partial",
    "Verif.HashTable.C143_finite_map_partial",
    "Verif.HashTable.C143_throwing_call_partial",
    "Verif.HashTable.C143_ctor_refuted",
    "Verif.HashTable.C143_which_constructor_partial"
   ],
   "note": "Refuted: add marks the entry live and counts it before it constructs the payload, so a throwing constructor leaves a live entry without a payload, and the table's destructor is undefined behaviour (C143_ctor_refuted). Proved: if payload constructors do not throw, every history is the history without the throwing calls (C143_history_partial, C143_finite_map_partial, C143_no_fault_partial); and a throwing call either leaves the table exactly as it was or a payload constructor threw and the table cannot be destroyed (C143_throwing_call_partial). Which constructor throws is exact: calls construct exactly as many payloads as do not throw (C143_which_constructor_partial)."
  },
  {
   "property": "C144",
   "status": "proved",
   "theorems": [
    "Verif.Raii.C144_finally",
    "Verif.Raii.C144_no_fault",
    "Verif.Raii.C144_left_clean",
    "Verif.Raii.C144_save_restores",
    "Verif.Raii.C144_guard",
    "Verif.Raii.C144_guard_cancelled",
    "Verif.Raii.C144_callback_throws"
   ],
   "note": "Refinement in both directions between an abstract machine with a control stack, on which destructors run as frames are taken off, and a denotation with finally (C144_finally); C144_save_restores is stated about the machine alone, in any state."
  },
  {
   "property": "C145",
   "status": "partial",
   "theorems": [
    "Verif.Hash.C145_signed",
    "Verif.Hash.C145_chunking",
    "Verif.Hash.C145_published_unsigned",
    "Verif.Hash.C145_portable_refuted",
    "Verif.Hash.C145_portable_partial",
    "Verif.Hash.C145_one_high_character",
    "Verif.Hash.C145_pointer32"
   ],
   "note": "Refuted: the sign of char is the target's choice and is not fixed by a cast, so text with characters above 127 hashes differently; exact for one such character (C145_one_high_character: always different), equal for 7-bit text. With unsigned char HashCharSequence is the published function for all text (C145_published_unsigned)."
  },
  {
   "property": "C146",
   "status": "proved",
   "theorems": [
    "Verif.RefPtr.C146_no_overflow",
    "Verif.RefPtr.C146_balanced"
   ],
   "note": "Lock-step equality of the wrapping machine with the unbounded one (C146_no_overflow) from distinct non-null addresses of the handles; counts equal numbers of handles, which are fewer than addresses. Single-threaded; manual AddRef calls without handles are not covered."
  },
  {
   "property": "C147",
   "status": "partial",
   "theorems": [
    "Verif.Thread.Life.C147_newThread_never_faults",
    "Verif.Thread.Life.C147_throw_leaves_nothing_behind",
    "Verif.Thread.Life.C147_started_thread_in_any_schedule",
    "Verif.Thread.Life.C147_started_thread_can_finish",
    "Verif.Thread.Life.C147_strong_guarantee_refuted",
    "Verif.Thread.Life.C147_strong_guarantee_partial"
   ],
   "note": "Lifetimes, values and interleavings are proved without bound; the strong exception guarantee is refuted (a start that fails has already moved rvalue arguments away) and proved when only lvalues are given. The callback itself is assumed to return."
  },
  {
   "property": "C148",
   "status": "partial",
   "theorems": [
    "Verif.ThreadLocal.C148_published_refuted",
    "Verif.ThreadLocal.C148_ordered_partial",
    "Verif.ThreadLocal.C148_isolated_partial",
    "Verif.ThreadLocal.C148_use_may_fault_iff",
    "Verif.ThreadLocal.C148_order_needed"
   ],
   "note": "Full claim refuted; proved: with client ordering every execution is fault-free and equals the sequentially consistent one, isolation in every execution that does not fault, and a use may fault exactly when it is not ordered after the write of key_. View semantics specialised to two variables written once each."
  },
  {
   "property": "C149",
   "status": "partial",
   "theorems": [
    "Verif.Vec.C149_pop_back_partial",
    "Verif.Vec.C149_pop_front_partial",
    "Verif.Vec.C149_pop_strong_partial",
    "Verif.Vec.C149_pop_refuted",
    "Verif.Vec.C149_move_extend_partial",
    "Verif.Vec.C149_extend_strong_refuted",
    "Verif.Vec.C149_extend_retry_refuted",
    "Verif.Vec.C149_erase_if_partial",
    "Verif.Vec.C149_erase_retry_refuted",
    "Verif.Vec.C149_erase_retry_partial"
   ],
   "note": "The strong guarantee and repeatability are refuted by concrete runs; the exact state after an exception is proved for all cases, the strong guarantee of Pop* under elision, and repeatability of EraseIf when the predicate removes shells. Library calls (emplace_back, erase at the end) under their standard guarantees; InsertAt, EmplaceAt, RemoveAt are single library calls and not treated."
  },
  {
   "property": "C150",
   "status": "partial",
   "theorems": [
    "Verif.Str.Va.C150_sprintf_partial",
    "Verif.Str.Va.C150_stringPrintf_partial",
    "Verif.Str.Va.C150_caller_list_partial",
    "Verif.Str.Va.C150_safeSprintf",
    "Verif.Str.Va.C150_pathFormat",
    "Verif.Str.Va.C150_parsev_partial",
    "Verif.Str.Va.C150_lists_refuted",
    "Verif.Str.Va.C150_throw_refuted",
    "Verif.Str.Va.C150_parsev_refuted"
   ],
   "note": "Refuted: the copied list is not ended when the second formatting fails (am-string.h:122-124) nor when make_unique throws; parsev never ends its list. The exact balance in every case is proved, and memory safety in all."
  },
  {
   "property": "C151",
   "status": "partial",
   "theorems": [
    "Verif.PQueue.C151_add_partial",
    "Verif.PQueue.C151_pop_partial",
    "Verif.PQueue.C151_add_strong",
    "Verif.PQueue.C151_pop_strong",
    "Verif.PQueue.C151_add_no_throw",
    "Verif.PQueue.C151_pop_no_throw",
    "Verif.PQueue.C151_pop_refuted",
    "Verif.PQueue.C151_add_refuted"
   ],
   "note": "The strong guarantee is refuted for add and pop by concrete runs; the exact damage is proved for every throwing operation, its bound for items with the strong guarantee, and agreement with the model of C38-C40 when nothing throws. push_back has the standard's strong guarantee; the comparator does not throw here (C142)."
  },
  {
   "property": "C152",
   "status": "proved",
   "theorems": [
    "Verif.RefPtr.C152_exact",
    "Verif.RefPtr.C152_balanced",
    "Verif.RefPtr.C152_effect",
    "Verif.RefPtr.C152_kept",
    "Verif.RefPtr.C152_no_leak",
    "Verif.RefPtr.C152_ledger",
    "Verif.RefPtr.C152_dangling",
    "Verif.RefPtr.C152_unmatched",
    "Verif.RefPtr.C152_leak",
    "Verif.RefPtr.C152_overflow"
   ],
   "note": "Exact domain, exact effect and exactly what is destroyed, for histories that give back what they took; the ledger (count = handles + taken - given back) for all histories. A raw `new T` is followed by AddRef at once in the model. C152_overflow: 2^w references by hand wrap the counter (handles alone cannot, C146)."
  },
  {
   "property": "C153",
   "status": "partial",
   "theorems": [
    "Verif.Raii.C153_no_leak",
    "Verif.Raii.C153_exact",
    "Verif.Raii.C153_all_or_nothing_partial",
    "Verif.Raii.C153_elided",
    "Verif.Raii.C153_refuted",
    "Verif.Raii.C153_nothrow"
   ],
   "note": "All-or-nothing is proved under elision and refuted without; the exact effect is proved for every pattern of exceptions, and agreement with C108 when nothing throws."
  },
  {
   "property": "C154",
   "status": "partial",
   "theorems": [
    "Verif.Str.C154_exact",
    "Verif.Str.C154_unsigned",
    "Verif.Str.C154_refuted",
    "Verif.Str.C154_ascii_partial",
    "Verif.Str.C154_length",
    "Verif.Str.C154_idempotent",
    "Verif.Str.C154_c_locale"
   ],
   "note": "Exact for both kinds of platform; the property is proved where char is unsigned and refuted where it is signed. C154_c_locale connects it to C36."
  },
  {
   "property": "C155",
   "status": "partial",
   "theorems": [
    "Verif.RefPtr.C155_ledger",
    "Verif.RefPtr.C155_exact",
    "Verif.RefPtr.C155_create",
    "Verif.RefPtr.C155_refuted",
    "Verif.RefPtr.C155_guarded_partial",
    "Verif.RefPtr.C155_untouched_partial"
   ],
   "note": "The full property is refuted by a constructor with a temporary handle on `this`. Exact: survival, the count at every moment (ledger), and success of `RefPtr<T> h(new T)`. Objects made inside such a constructor have plain constructors."
  }
 ]
}