# Formal model of alliedmodders/amtl in Lean 4 - design

## Conventions

* One directory per component under `lean/Verif/`: `Model.lean` (the code, function by function, every
  definition citing file:lines), `Spec.lean` (the small independent specification, written without the
  model's helpers), `Lemmas.lean` (proof engineering), `Props.lean` (the property theorems, named
  `Cnn_...`, with the non-vacuity `example`s next to them).
* Undefined behaviour, assertion failure, abort, and non-termination are *distinct outcomes* of the
  model (`Verif.Fault`, `Except Fault alpha`), never assumed away. A theorem that an operation is safe
  says that it evaluates to `.ok`.
* Target: LP64 (size_t, uintptr_t, long: 64 bit; int: 32 bit; char: signed 8 bit), GCC/Clang path of
  every `#if`. Debug (asserts on) vs release (NDEBUG) is a model parameter where it changes behaviour.
* Machine integers are `BitVec n` / `UIntN` where wrap-around matters, `Nat` elsewhere with the bound
  proved.
* External calls (malloc, vsnprintf, pthread_key_create, dlopen, ...) are parameters; what is assumed
  of them is a hypothesis of the theorem, never an axiom.
* Properties the code *violates* are kept in the list. The refutation is a theorem
  `Cnn_..._refuted` (concrete witness) and what does hold is `Cnn_..._partial`; MANIFEST status
  `partial`.

## Plan per property

| id | modelled | proof |
|----|----------|-------|
| C01 | HashTable with slots = (32-bit hash, storage that is raw or holds a payload); lookup, lookupForAdd, internalAdd, insertUnique, changeCapacity, grow, shrink, checkDensity, remove, clear, iterator; allocation outcomes as an oracle stream | invariant (probe chains unbroken, no duplicate key, counters, one free slot) + refinement to `Key -> Option Payload` by induction over the history |
| C02 | probe loops with explicit fuel; running out = `Fault.diverge`, index outside the array = `Fault.outOfBounds` | invariant gives a free slot on every probe path |
| C03 | counters nelements_, ndeleted_ | part of the invariant |
| C04 | iterator constructor/next/erase as cursor functions | induction over the slot array |
| C05 | failed createTable / kMaxCapacity | refinement case |
| C06 | construct/destruct on slot storage fault on wrong state; ledger of constructed/destroyed payloads | invariant live <-> constructed |
| C07 | capacity arithmetic | invariant |
| C08 | move constructor | refinement |
| C09 | init failure then destructor | refuted by witness (null table, nonzero capacity) |
| C10 | grow with kMaxCapacity = INT_MAX/sizeof(Entry) | refuted (assert in changeCapacity); partial |
| C11 | HashSet::add/has | corollary of C01 refinement |
| C12 | two hash functions, same history | corollary of C01 |
| C13 | HashInt32 on BitVec 32, wrap semantics | each step injective |
| C14 | same with signed-overflow faults | refuted by witness; exact domains of both functions |
| C15, C16 | CharacterStreamHasher, FastHashCharSequence | fold lemmas; BitVec ring |
| C17-C24 | am-bits.h on BitVec 64 / BitVec 32 | Nat arithmetic on toNat |
| C25, C26 | am-arithmetic.h | Nat arithmetic; C26 refuted at 2^32*2^32 |
| C27-C31, C37 | char buffers as byte lists with out-of-bounds faults; vsnprintf as a parameter with the C contract | loop invariants |
| C32-C36 | Split/Join/StartsWith/EndsWith/case on byte lists, Join at memcpy level | induction; C36 exact on all strings (PropsCase.lean) |
| C38-C40 | PriorityQueue on an array, propagateUp/Down as in the code; C39 also for comparator objects with a state (PropsAny) | heap invariant, permutation; a strict partial order that breaks C38 shows the hypothesis is needed |
| C41-C44 | pointer heap node -> (next,prev), several lists | cyclic list segment invariant, refinement to sequences |
| C45, C46, C50 | heap of counted objects, handles | counting invariant, C46 refuted; exact safe domain by least set of dying objects |
| C47-C49 | interleaving step relation per atomic operation; for AtomicRef loads and failing CASes may be stale | inductive invariant over all schedules |
| C51-C54 | Function objects with inline/heap holders, overload resolution made explicit | refinement to optional callable |
| C55-C57 | Maybe with storage ledger | refinement; C56, C57 refuted |
| C58-C60 | FixedArray with buffers and ledger | refinement; partly refuted; exact account of every leak by parking overwritten arrays in ghost variables (PropsLeak.lean) |
| C61-C63 | nested guard programs | structural induction |
| C64 | BitVec | bitwise ext |
| C65 | list functions | induction |
| C66-C68 | interleaving models | invariants; refutations for the allocate race, try_lock |
| C69, C70 | Int/BitVec | arithmetic; C70 refuted |
| C71-C80 | parse_impl as a loop over the argument list, options as records, bytes as strings | induction over the argument list; several refuted |
| C81 | TextRewriter::emit loop | induction |
| C82, C83 | HashCombine, HashInt64 under wrap-around arithmetic | inverse functions; counting of preimages |
| C84 | `Maybe::init` with a reference to its own value | C55 model with aliasing; refuted, exact behaviour |
| C85 | FixedArray self-assignment | C58 model; refuted, exact behaviour |
| C86 | FloatModulo (fmod as a parameter with the C99 contract; the Windows special cases) | case analysis; refuted on Windows |
| C87 | TimespecToTimePoint for every tick length | truncated division |
| C88 | parse_impl; grammar of proper command lines in `SpecLine.lean` | completeness by induction over the line |
| C89 | stop options | induction |
| C90 | option constructors and registration (`ArgParser/BuildModel.lean`) | iff with the declaration grammar |
| C91 | value accessors, defaults, reset | corollary of C72/C88 |
| C92, C93 | happens-before (program order, synchronising hand-over, read-modify-write of the counter, free before reuse) on top of the interleaving models of C47/C49 | invariant: every access is ordered before the current position of its reference's release chain |
| C94 | am-fsutil: mode bits and attribute words; the file system is a graph of names, files and links, `stat`/`mkdir` are parameters with a contract | bit lemmas, uniqueness of link resolution |
| C95 | am-system-errors: the six kinds of reply of strerror_r / FormatMessage | C30 for the fallback; refuted for the POSIX strerror_r |
| C96 | am-enum: value range of enumerations without fixed type; comparators as integer conversions | bit range lemmas; refuted for ~ and narrowing comparisons |
| C97 | class layout (sizes, alignments, offsets) of StorageBuffer, Maybe, Function, table entries, arrays | arithmetic on powers of two; refuted for over-aligned types |
| C98 | NewThread / SetThreadName: interleavings of threads with client writes and frees, trace of observable events | invariant per thread; refuted for long names; naming exactly |
| C99-C100 | am-bits.h with the target (compiler, width of size_t and long) as parameter | per-target case split, testBit and 2^k bounds; refuted on GCC targets |
| C101-C102 | ThreadLocal destructor over the interleaving model; casts through void* as BitVec; single-threaded build | inductive invariant on the key; bitwise; refuted for a refused key |
| C103 | printf helpers with the Microsoft library functions (`_vsnprintf`, `_vscprintf`) | equality with the other build, case analysis on length against room |
| C104 | implicit copy constructor and assignment of Refcounted objects | surplus counts as hidden variables: every operation commutes with hiding them, so C45 carries over; refuted |
| C105 | implicit copies of InlineList nodes and lists | C41 invariant on the modified heap; refuted |
| C106 | SharedLib: all constructors, lookups, the loader's open counts | opens = closes + live objects, on top of C45; refuted for null handles and copies |
| C107 | MakeScopeGuard from temporaries, moved variables and variables (a reference) | frame lemmas over histories; refuted for references |
| C108 | SaveAndSet without nesting, implicit copies; ReturnAndVoid | frame lemmas over histories; refuted for copies and wrong order |
| C109 | policies as arenas: who is asked for memory by hash containers, and to whom it is given back | invariant relating containers to a specification of their policies |
| C110 | allocPolicy() of HashMap/HashSet against the policy of the table inside | refuted; simulation with the changes erased |
| C111 | FixedArray constructors, copies and moves against the policy parameter | refuted; invariants for interchangeable policies and for histories without moves |
| C112 | HashTable add(i) with a default payload, then assignment through Insert | equality of runs by induction over histories |
| C113 | add with a reference into the array, which a capacity change releases | frame lemmas for changeCapacity; refuted for HashTable, proved for HashMap |
| C114 | add with rvalues, and what a failed attempt leaves | equality with copies by induction over attempts; refuted for HashMap |
| C115 | SafeStrcpy, SafeStrcat, SafeStrcpyN with both pointers into one memory | exact bytes for every overlap by induction on the room; the naive claim refuted |
| C116 | many ThreadLocal objects, the system's slots with reuse, other users of slots | simulation with independent per-thread variables |
| C117 | queues with a comparator object (state, call operator, move constructor), several queues, moves | simulation of named queues by multisets; witness for std::function-like comparators |
| C118 | the heap loops with a comparator whose state counts the calls | induction over the heap path, log2 of the index as measure; sum over the history |
| C119 | the C01 model; constructions counted by the ledger, entries touched derived from the capacities | potential function over histories |
| C120 | the C01 model; payload address = entry index while no array is allocated | frame lemmas for every operation, induction over histories |
| C121 | Calls.lean: lookups with a stateful policy | induction over the probe loops: the list of payloads asked about is exhibited once for all policy objects; injectivity of the multiplication by an odd constant |
| C122 | Many.lean: parsers and option objects with names, pointers, lifetimes | simulation of the parsers side by side (ManyLemmas.lean), each a parser of Model.lean; ownership invariant and frame (ManyFrame.lean) for shared options |
| C123 | Reenter.lean: the operations of C45 cut at the call of Release, with a stack of what is left to do; destructors are arbitrary client steps | per-step invariant: counts = handles not in flight, member handles of dying objects follow from the stack; refuted for uses of handles in flight |
| C124 | HashTable/Reenter.lean: removal, clear and ~HashTable cut at the call of the payload destructor, with a stack of running destructors; destructors are arbitrary client steps | simulation of a map with pending removals; weak table invariant during clear; one refutation for each rule dropped |
| C125 | Function/Reenter.lean: assignment, move and ~Function cut at the call of the callable's destructor, operator() at the call of the callable, with a stack of running client code | simulation of variables with pending operations; dying variables are blanked and the invariant of C51-C52 is reused; one refutation for each rule dropped |
| C126 | Restyler/Model.lean: the visitors and their helpers over a text, a lexer and the facts clang gives for each node; Restyler/Spec.lean: the style rules as edits | every request is tied to a token of its own, so sorted requests are separate; then C81 |
| C127 | same | corollary of C126; refuted by a function in the tool's own style |
| C128 | Restyler/Tool.lean: fgets pieces, the marker loop, trimming | induction over lines; refuted by a line of 1100 characters |
| C129 | Restyler/Tool.lean: RunForPath and Run as traces of file system states | case analysis, induction over files; refuted by the truncated state |
| C130 | the parser model; ArgParser/SpecError.lean: which option an argument is about, what can be wrong, the message due | inversion of one round, then induction over the loop with the chain of items before |
| C131 | the hash functions of the model; Hash/SpecRef.lean: the published functions in natural-number arithmetic | bit-vector lines rewritten as arithmetic modulo the word size; induction over the text; refuted for signed characters and arithmetic shifts |
| C132 | Split(const std::string&) on contents with NULs | reduction to C32/C33; refuted by an embedded NUL |
| C133 | AtomicRef/GraphModel.lean: the steps of C49 with any number of AtomicRefs, free-standing or members of objects, a stack of frames per thread for destructors inside Release | inductive invariant in four parts (objects and counts, destructors and existing AtomicRefs, locks, owners of references); termination by a lexicographic measure; refutation of leaks by induction over ranks |
| C134 | infinite executions of the C49 model with fairness (AtomicRef/SpecProgress.lean) | own-step measure for lock holders; if nobody ever took effect the word would stay unlocked and constant, so the next CAS succeeds; refuted for single calls by a periodic execution |
| C135 | the lookups of Calls.lean with an arbitrary stateful policy; abstract state: bag of payloads (HashTable/SpecAny.lean) | invariant without keys and hashes (counts, load, well-formed slots), induction over histories; questions: the probe path is a permutation of the array |
| C136 | ThreadLocal/Lossy.lean: the steps of Model.lean, and the system call in `internalSet` failing; Windows = no calls of `allocate` | invariant of C66 on the calls that were not lost; counterexample run |
| C137 | SharedLib/Windows.lean: `Open` with `FormatSystemErrorCode` of the Os model | simulation by the POSIX model, message by C95's lemmas |
| C138 | ArgParser/ClientModel.lean: `Parser` over arbitrary objects with arbitrary stateful virtual functions; the calls are recorded | grammar of the calls of a round, induction over the line; refinement of Model.lean to an instance |
| C139 | Maybe/Throws.lean: every call with a flag saying that `T`'s constructor throws | simulation of an abstract state with a value `broken`; refuted by `init` |
| C140 | FixedArray/Throws.lean: the loops of C58 cut at the k-th construction | the invariant of C58-C59 with a count of abandoned buffers; refuted by copy assignment |
| C141 | Function/Throws.lean: every call with an optional exception (callable's constructor, operator new) | broken variables are blanked and the invariant of C51-C52 is reused; frame lemma for calls; refuted by assignment |
| C142 | PQueue/Throws.lean: the loops of the heap with a comparator that may throw | the vector with a hole at the cursor is a permutation up to the moved-out item; refuted by concrete runs |
| C143 | HashTable/Throws.lean: policy calls, am_malloc and payload constructions that may throw | call-by-call simulation of the model without exceptions; a thrown constructor leaves an entry without payload, on which the destructor faults |
| C144 | Raii/Exits.lean: client programs with exceptions, return, break, loops, try/catch on a machine with a control stack | simulation both ways with the try/finally reading of SpecExits.lean (fuel induction one way, strong induction on the number of machine steps the other) |
| C145 | Hash/Chars.lean: text hashes parameterised by the signedness of char, 32-bit HashPointer | induction over the text; each round is a bijection of the state |
| C146 | RefPtr/Width.lean: the operations with a w-bit counter | equality with the unbounded machine step by step, counting addresses |
| C147 | Thread/Life.lean: NewThread with every copy, move, allocation as an object with a lifetime that may throw; caller and thread as interleaved steps | what lives is a permutation of caller + owned parts: invariant; strong guarantee refuted |
| C148 | ThreadLocal/Weak.lean: reads of flag and key may be old unless ordered; `sync` by the client | invariant on what each thread is ordered after; equality with the sequentially consistent machine; refuted without client ordering |
| C149 | Vec/Throws.lean: the helpers with every element move, allocation and predicate call as a point that may throw | induction over the loops: survivors ++ leftovers ++ untested; refuted by concrete runs |
| C150 | Str/VaList.lean: argument lists and heap blocks as numbered resources through the formatting functions, allocation and string construction may throw | exact case analysis of `SprintfArgsImpl`; refuted by concrete runs |
| C151 | PQueue/Items.lean: the queue with every construction, move and assignment of an item as a point that may throw, moved-from items left behind | permutation invariants of both loops up to the hole; refuted by concrete runs |
| C152 | RefPtr/Manual.lean: AddRef, Release, AdoptRef, take on raw pointers mixed with all handle operations | references held by hand are hidden handles (Hide.lean), so the exact theorems of C45 apply; for unbalanced histories: handles minus count is conserved by every statement, cascade included |
| C153 | Raii/Void.lean: ReturnAndVoid with every operation of the type a point that may throw, objects counted | exact case analysis; refuted for the move that is not elided |
| C154 | Str/Locale.lean: the conversions with the locale's table and the signedness of char as parameters | induction on the string; refuted for signed char |
| C155 | RefPtr/Newborn.lean: constructors as programs that know `this` while its count is 0 | the invariants of C152 with a set of unowned objects; refuted by a temporary handle on `this` |

## Violated properties found

These statements are what the API promises; the code does not keep them. Each has a `_refuted` theorem with a
reachable witness and a `_partial` theorem for the largest part that does hold.

* HashTable: C09 (failed init + destructor), C10 (growth past the maximum is an assertion failure), C113, C114, C124, C143. Hash: C13, C14, C15, C131, C145.
* Bits/Arith: C19, C21, C22, C26, C99, C100. Str: C29, C31, C36, C115, C132, C150, C154. PQueue: C117, C142, C151. Vec: C149.
* IList: C42, C44, C105. RefPtr: C45, C46, C104, C123, C155. RefTS: C48. AtomicRef: C134. Function: C51, C53, C54, C125, C141. Maybe: C56, C57, C84, C97, C139.
* FixedArray: C58, C59, C85, C97, C140. ThreadLocal: C66, C67, C101, C136, C148. Mutex: C68. Num: C69, C70, C86.
* ArgParser: C71, C72, C77, C78, C79, C122, C138. Rewriter: C81. Os: C95. Enum: C96. Thread: C98, C147. SharedLib: C106. Raii: C107, C108, C153. Alloc: C110, C111. Restyler: C126, C127, C128, C129.

## Trusted base

* Lean 4.33.0's kernel.
* Axioms: every theorem depends on at most `propext`, `Classical.choice` and `Quot.sound` (`#print axioms`); none are
  added. No compiled evaluation: concrete runs use `decide` / `decide +kernel` / `rfl`, which the kernel checks.
* The reading of the C++ source, which the citations on every definition document: that the model's functions do
  what the cited lines do. Nothing connects the model to compiled code mechanically.
* The contracts of the external functions named below, which are hypotheses of theorems or definitions labelled as
  library functions in the models.

## What is modelled

| file | modelled | not modelled |
|------|----------|--------------|
| am-hashtable.h, am-hashmap.h, am-hashset.h | everything except `estimateMemoryUse`'s non-observable parts; allocator success is an input; payload move/copy/destroy are pure ghost-counted events (C124: payload destructors are client code; C121, C135: policies are client code with state and any answers; C143: policies, payload constructors and the allocator may throw) | payload assignments that throw; policies, moves and copies that re-enter the table |
| am-hashtable.h:555-654 | the hash functions, strict and wrap-around arithmetic, `char` signed or unsigned | |
| am-bits.h | every branch, on six targets (Target.lean); the width-independent functions for any width | the `asm` branch for compilers that are neither GCC nor MSVC |
| am-arithmetic.h | everything (portable branch) | |
| am-string.h, os/am-path.h | everything; vsnprintf under its C contract; case conversion in any locale (C154); both path separators | formatting in locales other than C; `std::string` allocation failure outside the formatting functions (C150) |
| am-priority-queue.h, am-inlinelist.h, am-vector.h, am-deque.h | everything; debug and release builds where they differ | exceptions thrown by element operations in InlineList (in vectors: C149; in PriorityQueue: C142, C151) |
| am-refcounting.h | RefPtr, AlreadyRefed, Refcounted with nested member handles; destructors that run client code (also VirtualRefcounted::destroying_) | such constructors nested in each other (constructors that take references on their object: C155; manual `AddRef`, `Release`: C152) |
| am-refcounting-threadsafe.h | every atomic step of AddRef, Release, AtomicRef; linked structures of AtomicRefs (C133) | weak-memory executions that involve the modification orders of several AtomicRefs at once. For one AtomicRef weak memory is covered: loads in `lock` and failing CASes may read anything (`Act.stale`), and C93_interleaving proves from coherence that every permitted execution is such an interleaving; that all count updates synchronise, so that their modification order is in happens-before, is by inspection of :53, 56 |
| am-function.h, am-maybe.h, am-storagebuffer.h, am-fixedarray.h, am-allocator-policies.h | everything; identities of constructed objects, buffers, layout; throwing constructors (C139, C140, C141) | copy and move constructors that re-enter the container (destructors and callables that re-enter a Function: C125) |
| am-raii.h, am-flags.h, am-enum.h | everything; scopes left by exceptions (C144) | moving a ScopeGuard out of its scope in a program with exceptions (without: C63) |
| am-threadlocal.h, am-mutex.h | every access to shared state as a step, sequentially consistent, and for ThreadLocal also with weakly ordered reads (C148); destructor, casts, single-threaded build | Windows: same control flow, `allocate` private (C136) |
| am-time.h, am-float.h | everything; fmod as a parameter | rounding (no arithmetic on floats is done by the code) |
| am-thread.h | SetThreadName, NewThread | nested `std::bind` arguments, callbacks that throw |
| os/am-fsutil-*.h, os/am-system-errors.h, os/am-shared-library.h | everything, the system calls being inputs | the kernel; `GetProcAddress` |
| experimental/am-argparser.h, .cpp | everything, with the option classes the header provides; several parsers sharing options; arbitrary classes derived from `IOption` (C138) | client classes that call back into the parser |
| tools/restyler/amstyler.cpp:48-177, 182-599, 623-781 | TextRewriter; the visitors, with clang's lexer and syntax tree as input; search paths, in-place writing, exit code | clang itself, command line parsing, locations inside macros, diagnostics on stderr |
| am-cxx.h, am-platform.h, am-linking.h, am-assert.h, am-unused.h, compat/stdcxx.cpp | nothing: macros and declarations only | |

## Observations outside the properties

Found while reading; they are compile-time or build matters and no theorem is about them.

* `Maybe::operator->` returns `T*` as `T&` and does not compile if used (am-maybe.h:78-81, 90-93).
* am-raii.h uses `assert` without including it; am-utility.h uses `memset` without <string.h>; am-system-errors.h tests
  KE_WINDOWS before including am-platform.h (so without other includes Windows takes the errno branch).
* am-enum.h lacks `typename` under KE_ALLOW_STD_CXX; am-cxx.h misspells `__clang_major__`.
* SystemAllocatorPolicy aborts when `malloc(0)` returns NULL.
* `usage_line` and `add_usage_line` are defined in a header
  without `inline`; a null `help()` is dereferenced.

### Conformance with the repository's own tests

`Verif/Conform/{Small,Containers,Programs}.lean` replay the unit tests of /repo/tests on the models, by kernel evaluation: test-argparser, test-bits,
test-callable, test-deque, test-flags, test-hashmap, test-inlinelist, test-priority-queue, test-raii, test-refcounting, test-string, test-system,
test-threadlocal-threaded, test-threadlocal-unthreaded, test-time and test-vector. These are tests of the models, not proofs: they check that a model gives
the answers the C++ is known to give, and no claim in MANIFEST.json names them. Left out: what only exercises `std::vector` or `std::deque`, and
`Bits.MallocAlignment` (a constant). One of them is telling: `Callable.Move` expects no move constructor
to run when a copied `Function` is moved, which is so only because copying from a non-const variable wraps the source on the heap, as the model has it.

## Testing the theorems

`seeded/LOG.jsonl` has one line per edit of a model definition that imitates a bug: which theorems failed, and, where none did
although the English claim had become false, which theorem was tightened.
