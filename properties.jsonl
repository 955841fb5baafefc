{"id": "C01", "title": "HashMap behaves as a finite map", "statement": "After any history of init, findForAdd+add, find, remove(Result), removeIfExists, clear, checkDensity and iterator erase, find(k) is found exactly when the last effective operation on k was an add, and then it yields exactly the payload that add stored; operations on other keys never change what find(k) returns.", "quantifier": "every lawful policy (any hash function, including constant ones), every key/payload type, every operation history of any length, every pattern of allocation failures", "why_tests_cant": "The behaviour depends on collisions, tombstones, wrap-around and resizes in combination; a test fixes one hash function and a few histories.", "anchors": ["amtl/am-hashtable.h:HashTable", "amtl/am-hashmap.h:HashMap::find", "amtl/am-hashmap.h:HashMap::add", "amtl/am-hashmap.h:HashMap::removeIfExists"]}
{"id": "C02", "title": "Hash table probing always terminates and stays in bounds", "statement": "Every find, findForAdd and add on an initialised table terminates and only touches slots inside the allocated array; the table can never fill up so far that a lookup of an absent key loops forever.", "quantifier": "every reachable table state, every key, every hash function", "why_tests_cant": "Non-termination needs a table with no free slot; a finite test run cannot show that no history reaches one.", "anchors": ["amtl/am-hashtable.h:HashTable::lookup", "amtl/am-hashtable.h:HashTable::lookupForAdd", "amtl/am-hashtable.h:HashTable::internalAdd", "amtl/am-hashtable.h:HashTable::overloaded"]}
{"id": "C03", "title": "elements() counts the distinct stored keys", "statement": "elements() always equals the number of keys for which find would succeed.", "quantifier": "every operation history, hash function and allocation-failure pattern", "why_tests_cant": "The counter is updated in six places; drift shows up only on particular interleavings of tombstone re-use and resize.", "anchors": ["amtl/am-hashtable.h:HashTable::elements", "amtl/am-hashtable.h:HashTable::internalAdd", "amtl/am-hashtable.h:HashTable::removeEntry"]}
{"id": "C04", "title": "Iteration visits every entry exactly once", "statement": "Walking the table with iter()/empty()/next() yields each stored payload exactly once and nothing else, and stops; erasing the current element during the walk removes exactly that element and the walk still visits all the others exactly once.", "quantifier": "every reachable table, every subset of visited entries erased during the walk", "why_tests_cant": "Tests check tables with one or two entries; skipped or repeated slots depend on layout.", "anchors": ["amtl/am-hashtable.h:HashTable::iterator"]}
{"id": "C05", "title": "A failed add changes nothing", "statement": "When add returns false (allocation failure or size overflow) the set of stored entries, elements() and every later lookup are the same as if add had not been called.", "quantifier": "every reachable table, every key, every allocation outcome", "why_tests_cant": "Requires failure injection at each allocation in each table shape.", "anchors": ["amtl/am-hashtable.h:HashTable::add", "amtl/am-hashtable.h:HashTable::changeCapacity", "amtl/am-hashtable.h:HashTable::grow"]}
{"id": "C06", "title": "Payload lifetimes are balanced", "statement": "Every payload constructed in the table is destroyed exactly once, never read before construction or after destruction, and never constructed over a live one, across add, remove, clear, resize, move-construction and destruction of the table.", "quantifier": "every operation history ending in destruction", "why_tests_cant": "Leaks and double destruction depend on which slots are live, free or removed when a resize or clear happens.", "anchors": ["amtl/am-hashtable.h:HashTableEntry", "amtl/am-hashtable.h:HashTable::changeCapacity", "amtl/am-hashtable.h:HashTable::~HashTable"]}
{"id": "C07", "title": "Table capacity stays a power of two within its bounds and load limits", "statement": "After successful init(c) with c a power of two, the capacity is always a power of two, never drops below max(16,c), and occupied plus removed slots never exceed three quarters of it plus one; estimateMemoryUse() is capacity times the entry size.", "quantifier": "every operation history", "why_tests_cant": "Bound must hold in every reachable state.", "anchors": ["amtl/am-hashtable.h:HashTable::init", "amtl/am-hashtable.h:HashTable::shrink", "amtl/am-hashtable.h:HashTable::grow", "amtl/am-hashtable.h:HashTable::checkDensity"]}
{"id": "C08", "title": "Moving a table transfers it whole", "statement": "After move construction the new table answers every lookup as the old one did, the old one is empty, and destroying both destroys each payload exactly once.", "quantifier": "every reachable table", "why_tests_cant": "Must hold for every table content and both destruction orders.", "anchors": ["amtl/am-hashtable.h:HashTable::HashTable(HashTable&&)"]}
{"id": "C09", "title": "A failed init leaves a destructible table", "statement": "If init returns false because allocation failed, the table can still be destroyed safely.", "quantifier": "every requested capacity and allocation outcome", "why_tests_cant": "Requires failure injection with a fallible policy; the default policy aborts.", "anchors": ["amtl/am-hashtable.h:HashTable::init", "amtl/am-hashtable.h:HashTable::~HashTable"]}
{"id": "C10", "title": "Growth reports overflow instead of exceeding the maximum capacity", "statement": "The table never allocates more than kMaxCapacity entries: an add that would need to do so reports allocation overflow and returns false.", "quantifier": "every entry size and every table size", "why_tests_cant": "Needs gigabyte tables to exercise.", "anchors": ["amtl/am-hashtable.h:HashTable::grow", "amtl/am-hashtable.h:HashTable::changeCapacity", "amtl/am-hashtable.h:HashTable::kMaxCapacity"]}
{"id": "C11", "title": "HashSet behaves as a finite set", "statement": "After any history of add(key), removeIfExists and clear, has(k) is true exactly when k was added after its last removal, adding a present key changes nothing, and elements() is the cardinality.", "quantifier": "every history, hash function and allocation-failure pattern", "why_tests_cant": "Same reasons as the map.", "anchors": ["amtl/am-hashset.h:HashSet::add", "amtl/am-hashset.h:HashSet::has"]}
{"id": "C12", "title": "Answers do not depend on the hash function", "statement": "Two tables with the same matching relation but different hash functions give the same answers to the same operation history.", "quantifier": "every pair of hash functions consistent with matching, every history", "why_tests_cant": "Quantifies over all functions.", "anchors": ["amtl/am-hashtable.h:HashTable::computeHash"]}
{"id": "C13", "title": "HashInt32 is collision free", "statement": "Two different 32-bit integers never have the same HashInt32 value, and (since computeHash multiplies by an odd constant) collide in the table only through the two reserved values.", "quantifier": "all pairs of 32-bit integers", "why_tests_cant": "2^64 pairs.", "anchors": ["amtl/am-hashtable.h:HashInt32", "amtl/am-hashtable.h:HashTable::computeHash"]}
{"id": "C14", "title": "HashInt32 / HashInt64 are defined on every input", "statement": "The integer hashes never execute an operation with undefined behaviour.", "quantifier": "all 32-bit / 64-bit integers", "why_tests_cant": "Undefined overflow is invisible to a test on a typical compiler.", "anchors": ["amtl/am-hashtable.h:HashInt32", "amtl/am-hashtable.h:HashInt64"]}
{"id": "C15", "title": "Streaming hash is independent of chunking", "statement": "Feeding a byte sequence to CharacterStreamHasher in any chunks gives the value HashCharSequence gives for the whole; result() may be read again without changing it.", "quantifier": "every byte sequence and every way of cutting it", "why_tests_cant": "Unbounded inputs.", "anchors": ["amtl/am-hashtable.h:CharacterStreamHasher", "amtl/am-hashtable.h:HashCharSequence"]}
{"id": "C16", "title": "FastHashCharSequence is the sdbm polynomial hash", "statement": "FastHashCharSequence(s,n) is sum of s[i]*65599^(n-1-i) modulo 2^32 (characters sign-extended); so the hash of a concatenation is computable from the hashes of its parts.", "quantifier": "every byte sequence", "why_tests_cant": "Unbounded inputs.", "anchors": ["amtl/am-hashtable.h:FastHashCharSequence"]}
{"id": "C17", "title": "IsPowerOfTwo is exact", "statement": "IsPowerOfTwo(v) is true exactly when v = 2^k for some k.", "quantifier": "all 64-bit values", "why_tests_cant": "2^64 inputs.", "anchors": ["amtl/am-bits.h:IsPowerOfTwo"]}
{"id": "C18", "title": "Align rounds up to the least multiple", "statement": "For a power-of-two alignment, Align(n,a) is the least multiple of a that is >= n whenever that fits in size_t; it is idempotent and monotone; otherwise it wraps to 0.", "quantifier": "all 64-bit n and power-of-two a", "why_tests_cant": "2^64 inputs per alignment.", "anchors": ["amtl/am-bits.h:Align"]}
{"id": "C19", "title": "Log2 is floor of the base-2 logarithm", "statement": "For every nonzero size_t n, Log2(n) = floor(log2 n).", "quantifier": "all nonzero 64-bit values", "why_tests_cant": "2^64 inputs.", "anchors": ["amtl/am-bits.h:Log2"]}
{"id": "C20", "title": "Bit scans find the extreme set bit", "statement": "FindLeftmostBit32/64 return the index of the most significant set bit and FindRightmostBit of the least significant one, for every nonzero argument.", "quantifier": "all nonzero 32/64-bit values", "why_tests_cant": "2^64 inputs.", "anchors": ["amtl/am-bits.h:FindLeftmostBit32", "amtl/am-bits.h:FindLeftmostBit64", "amtl/am-bits.h:FindRightmostBit"]}
{"id": "C21", "title": "IsUintAddSafe accepts only sums that fit", "statement": "If IsUint32AddSafe / IsUint64AddSafe / IsUintPtrAddSafe(a,b) returns true then a+b does not overflow the type.", "quantifier": "all pairs", "why_tests_cant": "2^64 / 2^128 pairs.", "anchors": ["amtl/am-bits.h:IsUintAddSafe"]}
{"id": "C22", "title": "IsUintMultiplySafe accepts only products that fit", "statement": "If IsUint32MultiplySafe / IsUint64MultiplySafe(a,b) returns true then a*b does not overflow the type; if it returns false the product does overflow.", "quantifier": "all pairs", "why_tests_cant": "2^64 / 2^128 pairs.", "anchors": ["amtl/am-bits.h:IsUintMultiplySafe"]}
{"id": "C23", "title": "Pointer tag bits round-trip", "statement": "For a pointer aligned to 2^N and bits < 2^N, GetPointerBits<N>(SetPointerBits(p,bits)) = bits and ClearPointerBits<N>(SetPointerBits(p,bits)) = p; ClearPointerBits always yields an aligned pointer.", "quantifier": "all pointers, N in 0..30, all tag values", "why_tests_cant": "2^64 pointers.", "anchors": ["amtl/am-bits.h:SetPointerBits", "amtl/am-bits.h:GetPointerBits", "amtl/am-bits.h:ClearPointerBits"]}
{"id": "C24", "title": "IsAligned and AlignedBase agree with divisibility", "statement": "For power-of-two a, IsAligned(p,a) iff a divides p, and AlignedBase(p,a) is the greatest multiple of a that is <= p.", "quantifier": "all addresses and power-of-two alignments", "why_tests_cant": "2^64 addresses.", "anchors": ["amtl/am-bits.h:IsAligned", "amtl/am-bits.h:AlignedBase"]}
{"id": "C25", "title": "TryUint32Add / TryUint64Add are exact", "statement": "They return true exactly when the mathematical sum fits, storing it; on false the output is not written.", "quantifier": "all pairs", "why_tests_cant": "2^64 / 2^128 pairs.", "anchors": ["amtl/am-arithmetic.h:TryUint32Add", "amtl/am-arithmetic.h:TryUint64Add"]}
{"id": "C26", "title": "TryUint64Multiply is exact", "statement": "It returns true exactly when the mathematical product fits in 64 bits, storing it; on false the output is not written.", "quantifier": "all pairs", "why_tests_cant": "2^128 pairs.", "anchors": ["amtl/am-arithmetic.h:TryUint64Multiply"]}
{"id": "C27", "title": "SafeStrcpy is bounded and terminates the destination", "statement": "SafeStrcpy(dest,max,src) with max>0 writes only dest[0..max-1], leaves dest holding the longest prefix of src of length <= max-1 followed by NUL, leaves bytes after the NUL untouched, reads src no further than its NUL, and returns the stored length; with max=0 or null dest it writes nothing and returns 0.", "quantifier": "every source string, buffer content and max", "why_tests_cant": "All sizes and contents.", "anchors": ["amtl/am-string.h:SafeStrcpy"]}
{"id": "C28", "title": "SafeStrcat is bounded and terminates the destination", "statement": "SafeStrcat appends the longest prefix of src keeping the total length <= max-1 (nothing if dest is already that long), NUL-terminates, never writes at or past dest[max] beyond the existing terminator, and returns the new length.", "quantifier": "every NUL-terminated destination, source and max", "why_tests_cant": "All sizes and contents.", "anchors": ["amtl/am-string.h:SafeStrcat"]}
{"id": "C29", "title": "SafeStrcpyN copies a bounded prefix and terminates", "statement": "SafeStrcpyN(dest,max,src,n) behaves as SafeStrcpy limited to n characters: dest holds the longest prefix of src with length <= min(max-1,n), NUL-terminated, reading src no further than its NUL.", "quantifier": "every destination, source, max and n", "why_tests_cant": "All sizes and contents.", "anchors": ["amtl/am-string.h:SafeStrcpyN"]}
{"id": "C30", "title": "SafeSprintf never overruns and always terminates", "statement": "SafeVsprintf with max>0 leaves a NUL-terminated string within the buffer, returns a length < max, and when formatting succeeds returns exactly the length of the stored prefix of the formatted text; with max=0 it writes nothing.", "quantifier": "every formatted text, buffer size and vsnprintf outcome allowed by the C standard", "why_tests_cant": "All sizes and outcomes.", "anchors": ["amtl/am-string.h:SafeVsprintf", "amtl/am-string.h:SafeSprintf"]}
{"id": "C31", "title": "Sprintf / StringPrintf return the exact formatted text", "statement": "When formatting succeeds the result is exactly the formatted text (allocated with room for its terminator), whatever its length; when formatting fails Sprintf returns null and StringPrintf the empty string.", "quantifier": "every formatted text and vsnprintf outcome", "why_tests_cant": "All sizes.", "anchors": ["amtl/am-string.h:SprintfArgsImpl", "amtl/am-string.h:StringPrintfVa"]}
{"id": "C32", "title": "Join inverts Split", "statement": "Join(Split(str,sep),sep) == str for every string and every non-empty separator.", "quantifier": "all strings and non-empty separators", "why_tests_cant": "Unbounded inputs incl. overlapping matches.", "anchors": ["amtl/am-string.h:Split", "amtl/am-string.h:Join"]}
{"id": "C33", "title": "Split pieces are the maximal separator-free fields", "statement": "No piece returned by Split contains the separator, each piece ends at the first occurrence of the separator after it starts, the empty string splits to no pieces, and for a one-character separator Split inverts Join on separator-free pieces (except the single empty piece, which joins to the empty string and splits to none).", "quantifier": "all strings and separators", "why_tests_cant": "Unbounded inputs.", "anchors": ["amtl/am-string.h:Split"]}
{"id": "C34", "title": "Join writes exactly its buffer", "statement": "Join returns the pieces concatenated with the separator between consecutive ones; its raw memcpy writes never leave the buffer it sized, and fill it exactly.", "quantifier": "all piece lists and separators (including empty)", "why_tests_cant": "Unbounded inputs; memory safety.", "anchors": ["amtl/am-string.h:Join"]}
{"id": "C35", "title": "StartsWith / EndsWith are prefix and suffix tests", "statement": "StartsWith(a,b) iff b is a prefix of a; EndsWith(a,b) iff b is a suffix of a.", "quantifier": "all C strings / std::strings", "why_tests_cant": "Unbounded inputs.", "anchors": ["amtl/am-string.h:StartsWith", "amtl/am-string.h:EndsWith"]}
{"id": "C36", "title": "Case conversion is length-preserving, idempotent and ASCII-exact", "statement": "Uppercase/Lowercase keep the length, change exactly the ASCII letters of the other case, and are idempotent; Lowercase(Uppercase(s)) = Lowercase(s).", "quantifier": "all strings", "why_tests_cant": "Unbounded inputs.", "anchors": ["amtl/am-string.h:Uppercase", "amtl/am-string.h:Lowercase"]}
{"id": "C37", "title": "path::Format normalises separators only", "statement": "The formatted path is what SafeSprintf would give with every foreign separator replaced by the native one, nothing else changed, bounded and NUL-terminated.", "quantifier": "every formatted text and buffer size", "why_tests_cant": "Unbounded inputs.", "anchors": ["amtl/os/am-path.h:FormatVa"]}
{"id": "C38", "title": "PriorityQueue pops a highest-priority element", "statement": "peek/pop return an element that no queued element outranks.", "quantifier": "every strict weak order, every history of add/emplace/pop", "why_tests_cant": "All histories and orders.", "anchors": ["amtl/am-priority-queue.h:PriorityQueue::pop", "amtl/am-priority-queue.h:PriorityQueue::add"]}
{"id": "C39", "title": "PriorityQueue neither loses nor invents elements", "statement": "At every point the queue holds exactly (as a multiset) the elements added and not yet popped, for any comparison function, even an inconsistent one; all internal indices stay in bounds and every operation terminates.", "quantifier": "every comparison function, every history", "why_tests_cant": "All histories.", "anchors": ["amtl/am-priority-queue.h:propagateUp", "amtl/am-priority-queue.h:propagateDown"]}
{"id": "C40", "title": "Draining a PriorityQueue sorts", "statement": "Popping until empty() yields all remaining elements in non-increasing priority order.", "quantifier": "every strict weak order and content", "why_tests_cant": "Unbounded.", "anchors": ["amtl/am-priority-queue.h:PriorityQueue"]}
{"id": "C41", "title": "InlineList is a sequence", "statement": "After any history of append and remove/erase on any number of lists over a shared set of nodes, forward iteration of each list yields its nodes in append order without the removed ones, reverse iteration yields the reverse, empty() tells whether there are none, and operations on one list do not affect another.", "quantifier": "every legal history over any number of lists and nodes", "why_tests_cant": "All histories of pointer surgery.", "anchors": ["amtl/am-inlinelist.h:InlineList::append", "amtl/am-inlinelist.h:InlineList::remove", "amtl/am-inlinelist.h:InlineList::iterator"]}
{"id": "C42", "title": "InlineList::length is the number of nodes", "statement": "length() equals the number of nodes forward iteration yields after any history of append, remove, erase and removeFromParentList.", "quantifier": "every legal history", "why_tests_cant": "All histories.", "anchors": ["amtl/am-inlinelist.h:InlineList::length", "amtl/am-inlinelist.h:InlineListNode::removeFromParentList"]}
{"id": "C43", "title": "Erasing while iterating is safe", "statement": "In a loop `it = list.erase(it)` over an arbitrary subset of positions (either direction), every node is visited once, exactly the chosen nodes are removed, and the rest keep their order.", "quantifier": "every list and every subset", "why_tests_cant": "2^n subsets.", "anchors": ["amtl/am-inlinelist.h:InlineList::erase"]}
{"id": "C44", "title": "isInList reports membership", "statement": "isInList() is true exactly for nodes that are in some list, so a removed node can be appended again.", "quantifier": "every legal history, debug and release builds", "why_tests_cant": "All histories.", "anchors": ["amtl/am-inlinelist.h:InlineListNode::isInList", "amtl/am-inlinelist.h:InlineList::remove"]}
{"id": "C45", "title": "Reference counts equal outstanding references", "statement": "After any history of RefPtr / AlreadyRefed construction, copy, move, assignment, take/forget and destruction, each live object's count equals the number of handles on it, it is destroyed at the moment the last handle goes away, exactly once, and no handle ever refers to a destroyed object.", "quantifier": "every history over any number of objects and handles", "why_tests_cant": "All aliasing patterns.", "anchors": ["amtl/am-refcounting.h:RefPtr", "amtl/am-refcounting.h:AlreadyRefed", "amtl/am-refcounting.h:Refcounted"]}
{"id": "C46", "title": "RefPtr self-assignment is safe", "statement": "Assigning a RefPtr to itself, or assigning it the raw pointer it already holds, leaves it holding a live object.", "quantifier": "every handle state", "why_tests_cant": "Use-after-free is silent in tests.", "anchors": ["amtl/am-refcounting.h:RefPtr::operator="]}
{"id": "C47", "title": "Threadsafe refcounting destroys exactly once", "statement": "With RefcountedThreadsafe, whatever the interleaving of AddRef/Release by threads that each own a reference, the object is destroyed exactly once, after the last Release, and never touched afterwards.", "quantifier": "every number of threads and every interleaving", "why_tests_cant": "Schedules.", "anchors": ["amtl/am-refcounting-threadsafe.h:RefcountedThreadsafe"]}
{"id": "C48", "title": "VirtualRefcountedThreadsafe destroys its object", "statement": "With VirtualRefcountedThreadsafe the object is destroyed when its last reference is released.", "quantifier": "every history of balanced AddRef/Release", "why_tests_cant": "Leaks are silent.", "anchors": ["amtl/am-refcounting-threadsafe.h:VirtualRefcountedThreadsafe::Release"]}
{"id": "C49", "title": "AtomicRef reads and writes are atomic", "statement": "Concurrent get() and assignment on an AtomicRef never touch a destroyed object: every get() returns an object that was the stored value at some moment during the call, with a reference owned by the caller, and counts stay balanced.", "quantifier": "every number of threads and every interleaving of the individual atomic steps", "why_tests_cant": "Schedules.", "anchors": ["amtl/am-refcounting-threadsafe.h:AtomicRef"]}
{"id": "C50", "title": "SharedLib closes its library exactly once", "statement": "A library opened through SharedLib::Open is closed exactly when the last reference goes away; a failed Open closes nothing, returns null and leaves a NUL-terminated bounded error message.", "quantifier": "every history and dlopen outcome", "why_tests_cant": "All histories.", "anchors": ["amtl/os/am-shared-library.h:SharedLib"]}
{"id": "C51", "title": "Function calls the callable it was last given", "statement": "After any history of construction, assignment, copy, move and clearing of Function objects, calling a non-empty one runs exactly the callable of its most recent source, copies are independent, and a moved-from Function is empty.", "quantifier": "every history over any number of Functions and callables of any size", "why_tests_cant": "All histories and the inline/heap boundary.", "anchors": ["amtl/am-function.h:Function"]}
{"id": "C52", "title": "Function manages callable lifetimes", "statement": "Every stored callable is destroyed exactly once, and none is used after destruction, for every such history; inline storage is used exactly when the holder fits three words.", "quantifier": "every history", "why_tests_cant": "Leaks/double destroy depend on storage kinds.", "anchors": ["amtl/am-function.h:Function::destroy", "amtl/am-function.h:Function::move"]}
{"id": "C53", "title": "Copying an empty Function gives an empty Function", "statement": "Copy-constructing or copy-assigning from an empty Function (const or not) yields an empty Function.", "quantifier": "every Function", "why_tests_cant": "Overload resolution picks a different path for non-const sources.", "anchors": ["amtl/am-function.h:Function::Function", "amtl/am-function.h:Function::assign"]}
{"id": "C54", "title": "Function self-assignment is safe", "statement": "f = f and f = std::move(f) leave f usable.", "quantifier": "every Function state", "why_tests_cant": "UB silent.", "anchors": ["amtl/am-function.h:Function::operator="]}
{"id": "C55", "title": "Maybe has value semantics", "statement": "After any history of init, copy, move and assignment between distinct Maybes, isValid()/get() report the most recently stored value; copies are independent; a moved-from Maybe is Nothing.", "quantifier": "every history over any number of Maybes", "why_tests_cant": "All histories.", "anchors": ["amtl/am-maybe.h:Maybe"]}
{"id": "C56", "title": "Maybe destroys what it holds", "statement": "Every value ever constructed inside a Maybe is destroyed exactly once by the time the Maybe is destroyed.", "quantifier": "every history", "why_tests_cant": "Leaks are silent.", "anchors": ["amtl/am-maybe.h:Maybe::operator=", "amtl/am-maybe.h:Maybe::moveFrom"]}
{"id": "C57", "title": "Maybe self-assignment keeps the value", "statement": "m = m leaves m unchanged.", "quantifier": "every Maybe", "why_tests_cant": "Rarely tested.", "anchors": ["amtl/am-maybe.h:Maybe::operator="]}
{"id": "C58", "title": "FixedArray has value semantics and balanced lifetimes", "statement": "After any history of construction, copy, move and assignment between distinct arrays, size() and at(i) report the source's contents, every element is destroyed exactly once and every buffer freed exactly once.", "quantifier": "every history, size and element type", "why_tests_cant": "All histories.", "anchors": ["amtl/am-fixedarray.h:FixedArray"]}
{"id": "C59", "title": "FixedArray allocation is large enough", "statement": "Constructing FixedArray(n) either fails or yields a buffer of at least n*sizeof(T) bytes; a failed allocation is detectable with initialize() and the array still destructible.", "quantifier": "every n and sizeof(T)", "why_tests_cant": "Needs n*sizeof(T) >= 2^64 or failure injection.", "anchors": ["amtl/am-fixedarray.h:FixedArray::allocate", "amtl/am-fixedarray.h:FixedArray::initialize"]}
{"id": "C60", "title": "FixedArray equality is elementwise", "statement": "a == b iff sizes and all elements are equal; != is its negation.", "quantifier": "every pair", "why_tests_cant": "Unbounded.", "anchors": ["amtl/am-fixedarray.h:FixedArray::operator=="]}
{"id": "C61", "title": "SaveAndSet restores on scope exit", "statement": "However SaveAndSet guards and other writes nest, when a scope ends every guarded location has the value it had when the guard was created.", "quantifier": "every nesting of guarded scopes", "why_tests_cant": "Unbounded nesting.", "anchors": ["amtl/am-raii.h:SaveAndSet"]}
{"id": "C62", "title": "StackLinked forms the stack of live frames", "statement": "At every moment the head pointer and prev chain enumerate exactly the live StackLinked objects, innermost first.", "quantifier": "every properly nested history", "why_tests_cant": "Unbounded nesting.", "anchors": ["amtl/am-raii.h:StackLinked"]}
{"id": "C63", "title": "ScopeGuard fires exactly once unless cancelled", "statement": "However guards are moved and cancelled, a callback is invoked exactly once - at destruction of the guard that ends up owning it - or never if that guard was cancelled.", "quantifier": "every history of create/move/cancel/destroy", "why_tests_cant": "All histories.", "anchors": ["amtl/am-raii.h:ScopeGuard"]}
{"id": "C64", "title": "Flags operators are set operations", "statement": "+,| are union, - difference, & intersection, ^ symmetric difference on bit sets; compound forms agree; bool tests non-emptiness.", "quantifier": "every pair of flag values of every width", "why_tests_cant": "2^64 values.", "anchors": ["amtl/am-flags.h:Flags", "amtl/am-enum.h:KE_DEFINE_ENUM_OPERATORS"]}
{"id": "C65", "title": "Vector and deque helpers", "statement": "MoveExtend appends all of src to dest and leaves src empty; PopBack/PopFront return and remove the end element; InsertAt/RemoveAt/EraseIf insert, delete and filter preserving order.", "quantifier": "every vector content and in-range position", "why_tests_cant": "Unbounded.", "anchors": ["amtl/am-vector.h:MoveExtend", "amtl/am-vector.h:EraseIf", "amtl/am-deque.h:PopFront"]}
{"id": "C66", "title": "ThreadLocal isolates threads", "statement": "get() in a thread returns the value that thread last set (or the default), regardless of other threads.", "quantifier": "every number of threads and every interleaving", "why_tests_cant": "Schedules.", "anchors": ["amtl/am-threadlocal.h:ThreadLocal::get", "amtl/am-threadlocal.h:ThreadLocal::set", "amtl/am-threadlocal.h:ThreadLocal::allocate"]}
{"id": "C67", "title": "ThreadLocal allocation failure is detectable", "statement": "After allocate() has failed, the object does not pretend to be allocated: a retry reports failure again unless storage was obtained.", "quantifier": "every sequence of allocation outcomes", "why_tests_cant": "Needs key exhaustion.", "anchors": ["amtl/am-threadlocal.h:ThreadLocal::allocate"]}
{"id": "C68", "title": "Mutex ownership assertion is exact", "statement": "In debug builds AssertCurrentThreadOwns succeeds exactly when the calling thread holds the mutex.", "quantifier": "every interleaving of lock/try_lock/unlock", "why_tests_cant": "Schedules.", "anchors": ["amtl/am-mutex.h:Mutex"]}
{"id": "C69", "title": "TimespecToDuration is exact", "statement": "TimespecToDuration({s,n}) is s*10^9+n nanoseconds, and never overflows.", "quantifier": "all 64-bit s, n", "why_tests_cant": "2^128 inputs.", "anchors": ["amtl/am-time.h:TimespecToDuration"]}
{"id": "C70", "title": "IsInfinite recognises exactly the infinities", "statement": "IsInfinite(v) is true iff v is +Infinity or -Infinity.", "quantifier": "all float and double bit patterns", "why_tests_cant": "2^64 patterns.", "anchors": ["amtl/am-float.h:IsInfinite"]}
{"id": "C71", "title": "Parser never dereferences a null option or value", "statement": "parse never crashes: for every argument list it returns true or false.", "quantifier": "every option set, flag setting and argument list", "why_tests_cant": "Unbounded inputs.", "anchors": ["amtl/experimental/am-argparser.h:Parser::parse_impl"]}
{"id": "C72", "title": "Parser rejects unknown options, duplicates, surplus and missing arguments", "statement": "parse returns true only if every argument was an accepted option, option value, positional value, collected extra or passthrough argument, no single-valued option occurred twice, and (unless a stop option ended the parse) every positional got a value; otherwise it returns false with an error message.", "quantifier": "every option set and argument list", "why_tests_cant": "Unbounded inputs.", "anchors": ["amtl/experimental/am-argparser.h:Parser::parse_impl"]}
{"id": "C73", "title": "Positional arguments are assigned in order", "statement": "The n-th argument that is neither an option nor an option's value is given to the n-th positional, later ones become extra arguments in order.", "quantifier": "every argument list", "why_tests_cant": "Unbounded inputs.", "anchors": ["amtl/experimental/am-argparser.h:Parser::parse_impl"]}
{"id": "C74", "title": "Passthrough arguments are preserved verbatim", "statement": "With passthrough enabled, everything after the first -- that is not itself -- goes, in order and unchanged, to passthrough_args() and nothing after it is interpreted as an option.", "quantifier": "every argument list", "why_tests_cant": "Unbounded inputs.", "anchors": ["amtl/experimental/am-argparser.h:Parser::parse_impl"]}
{"id": "C75", "title": "Option value syntax is equivalent", "statement": "For a value option with no inline values, `--key=val` and `--key val` (and `-k=val`, `-k val`) have the same effect for every non-empty value; repeated options collect all values in order.", "quantifier": "every value string", "why_tests_cant": "Unbounded inputs.", "anchors": ["amtl/experimental/am-argparser.h:Parser::parse_impl", "amtl/experimental/am-argparser.h:RepeatOption"]}
{"id": "C76", "title": "Enable options obey --x / --no-x", "statement": "--x sets an enable option true, --no-x sets it false, absent leaves the default; with a value they are rejected.", "quantifier": "every option set and argument list", "why_tests_cant": "Unbounded inputs.", "anchors": ["amtl/experimental/am-argparser.h:EnableOption", "amtl/experimental/am-argparser.h:Parser::parse_impl"]}
{"id": "C77", "title": "A boolean option given without a value is true", "statement": "An Option<bool> that occurs on an accepted command line has a value, which is true unless an explicit false was given.", "quantifier": "every argument list", "why_tests_cant": "Depends on the following argument.", "anchors": ["amtl/experimental/am-argparser.h:ValuePolicy<bool>", "amtl/experimental/am-argparser.h:Parser::parse_impl"]}
{"id": "C78", "title": "Integer options hold the number given", "statement": "An IntOption accepted with text t has exactly the value t denotes; texts that do not denote an int are rejected.", "quantifier": "every value string", "why_tests_cant": "Unbounded inputs.", "anchors": ["amtl/experimental/am-argparser.h:ValuePolicy<int>"]}
{"id": "C79", "title": "reset() makes the parser as new", "statement": "After reset(), parsing behaves as it would on a freshly built parser.", "quantifier": "every pair of successive argument lists", "why_tests_cant": "Unbounded inputs.", "anchors": ["amtl/experimental/am-argparser.h:Parser::reset"]}
{"id": "C80", "title": "usage() prints every option with all of its help", "statement": "After a failed parse without a request for help usage() prints only the call line and the error. Otherwise it prints the program help, the call line and then, in order, every positional, option and extra line: its forms in the left column, and its help text cut at blanks into lines that fit the right column (unless a line is a single word), each as full as possible, so that the lines joined with blanks are exactly the help text.", "quantifier": "every option set, help text, error and command line", "why_tests_cant": "Unbounded inputs.", "anchors": ["amtl/experimental/am-argparser.h:Parser::usage"]}
{"id": "C81", "title": "TextRewriter applies its edits and nothing else", "statement": "emit() returns the source with exactly the requested non-overlapping replacements, removals and insertions applied.", "quantifier": "every text and non-overlapping edit list", "why_tests_cant": "Unbounded inputs.", "anchors": ["tools/restyler/amstyler.cpp:TextRewriter::emit"]}
{"id": "C82", "title": "HashCombine is a bijection of the accumulated hash", "statement": "For a fixed second argument, HashCombine(a,s) = HashCombine(b,s) only if a = b, so folding further values into a hash never merges two different accumulated hashes.", "quantifier": "all pairs of accumulated hashes and every second value (2^96 combinations)", "why_tests_cant": "the domain cannot be enumerated", "anchors": ["amtl/am-hashtable.h: HashCombine"]}
{"id": "C83", "title": "HashInt64 is balanced", "statement": "Under wrap-around arithmetic no 32-bit value is the HashInt64 of more than 2^32 keys: the 2^64 keys are spread perfectly evenly.", "quantifier": "all sets of 64-bit keys", "why_tests_cant": "needs a statement about all 2^64 keys", "anchors": ["amtl/am-hashtable.h: HashInt64, HashPointer"]}
{"id": "C84", "title": "Maybe::init accepts a reference to its own value", "statement": "m.init(m.get()) leaves m holding the same value.", "quantifier": "every Maybe that holds a value", "why_tests_cant": "UB is silent for trivial types.", "anchors": ["amtl/am-maybe.h:Maybe::init"]}
{"id": "C85", "title": "FixedArray self-assignment keeps the contents", "statement": "a = a and a = std::move(a) on a FixedArray leave it holding the elements it held and leak nothing.", "quantifier": "every array content", "why_tests_cant": "All contents and histories.", "anchors": ["amtl/am-fixedarray.h:FixedArray::operator="]}
{"id": "C86", "title": "FloatModulo's documented special cases", "statement": "FloatModulo(x,y) is NaN when x or y is NaN, x is infinite or y is zero; it is x when x is finite and y is infinite, and it is x (sign included) when x is zero and y is neither zero nor NaN.", "quantifier": "all pairs of float bit patterns, every fmod meeting the platform's contract", "why_tests_cant": "2^64 pairs and every platform fmod.", "anchors": ["amtl/am-float.h:FloatModulo"]}
{"id": "C87", "title": "TimespecToTimePoint truncates to the clock's tick", "statement": "TimespecToTimePoint(ts) lies within one clock tick of the time ts names, on the side of the epoch, and is exactly that time when it is a whole number of ticks.", "quantifier": "every timespec whose nanosecond count is representable and every tick length", "why_tests_cant": "unbounded ticks and 2^128 inputs", "anchors": ["amtl/am-time.h:TimespecToTimePoint"]}
{"id": "C88", "title": "Every proper command line is accepted with exactly its effect", "statement": "A command line whose options are spelled by forms no other option has, whose values are attached with = or follow in the next argument and are of the option type (integers in int range), whose valueless boolean option stands last, whose positionals are all there in order followed by extras where those are collected and by a -- tail where that is enabled, is accepted by parse() with no error message, and every option, positional, extra and passthrough list then holds exactly what the line says.", "quantifier": "every option set the header can build and every command line of the grammar, of any length", "why_tests_cant": "infinitely many option sets and command lines", "anchors": ["amtl/experimental/am-argparser.h: Parser::parse, Parser::parse_impl, consumeValue"]}
{"id": "C89", "title": "A stop option ends the parse at once", "statement": "When a stop option follows a proper (possibly incomplete) command line, parse() ends there whatever follows and whether or not the positionals were given: it returns false without an error message for the built-in help option and true for any other, everything before has had its effect and nothing after has one.", "quantifier": "every option set, every prefix of the grammar, every rest of the line", "why_tests_cant": "infinitely many prefixes and rests", "anchors": ["amtl/experimental/am-argparser.h: StopOption, Parser::parse_impl"]}
{"id": "C90", "title": "Declarations register exactly the options they spell", "statement": "An option constructor accepts a short form with or without its dash and a long form with or without its two dashes, and yields that option with the given default (toggles: false if none); malformed declarations (no form and no name, an empty form, a form with further dashes) stop with an assertion failure. A parser knows exactly the declared options: -h/--help first if made with a help text, then the static options, then its own in order; the switches are on iff turned on.", "quantifier": "every sequence of declarations and switch calls", "why_tests_cant": "infinitely many declaration sequences and form texts", "anchors": ["amtl/experimental/am-argparser.h: IOption::IOption, Option, EnableOption, ToggleOption, StopOption, RepeatOption, Parser::Parser, Parser::add, Parser::add_static_option"]}
{"id": "C91", "title": "Options report the value given, else their default", "statement": "After an accepted command line hasValue(), value() and maybeValue() of every single-valued option report the value the line gives it, or the declared default if it gives none (value() with neither is an assertion failure); before any parse and after reset() they report the default and repeated options are empty.", "quantifier": "every option set, every accepted command line, every state before reset", "why_tests_cant": "infinitely many command lines and histories", "anchors": ["amtl/experimental/am-argparser.h: Option::hasValue, Option::value, Option::maybeValue, EnableOption::value, ToggleOption::value, Parser::reset"]}
{"id": "C92", "title": "The destructor of a thread-safe counted object runs after everything else", "statement": "When the last Release() of an object derived from RefcountedThreadsafe destroys it, every earlier access, AddRef and Release of that object by any thread happens before (in the C++ memory model) the destruction, so no thread's access races with the destructor; and no operation on the object follows it.", "quantifier": "all numbers of threads, all interleavings of AddRef, Release, accesses and hand-overs by threads that own references", "why_tests_cant": "a race shows only under particular schedules on weakly ordered hardware; a test run on one machine cannot show its absence", "anchors": ["amtl/am-refcounting-threadsafe.h: RefcountedThreadsafe::AddRef, Release"]}
{"id": "C93", "title": "Objects shared through AtomicRef are constructed and destroyed without races", "statement": "Construction and destruction of an object whose references are stored in and obtained from an AtomicRef are ordered by happens-before with every access, AddRef and Release any thread makes on that address, also when later objects reuse the address. The ordering is provided by the reference count.", "quantifier": "all numbers of threads, all interleavings of get, assignment, construction and destruction of the AtomicRef, AddRef, Release, accesses, hand-overs, and reuse of addresses", "why_tests_cant": "depends on memory ordering and on ABA schedules that tests do not produce on demand", "anchors": ["amtl/am-refcounting-threadsafe.h: AtomicRef::get, operator=, lock, unlock; RefcountedThreadsafe"]}
{"id": "C94", "title": "File queries report exactly what the path leads to", "statement": "For every file system and path: PathExists(p) is true exactly if p, after following symbolic links, leads to a file; IsFile(p) exactly if that file is a regular file; IsDirectory(p) exactly if it is a directory; no path is both. On Windows the answers depend only on whether the system knows the path and on its directory and device attributes. CreateDirectory returns true exactly if it made the directory, which then is one; otherwise nothing changed.", "quantifier": "every file system state (any graph of names, links, files and permission bits), path, attribute word and answer of the system call", "why_tests_cant": "the file system graph, its links and the attribute words are unbounded; a test checks a few paths on one machine", "anchors": ["amtl/os/am-fsutil-posix.h: file::PathExists, file::IsFile, file::IsDirectory, file::CreateDirectory", "amtl/os/am-fsutil-windows.h: the same"]}
{"id": "C95", "title": "A system error code is always rendered as a terminated message inside the buffer", "statement": "FormatSystemErrorCode(code, buffer, maxlength) writes at most maxlength bytes of the buffer and, whenever maxlength > 0, leaves a terminated string there: the system's text for the code, cut to fit, or on Windows, where the system has none, 'error code' and the code in eight hexadecimal digits. With maxlength 0 nothing is written.", "quantifier": "every error code, buffer size and text the operating system can return, with the variants of strerror_r and FormatMessage", "why_tests_cant": "the behaviour depends on the text the system returns, its length against the buffer, and the platform's strerror_r variant", "anchors": ["amtl/os/am-system-errors.h: FormatSystemErrorCode, FormatSystemError"]}
{"id": "C96", "title": "Flag operators on ordinary enumerations and comparisons of enumerators with integers are exact", "statement": "On every enumeration that opts into the operators, also one without a fixed underlying type, |, &, ^ and ~ are defined for all its values and are the set operations on the bits; an enumerator compared with an integer of any type is equal to it exactly if the two values are equal, in both orders, and != is the opposite.", "quantifier": "every enumeration range, signedness, width, pair of values and integer type", "why_tests_cant": "the claim is over all pairs of values of all enumeration and integer widths; a test compares a few enumerators", "anchors": ["amtl/am-enum.h: KE_DEFINE_ENUM_OPERATORS, KE_DEFINE_ENUM_COMPARATORS"]}
{"id": "C97", "title": "Client objects are constructed at suitably aligned addresses inside the storage reserved for them", "statement": "For every type T: wherever the platform places a Maybe<T>, a Function holding a callable T inline, the table of a HashTable<T> or the buffer of a FixedArray<T>, the T (and the holder around a callable) is constructed at an address that is a multiple of its alignment, with all its bytes inside that storage, overlapping neither the container's own members nor another object.", "quantifier": "every platform layout (pointer size, member alignment of double and uint64_t, malloc alignment), every size and alignment of T, every address and index", "why_tests_cant": "misalignment and overlap depend on the type's alignment and on where the object happens to be placed; it may go unnoticed on x86", "anchors": ["amtl/am-storagebuffer.h: StorageBuffer::address", "amtl/am-maybe.h: Maybe", "amtl/am-function.h: Function::assign, inline_buffer", "amtl/am-hashtable.h: HashTableEntry, createTable", "amtl/am-fixedarray.h: allocate"]}
{"id": "C98", "title": "NewThread runs the function once, in a thread of the requested name, on copies of what it was given", "statement": "For every NewThread(name, f, args...): the new thread first gets the requested name, then calls f exactly once with the arguments that were given by value as they were at the call of NewThread and with std::ref arguments as they are at the time, whatever the caller does to the name and argument buffers after NewThread returns and however threads are scheduled. SetThreadName gives the thread the name requested and leaves nothing behind.", "quantifier": "all numbers of threads, all interleavings of thread steps with writes and frees by the client, all names and argument values, Linux, macOS and Windows", "why_tests_cant": "lifetime bugs (a thread reading the caller's buffer) and name limits show only under particular schedules and names", "anchors": ["amtl/am-thread.h: NewThread, SetThreadName, impl::SetThreadName"]}
{"id": "C99", "title": "Bit scans are portable", "statement": "On every compiler and data model the header has code for (GCC/Clang LP64, ILP32, LLP64; MSVC x86/ARM, x64, ARM64), Log2, FindLeftmostBit32, FindLeftmostBit64 and FindRightmostBit return the position of the extreme set bit for every nonzero argument of their parameter type.", "quantifier": "all targets, all nonzero arguments", "why_tests_cant": "tests run on one target with a few arguments; 2^64 arguments, six targets", "anchors": ["amtl/am-bits.h: Log2, FindLeftmostBit32, FindLeftmostBit64, FindRightmostBit"]}
{"id": "C100", "title": "Overflow checks on every target", "statement": "On every target IsUint32/64AddSafe and IsUint32/64MultiplySafe accept only arguments whose sum or product fits in the type, and reject only those whose sum or product does not.", "quantifier": "all targets, both widths, all pairs of arguments", "why_tests_cant": "2^128 pairs per width and six targets", "anchors": ["amtl/am-bits.h: IsUintAddSafe, IsUintMultiplySafe"]}
{"id": "C101", "title": "ThreadLocal gives its key back", "statement": "When all calls have returned and a ThreadLocal is destroyed, exactly the thread-specific keys it obtained from the system are given back, and at most one was ever requested, however many threads used it at once.", "quantifier": "all interleavings of any number of threads, all answers of the system", "why_tests_cant": "depends on the schedule and on the system refusing a key", "anchors": ["amtl/am-threadlocal.h: ~ThreadLocal, allocate, set"]}
{"id": "C102", "title": "ThreadLocal values survive storage", "statement": "A value of any integer type no wider than a pointer is returned as it was set, an unset one reads as T(); in single-threaded builds get returns what was last set and allocate never fails.", "quantifier": "all values, all widths of type and pointer, signed and unsigned; all call sequences (single-threaded build)", "why_tests_cant": "2^64 values; all sequences", "anchors": ["amtl/am-threadlocal.h: internalGet, internalSet, KE_SINGLE_THREADED branch", "amtl/am-utility.h: cast_to_pointer"]}
{"id": "C103", "title": "printf helpers behave the same with MSVC", "statement": "SafeSprintf/SafeVsprintf, Sprintf and StringPrintf built with MSVC (where _vsnprintf leaves a text that does not fit unterminated and reports a negative length) leave the same bytes in the buffer and return the same length as on other platforms, and SafeSprintf always terminates inside its bounds", "quantifier": "every text, every library error, every buffer and every maximum length", "why_tests_cant": "no test runs on both libraries with every length around the limit", "anchors": ["amtl/am-string.h: SafeVsprintf, SafeSprintf, SprintfArgsImpl, KE_VSNPRINTF"]}
{"id": "C104", "title": "A copy of a reference-counted object has its own count", "statement": "After p = new T(*q), or *p = *q, for a class T derived from Refcounted or VirtualRefcounted, the object of p is destroyed when its last handle goes away, and no earlier.", "quantifier": "every history of handle operations and copies, over any number of objects with member handles", "why_tests_cant": "leaks and premature deletes are silent; needs all histories", "anchors": ["amtl/am-refcounting.h: Refcounted, VirtualRefcounted, RefPtr"]}
{"id": "C105", "title": "Copies of InlineList nodes and lists", "statement": "A copy of an object derived from InlineListNode is in no list and can be appended to one; the copy of an InlineList can be traversed and shows the nodes of the original; neither disturbs other lists.", "quantifier": "every legal history of any number of lists and nodes, every copied node and list, both builds", "why_tests_cant": "pointer aliasing is silent until a particular later operation", "anchors": ["amtl/am-inlinelist.h: InlineListNode, InlineList"]}
{"id": "C106", "title": "A library stays loaded exactly as long as somebody holds it", "statement": "In every history of SharedLib - objects made by Open, SharedLib(path), SharedLib(handle) or SharedLib(), handles to them copied, moved, reassigned and dropped, with the client opening and closing libraries itself - the number of opens of each library not yet closed equals the number of SharedLib objects for it that still have a handle plus the opens the client kept; hence lookup() and get() through a handle on a valid library always find the library loaded and return exactly what it defines for the symbol, and nothing stays loaded when all handles are gone. A library object that is not valid finds no symbol. Copying an object keeps the library loaded.", "quantifier": "all histories of constructors, Open, handle operations and client opens/closes, all outcomes of dlopen, all symbol tables", "why_tests_cant": "Double or missing dlclose shows only when the last reference in the process goes away; a test process usually holds another one, and dlsym on a null handle answers with a symbol that is often the right one.", "anchors": ["amtl/os/am-shared-library.h: SharedLib::SharedLib, SharedLib::~SharedLib, SharedLib::Open, SharedLib::lookup, SharedLib::get, SharedLib::valid", "amtl/am-refcounting.h: RefPtr"]}
{"id": "C107", "title": "A scope guard runs the callable it was given", "statement": "A guard made with MakeScopeGuard from a temporary, a moved variable or a variable runs, when destroyed uncancelled, exactly the callable as it was when the guard was made, whatever the program does in between without touching the guard.", "quantifier": "all histories of variables (declared, assigned, moved from, ended) and guards (created, moved, cancelled, destroyed)", "why_tests_cant": "Whether a guard holds a copy or a reference shows only if the variable changes or dies first.", "anchors": ["amtl/am-raii.h: MakeScopeGuard, ScopeGuard"]}
{"id": "C108", "title": "SaveAndSet objects that are copied or not nested, and ReturnAndVoid", "statement": "Whatever happens between construction and destruction of a SaveAndSet - including other guards on the same location that overlap it without nesting - its destructor puts back the value the location had at construction and changes nothing else; a copy of a guard restores the value of the time of the copy; when all guards are gone the location has its original value. ReturnAndVoid returns the old value and leaves T().", "quantifier": "all histories of construction, copy, destruction and writes", "why_tests_cant": "Overlap patterns are unbounded.", "anchors": ["amtl/am-raii.h: SaveAndSet, ReturnAndVoid"]}
{"id": "C109", "title": "Hash containers use the allocation policy they were given", "statement": "A HashTable, HashMap or HashSet asks for memory from the policy passed to its constructor, gives memory back to the policy it came from, also after growth and after being moved, and HashTable::allocPolicy() is that policy.", "quantifier": "every history of construction, growth, moves, policy changes (of HashTables that hold no memory) and destruction of any number of containers, for every policy type with or without state", "why_tests_cant": "a wrong arena is visible only to a stateful policy, and only in some histories of moves and growth", "anchors": ["amtl/am-hashtable.h:HashTable::HashTable", "amtl/am-hashtable.h:HashTable::allocPolicy", "amtl/am-hashtable.h:changeCapacity", "amtl/am-hashmap.h:HashMap::HashMap", "amtl/am-hashset.h:HashSet::HashSet"]}
{"id": "C110", "title": "allocPolicy() of a HashMap or HashSet is the policy it uses", "statement": "HashMap::allocPolicy() and HashSet::allocPolicy() give the policy passed to the constructor, and what is stored there is used for later requests.", "quantifier": "every history of containers and policy changes", "why_tests_cant": "with the stateless default policy the difference cannot be seen", "anchors": ["amtl/am-hashmap.h:HashMap::allocPolicy", "amtl/am-hashset.h:HashSet::allocPolicy"]}
{"id": "C111", "title": "FixedArray uses the allocation policy it was given", "statement": "A FixedArray asks for memory from the policy passed to its constructor and gives memory back to the policy it came from, also after copies and moves.", "quantifier": "every history of construction, copies, moves and destruction of any number of arrays", "why_tests_cant": "with the stateless default policy the difference cannot be seen", "anchors": ["amtl/am-fixedarray.h:FixedArray::FixedArray", "amtl/am-fixedarray.h:allocate", "amtl/am-fixedarray.h:deallocate"]}
{"id": "C112", "title": "add(i) and setting the payload afterwards is add(i, payload)", "statement": "Calling add(i) (which default-constructs the entry) and then assigning key and value through the Insert object gives the same answers and the same table as add(i, payload), whatever the default-constructed payload is; histories that mix both forms behave as a finite map.", "quantifier": "every history of operations, every hash and match policy, every default payload", "why_tests_cant": "the default payload's key can collide with anything, and growth can happen at any add", "anchors": ["amtl/am-hashtable.h:HashTable::add", "amtl/am-hashmap.h:HashMap::add", "amtl/am-hashset.h:HashSet::add"]}
{"id": "C113", "title": "Arguments of add may refer into the container", "statement": "Adding a payload constructed from a reference to (a part of) an entry of the same container has the same effect as adding a copy of it made before the call.", "quantifier": "every reached table, every source entry, every key added, and every outcome of allocation", "why_tests_cant": "the reference dangles only if this very call changes the capacity", "anchors": ["amtl/am-hashtable.h:HashTable::add", "amtl/am-hashtable.h:internalAdd", "amtl/am-hashtable.h:changeCapacity", "amtl/am-hashmap.h:HashMap::add"]}
{"id": "C114", "title": "A failed add leaves its arguments alone", "statement": "When add returns false, key and value passed as rvalues have not been moved from: an arbitrary number of retries stores what was meant to be stored.", "quantifier": "every table, every sequence of allocation failures, every payload type", "why_tests_cant": "needs allocation failures in the middle of histories", "anchors": ["amtl/am-hashtable.h:HashTable::add", "amtl/am-hashmap.h:HashMap::add"]}
{"id": "C115", "title": "SafeStrcpy, SafeStrcat and SafeStrcpyN inside one buffer", "statement": "When source and destination lie in one buffer, each function leaves at the destination the text that was at the source (or appends it), cut to the given size and NUL-terminated, and changes no other byte; in particular appending a string to itself doubles it. It holds when the destination is below the source or past its end; when it lies inside the source text the bytes in between are repeated until the buffer is full. Whatever the overlap, no byte outside the given size is written and the result is terminated.", "quantifier": "every buffer content, every pair of offsets and every size that fits the buffer", "why_tests_cant": "Which bytes come out depends on the distance between the two pointers, the length of the source and the room left; a test fixes all three.", "anchors": ["amtl/am-string.h: SafeStrcpy, SafeStrcat, SafeStrcpyN"]}
{"id": "C116", "title": "ThreadLocal objects do not disturb one another", "statement": "With any number of ThreadLocal objects constructed, used by any threads and destroyed, and other code using the system's thread-local slots, as long as no more slots are needed at once than the system has: every get returns what its thread last set in that very object since it was constructed, or T(), also when the system hands out a key that another object had before; other code keeps its values; each object takes one slot, at its first set or allocate, and gives it back when destroyed; when all slots are taken, the first set of another object aborts and allocate returns false, and not before.", "quantifier": "every history of non-overlapping calls over any number of objects, threads and other users of slots, every number of slots and every way the system chooses keys", "why_tests_cant": "Which object gets whose old key depends on the history and the system; no finite set of tests covers reuse patterns.", "anchors": ["amtl/am-threadlocal.h: ThreadLocal::allocate, ThreadLocal::get, ThreadLocal::set, ThreadLocal::~ThreadLocal"]}
{"id": "C117", "title": "PriorityQueue: moved-from queues are empty queues", "statement": "After PriorityQueue q(std::move(p)), q holds exactly the items p held and goes on dequeuing by p's order, p is empty and can be filled and used again with its order, and no queue is affected by calls on another.", "quantifier": "every item type, every comparator type (with any call operator and move constructor) implementing a strict weak order, every number of queues, every program of constructions, moves, destructions and calls that never pops or peeks an empty queue", "why_tests_cant": "whether the moved-from comparator still works depends on the comparator type and on which calls follow the move", "anchors": ["amtl/am-priority-queue.h: PriorityQueue(PriorityQueue&&), add, emplace, pop"]}
{"id": "C118", "title": "PriorityQueue: logarithmic number of comparisons", "statement": "add/emplace on a queue of k items calls the comparator at most floor(log2(k+1)) times and pop at most 2 floor(log2(k-1)) times, whatever it answers; m calls on a new queue call it at most 2 m floor(log2 m) times in total.", "quantifier": "every item type, every comparator (stateful, inconsistent or not an order), every queue, every history", "why_tests_cant": "complexity is a bound over all sizes and all answers of the comparator; a test counts the calls of one run", "anchors": ["amtl/am-priority-queue.h: add, emplace, pop, propagateUp, propagateDown"]}
{"id": "C119", "title": "Hash containers resize at constant amortised cost", "statement": "Over any history, resizing moves each container's payloads so rarely that at most six payloads are constructed, and at most twenty-four table entries read or written by resizing, for every payload that was added.", "quantifier": "every payload type and lawful policy, every hash function, every initial capacity, every history of finds, adds, removals, walks, clears, moves and explicit density checks, every pattern of allocation failures", "why_tests_cant": "amortised cost is a bound over all histories; adversarial mixes of adds and removals around the thresholds are what a test does not try", "anchors": ["amtl/am-hashtable.h: changeCapacity, grow, shrink, checkDensity, underloaded, overloaded, internalAdd"]}
{"id": "C120", "title": "References into hash containers stay valid until the table is resized", "statement": "A payload stays at its address as long as its key is not removed and the table allocates no new array; only add of a new key and checkDensity can allocate, only when the table is more than 3/4 or less than 1/4 full; after init(cap) no allocation happens until 3/4 of cap payloads were added.", "quantifier": "every reachable table, every payload in it, every continuation", "why_tests_cant": "that no operation ever moves a payload is a statement about all operations in all states, including collisions and reuse of removed entries", "anchors": ["amtl/am-hashtable.h: find, findForAdd, add, remove, removeIfExists, clear, checkDensity, iterator::erase"]}
{"id": "C121", "title": "Which questions a hash container asks its policy", "statement": "A lookup (find, findForAdd, removeIfExists) calls the policy's hash exactly once, and then matches only with payloads currently stored, only with those whose key hashes like the key looked up (equal hashes, or one of two fixed pairs of hash values that the reserved marks make indistinguishable), with each at most once, and never again after a yes; if the key is stored it is asked about it. Adding, removing through a result, resizing, clearing, iterating and moving call neither. With an injective hash a lookup asks at most two questions, at most one outside four hash values. A policy object with a state (counters, caches) sees these calls and no others, and does not change the results.", "quantifier": "every history, every operation after it, every policy, every policy object with state giving that policy's answers", "why_tests_cant": "the calls depend on where collisions, removed entries and wrap-around put the entries; that no question is repeated or asked about a dead or foreign payload must hold for every layout", "anchors": ["amtl/am-hashtable.h: computeHash, lookup, lookupForAdd, find, findForAdd, removeIfExists, changeCapacity, internalAdd"]}
{"id": "C122", "title": "Several argument parsers in one program do not disturb each other", "statement": "In a program with any number of Parser objects and option objects, constructed, used and destroyed in any order that C++ allows, each parser answers as if it were the only one: what it parses, what its options hold and what it reports depend on its own calls only. parse and reset on one parser do not change options that are not registered with it; after reset every option registered with the parser is unset, whoever set it; a single option with a form that has a value keeps it through every parse of every parser; no call touches an option object or parser that no longer exists.", "quantifier": "every program of declarations, static declarations, switches, parses, resets, reads and destructions, over any set of parsers and options", "why_tests_cant": "interference needs particular interleavings of several parsers' constructions, parses and destructions; that none of them matters is a statement about all programs", "anchors": ["amtl/experimental/am-argparser.h: Parser::Parser, Parser::add, Parser::add_static_option, Parser::parse_impl, Parser::reset", "amtl/experimental/am-argparser.cpp: sStaticOptions"]}
{"id": "C123", "title": "Destructors of reference-counted objects may use handles themselves", "statement": "The destructor of an object runs in the middle of the operation that removed its last handle, and may itself create, copy, move, assign and destroy RefPtr handles (of other objects and of its own members), starting further destructors in any nesting. No such program crashes, fails an assertion or destroys an object twice; at every moment every object has exactly as many references as handles on it (not counting the handle that is just giving its reference up), handles refer to existing objects, and when all operations have finished exactly the objects with a handle exist; the interrupted assignment takes effect when the destructors have returned.", "quantifier": "every program and every behaviour of the destructors, as an arbitrary interleaved history of handle operations, destructor ends and library steps, with any number of objects, members and nesting depth", "why_tests_cant": "the nesting of destructors and what they do in the middle of an operation is unbounded, and faults depend on which handle is half-way through an assignment", "anchors": ["amtl/am-refcounting.h: Refcounted::Release, VirtualRefcounted::AddRef, VirtualRefcounted::Release, RefPtr::operator=, RefPtr::~RefPtr, AlreadyRefed::~AlreadyRefed"]}
{"id": "C124", "title": "Destructors of payloads may use the table they are in", "statement": "The destructor of a payload is called by the table in the middle of removeIfExists, clear or the destructor of the table, and may itself look up, add and remove keys of that table, starting further payload destructors in any nesting. No such program crashes or destroys a payload twice, every lookup, add, removal and element count answers as a map in which a removed key disappears when its destructor ends, clear leaves the table empty, and at every moment the live payloads are exactly those in the map.", "quantifier": "every history of the program and of the payload destructors, as an arbitrary interleaving of table operations and destructor ends, of any length and nesting depth, for every lawful policy, initial capacity and memory availability", "why_tests_cant": "what the destructors do, and at which point of a removal, clear or table destruction, is unbounded; faults depend on whether an entry under destruction is met again by a probe, a resize or a scan", "anchors": ["amtl/am-hashtable.h: HashTableEntry::setRemoved, HashTableEntry::setFree, HashTableEntry::destruct, HashTable::removeEntry, HashTable::removeIfExists, HashTable::clear, HashTable::~HashTable, HashTable::changeCapacity, HashTable::internalAdd"]}
{"id": "C125", "title": "Callables and their destructors may use the Functions that hold them", "statement": "A callable called through a Function, and the destructor of a callable that a Function destroys in an assignment, a move or its own destructor, may themselves construct, copy, move, assign, call and destroy Functions, including the one they were called from, in any nesting. No such program uses or destroys a callable after its destruction, every call runs the callable most recently stored, operator bool and usingInlineStorage report it, and every callable ever stored is destroyed exactly once.", "quantifier": "every history of a program, its callables and their destructors, as an arbitrary interleaving of operations, calls, capture reads and returns, of any length and nesting depth, over any number of Functions and callables of any size", "why_tests_cant": "what callables and destructors do with Functions, and at which point of which assignment, is unbounded; the fault shows only if a pointer to a dying callable is followed again", "anchors": ["amtl/am-function.h: Function::operator(), Function::operator=, Function::~Function, Function::destroy, Function::zap, Function::assign, Function::move, FunctionHolder::invoke, FunctionHolder::clone, FunctionHolder::move"]}
{"id": "C126", "title": "The restyler changes only layout", "statement": "For every source file, amstyler's output is the input with exactly the edits its style rules ask for (opening braces of multi-line heads and first-column functions moved to a line of their own with the indentation of the construct, empty bodies joined, leading commas of initialisers moved to the line before, a space after operator), each carried out once: all characters other than white space and commas stay, in order, and there are as many commas as before; no assertion fails.", "quantifier": "every text, every lexer, every list of constructs the traversal visits (conditions, loops, handlers, functions, constructors with any number of initialisers), debug and release builds, every order std::sort may give", "why_tests_cant": "layouts and nestings are unbounded; tests see a few files, the failures need particular combinations of line breaks, comments and spaces", "anchors": ["tools/restyler/amstyler.cpp: MyASTVisitor::VisitIfStmt, VisitForStmt, VisitCXXCatchStmt, HandleCondStmt, VisitFunctionDecl, maybeFixEmptyFunction, maybeFixCtorInitializers, maybeFixOperatorKeyword, splitBrace, maybeSplitBrace, getRParenLoc, getNextToken, getFirstWhitespaceBeforeLoc, getIndentForLine"]}
{"id": "C127", "title": "Restyling a styled file changes nothing", "statement": "If every style rule asks for no change, amstyler returns the file byte for byte; running it twice gives what running it once gives.", "quantifier": "every text and every list of constructs visited", "why_tests_cant": "every layout of every construct has to be left alone; tests compare a few files", "anchors": ["tools/restyler/amstyler.cpp: MyASTVisitor::maybeFixEmptyFunction, VisitFunctionDecl, TextRewriter::emit"]}
{"id": "C128", "title": "The restyler uses the compiler's include paths", "statement": "The search paths are exactly the lines the compiler lists between its markers, trimmed, in order, followed by the -I directories.", "quantifier": "every output of the compiler", "why_tests_cant": "line lengths, blank lines and positions of the markers are unbounded", "anchors": ["tools/restyler/amstyler.cpp: ToolMain::GetSearchPaths, ToolMain::ToolMain"]}
{"id": "C129", "title": "In-place restyling does not lose files", "statement": "With -p a file has its old or its new text at every moment, whatever fails or interrupts the tool, and success is reported only if it has the new one; without -p no file changes; other files are never touched; every file of the command line is processed and the exit code is 0 exactly if all succeeded.", "quantifier": "every file system state, crash point, amount of free space, list of files and outcome of styling each", "why_tests_cant": "crash points and full devices cannot be enumerated by tests", "anchors": ["tools/restyler/amstyler.cpp: ToolMain::RunForPath, ToolMain::Run, main"]}
{"id": "C130", "title": "A refused command line is refused with the right message", "statement": "When parse returns false, either the help option was given and there is no message, or error() is the message for what is actually wrong: everything before some argument is all right, and that argument is an undeclared option, a surplus argument, a second value for a single-valued option, an option without its value, or a text that is no value for its option or positional, or a positional is missing; the message says which of these and names the option (by name, long or short form) and the text in question.", "quantifier": "every set of options, every command line", "why_tests_cant": "tests compare a few messages on a few lines; which complaint is due depends on everything before", "anchors": ["amtl/experimental/am-argparser.h: Parser::parse_impl, unrecognized_option, unrecognized_extra, option_needs_value, option_invalid_value, missing_positional, option_already_specified, IOption::pretty_name"]}
{"id": "C131", "title": "The hash functions are the published ones they cite", "statement": "HashCharSequence (in one call or fed in pieces) is Bob Jenkins's one-at-a-time hash of the bytes, HashInt32 the published 32-bit integer hash, HashInt64, HashInteger<8> and HashPointer Thomas Wang's 64-to-32-bit hash of all 64 bits, and HashInteger<4> is HashInt32 of the low half.", "quantifier": "every text, every chunking, every 32-bit and every 64-bit integer, under wrap-around arithmetic", "why_tests_cant": "a test compares a few known values, all of them 7-bit text and small numbers", "anchors": ["amtl/am-hashtable.h:555-649 CharacterStreamHasher, HashCharSequence, HashInt32, HashInt64, HashInteger, HashPointer"]}
{"id": "C132", "title": "Split and Join are inverse on std::string", "statement": "Join(Split(str, sep), sep) == str for every std::string str (including one that holds NUL characters) and every non-empty separator.", "quantifier": "all std::string contents and non-empty separators", "why_tests_cant": "unbounded inputs; tests use printable text", "anchors": ["amtl/am-string.h:284-288 Split(const std::string&, const char*)", "amtl/am-string.h:Join"]}
{"id": "C133", "title": "Linked structures of AtomicRefs shared between threads are safe and are taken down completely", "statement": "Threads may build any structure out of reference-counted objects with AtomicRef members and free-standing AtomicRefs: whatever they read, assign, release and destroy concurrently, no destroyed object or AtomicRef is touched, each AtomicRef is an atomic register, get() returns a live object with a reference for the caller, counts are exact, deleting one object releases what its members hold to any depth, a thread not spinning on a locked AtomicRef finishes on its own, no state is a deadlock, and without cycles nothing is left once nobody refers to the structure.", "quantifier": "every number of threads, AtomicRefs, objects and members, every shape of the structure, every interleaving of the individual atomic steps", "why_tests_cant": "schedules and shapes are unbounded; a test runs a few of them", "anchors": ["amtl/am-refcounting-threadsafe.h:41-69 RefcountedThreadsafe, 124-202 AtomicRef, 137-142 ~AtomicRef, 55-62 Release"]}
{"id": "C134", "title": "Calls on an AtomicRef complete", "statement": "Under any fair scheduling every get(), assignment and Release on a shared AtomicRef eventually returns; a thread that has the lock or is releasing needs a bounded number of its own steps, and while anybody wants the AtomicRef calls on it keep completing.", "quantifier": "every infinite fair execution of any number of threads", "why_tests_cant": "an infinite execution cannot be tested, and starvation needs an adversarial schedule", "anchors": ["amtl/am-refcounting-threadsafe.h:177-198 lock, unlock, 146-162 get, operator=, 55-62 Release"]}
{"id": "C135", "title": "A hash container survives any hash policy", "statement": "Whatever HashPolicy::hash and HashPolicy::matches answer - different hashes for one key, answers that change from call to call, matches that is no equivalence - a HashTable (HashMap, HashSet) stays a bag of the payloads stored: every operation ends, stays in its memory, constructs and destroys every payload exactly once, reports only stored payloads for which matches said yes, adds or removes at most the one payload it was asked to, and elements() and iteration agree with what is stored. Each lookup asks for one hash and asks matches about each stored payload at most once.", "quantifier": "all policies (stateful, inconsistent, failing) and all histories of operations", "why_tests_cant": "tests use well-behaved policies; an inconsistent one has unboundedly many ways to answer", "anchors": ["amtl/am-hashtable.h:111-128 HashPolicy, 145-376 lookup and resizing, 429-541 public API"]}
{"id": "C136", "title": "What is assigned to a ThreadLocal is stored, or the program is aborted", "statement": "An assignment to a ThreadLocal that returns has stored the value: get() in that thread returns it until the thread assigns again, also when the system is out of keys or out of memory for values; what cannot be stored aborts the program.", "quantifier": "every number of threads, every interleaving, every pattern of refused keys and of values the system has no memory for; POSIX and Windows", "why_tests_cant": "memory exhaustion inside the system's thread-local tables cannot be provoked by a unit test, least of all at a chosen call", "anchors": ["amtl/am-threadlocal.h:ThreadLocal::set", "amtl/am-threadlocal.h:ThreadLocal::internalSet"]}
{"id": "C137", "title": "SharedLib on Windows: closed once, failures explained", "statement": "With LoadLibraryA and FreeLibrary: each library object is freed exactly once, when its last handle goes; Open gives a null result exactly if the library cannot be loaded, and then the caller's buffer (if it has room) holds the system's message, or the error code in hexadecimal, cut to fit and terminated.", "quantifier": "every legal history of opens and handle operations, every outcome of LoadLibraryA and FormatMessageA, every buffer size", "why_tests_cant": "histories are unbounded; the failures are the system's to choose", "anchors": ["amtl/os/am-shared-library.h:SharedLib::Open (KE_WINDOWS)", "amtl/os/am-system-errors.h:FormatSystemError"]}
{"id": "C138", "title": "An option class of one's own is called by a fixed protocol", "statement": "For every class derived from IOption, whatever its virtual functions answer and however the answers change: consumeValue is called at most once per command-line argument, on a positional (in the order of registration) or right after the object has answered that it will repeat, with a text from the command line, \"true\" or \"false\", or with null only right after the object has said that it must or can omit a value; an object that halts the parser is the last one called; a refused repetition or value that cannot be omitted fails the line at once with a message naming the object; --f goes to the object registered first with that form; reset calls reset on each object once (on the help option twice); and as long as the classes are well-behaved themselves, and no argument starts with --no-, parse has no undefined behaviour.", "quantifier": "every set of classes and objects, every state of the client's world, every command line and parser configuration", "why_tests_cant": "the classes are the user's; a unit test fixes one class and one command line", "anchors": ["amtl/experimental/am-argparser.h:IOption", "amtl/experimental/am-argparser.h:Parser::parse_impl", "amtl/experimental/am-argparser.h:Parser::reset"]}
{"id": "C139", "title": "Maybe when a constructor of the value type throws", "statement": "If a constructor of T throws during any call of a Maybe, at any point of any history, every Maybe is afterwards either without a value or holds one that exists: the exception reaches the caller, a Maybe under construction does not come to exist, an assignment leaves the left side without a value, a moved-from source keeps what T's constructor left of it, the other Maybes are unchanged, and no later call touches a value that no longer exists. (The project's own build disables exceptions, AMBuildScript:53; this concerns programs that use the header with them enabled.)", "quantifier": "every history of calls on any number of Maybes, every choice of the calls whose constructor throws, every value type", "why_tests_cant": "a unit test with a throwing type fixes one call; the damage shows up in later calls", "anchors": ["amtl/am-maybe.h:Maybe::init", "amtl/am-maybe.h:Maybe::operator=", "amtl/am-maybe.h:Maybe::Maybe"]}
{"id": "C140", "title": "FixedArray when an element's constructor throws", "statement": "If the k-th element constructor of a FixedArray constructor or copy assignment throws, at any point of any history, every array that exists afterwards consists of elements that exist, no later call touches an element that does not, and nothing is leaked. (The project's own build disables exceptions, AMBuildScript:53; this concerns programs that use the header with them enabled.)", "quantifier": "every history of calls on any number of arrays, every k for every call, every element type, allocator answer and size", "why_tests_cant": "the exception may come at any element of any call; a unit test fixes one", "anchors": ["amtl/am-fixedarray.h:FixedArray::FixedArray", "amtl/am-fixedarray.h:FixedArray::operator=", "amtl/am-fixedarray.h:FixedArray::~FixedArray"]}
{"id": "C141", "title": "Function when a callable's constructor throws or memory runs out", "statement": "If a copy or move constructor of a stored callable throws, or operator new throws, during any call of a Function, at any point of any history: the exception reaches the caller, a Function under construction does not come to exist, the left side of an assignment is left empty or with what it had, all other Functions are unchanged (a moved-from one keeps what the callable's constructor left), no later call touches a callable that does not exist, and no callable is leaked or destroyed twice. (The project's own build disables exceptions, AMBuildScript:53; this concerns programs that use the header with them enabled.)", "quantifier": "every history of calls on any number of Functions, every choice of the calls that throw and of the cause, callables of every size", "why_tests_cant": "a unit test fixes one throwing call; the damage shows up in later calls", "anchors": ["amtl/am-function.h:Function::operator=", "amtl/am-function.h:Function::assign", "amtl/am-function.h:Function::move", "amtl/am-function.h:FunctionHolder::clone"]}
{"id": "C142", "title": "PriorityQueue when the comparator throws", "statement": "If the comparator throws during any call of any history: no call touches an item that is not there; a throwing add leaves the queue with what it held, with or without the new item; a throwing pop leaves all items but the one it was about to return; and later pops still return a best item. (The project's own build disables exceptions, AMBuildScript:53; this concerns programs that use the header with them enabled.)", "quantifier": "every comparator with state, every point at which it throws, every history of add, pop, peek and empty", "why_tests_cant": "a unit test fixes one comparator and one throwing call; the damage depends on the shape of the heap and shows up in later calls", "anchors": ["amtl/am-priority-queue.h:PriorityQueue::add", "amtl/am-priority-queue.h:PriorityQueue::pop", "amtl/am-priority-queue.h:PriorityQueue::propagateUp", "amtl/am-priority-queue.h:PriorityQueue::propagateDown"]}
{"id": "C143", "title": "HashTable when the hash policy, the allocator or a payload constructor throws", "statement": "If HashPolicy::hash, HashPolicy::matches, am_malloc or a payload's constructor throws during any call of a history, the table is as it was before that call: later calls answer as if the throwing call had not been made, no payload is lost, duplicated, leaked or destroyed twice, and the table can be destroyed. (The project's own build disables exceptions, AMBuildScript:53; this concerns programs that use the header with them enabled.)", "quantifier": "every lawful hash policy that may throw at any call, every history, every choice of the allocations and constructions that throw, including those made while the table is resized", "why_tests_cant": "a unit test fixes one throwing call; the damage shows up in later calls or in the destructor", "anchors": ["amtl/am-hashtable.h:HashTable::add", "amtl/am-hashtable.h:HashTable::internalAdd", "amtl/am-hashtable.h:HashTable::changeCapacity", "amtl/am-hashtable.h:HashTable::lookup", "amtl/am-hashtable.h:HashTable::lookupForAdd"]}
{"id": "C144", "title": "Scopes left by exceptions, return or break", "statement": "A program that uses SaveAndSet, StackLinked and ScopeGuard as automatic objects behaves as if each were a try ... finally around its scope: however the scope ends (by reaching its end, return, break or an exception from any depth), saved locations get their old values back, frames are unlinked, every guard not cancelled runs its callback once, in reverse order, and the scope ends the way its body did. No assertion fails and nothing is destroyed twice. An exception that leaves a callback or a restoring assignment terminates the program; one from the constructor of SaveAndSet leaves the location as the failed copy or assignment left it.", "quantifier": "every program built from client code, sequencing, branches, loops, calls, try/catch and the three helpers, nested in any way; every place where client code or a copy may throw", "why_tests_cant": "a unit test has one nesting and one throwing place; the claim is about every program", "anchors": ["amtl/am-raii.h:SaveAndSet", "amtl/am-raii.h:StackLinked", "amtl/am-raii.h:ScopeGuard"]}
{"id": "C145", "title": "The hash functions on every target", "statement": "HashCharSequence, CharacterStreamHasher and FastHashCharSequence give a text the same hash on every target (so hashes can be stored or exchanged), independently of how it is cut into pieces; HashPointer distributes addresses on 32-bit targets as HashInt32 does.", "quantifier": "every text, every way of cutting it, targets with signed and unsigned char, 32-bit addresses", "why_tests_cant": "the tests run on one target", "anchors": ["amtl/am-hashtable.h:CharacterStreamHasher", "amtl/am-hashtable.h:HashCharSequence", "amtl/am-hashtable.h:FastHashCharSequence", "amtl/am-hashtable.h:HashPointer"]}
{"id": "C146", "title": "The reference count cannot overflow", "statement": "Although refcount_ is a machine word that wraps around, a program whose RefPtr and AlreadyRefed objects fit into the machine's memory behaves exactly as if counts were unbounded: no object is destroyed because its count wrapped.", "quantifier": "every history of construction, copy, move, assignment and destruction over any number of objects and handles; every word size", "why_tests_cant": "a test cannot hold 2^32 handles, let alone all histories", "anchors": ["amtl/am-refcounting.h:Refcounted", "amtl/am-refcounting.h:VirtualRefcounted", "amtl/am-refcounting.h:RefPtr"]}
{"id": "C147", "title": "NewThread neither leaks nor loses anything", "statement": "NewThread copies (lvalues) or moves (rvalues) the callable and its arguments twice, a string and two allocations besides. Whichever of these or the start of the thread throws, nothing is read after its end or destroyed twice, everything made is destroyed and lvalues are unchanged. If the thread starts, then in every interleaving of the caller's clean-up with the thread it names itself, calls the callable once on the values the arguments had, and when both are done only the returned std::thread is left. A caller who catches the exception can retry: nothing of his was changed (fails for rvalues).", "quantifier": "every callable and number of arguments, copied or moved, every order in which std::bind's parts are built, every point at which an exception is thrown, every interleaving of caller and thread", "why_tests_cant": "tests see one interleaving and cannot make the n-th copy or the system's thread creation throw for every n", "anchors": ["amtl/am-thread.h:NewThread"]}
{"id": "C148", "title": "A ThreadLocal set up in one thread can be used in another", "statement": "Once allocate() (or a first set) has returned in one thread, every other thread may call get and set: nothing is read before it is initialised and each thread sees what it last set. Without sequential consistency this needs order from the client (thread creation, mutex, join): the object's own flag gives none, because it is written before the key it guards.", "quantifier": "every number of threads, every interleaving, every outcome the memory model permits for the reads of the flag and the key, every pattern of synchronisation by the client", "why_tests_cant": "the failing reads need weakly ordered hardware or a reordering compiler, and a test cannot ask for them", "anchors": ["amtl/am-threadlocal.h:ThreadLocal::get", "amtl/am-threadlocal.h:ThreadLocal::set", "amtl/am-threadlocal.h:ThreadLocal::allocate"]}
{"id": "C149", "title": "Vector and deque helpers when elements throw", "statement": "If an element's move, an allocation or the predicate throws inside PopBack, PopFront, MoveExtend or EraseIf, no element is lost, the containers are in a known state and the caller can undo or repeat the call. Precisely: PopBack/PopFront keep the element unless an unelided copy of the result throws; MoveExtend has moved a prefix and keeps the shells in the source; EraseIf has the survivors in front, the untested elements unchanged at the end, and removed elements and shells between. Repeating MoveExtend or EraseIf is not safe.", "quantifier": "every element class (what moves leave behind), every container, every operation at which an exception is thrown, every predicate including one that changes its answers", "why_tests_cant": "a test fixes which operation throws and what a moved-from element looks like", "anchors": ["amtl/am-vector.h:MoveExtend", "amtl/am-vector.h:PopBack", "amtl/am-vector.h:EraseIf", "amtl/am-deque.h:PopBack", "amtl/am-deque.h:PopFront"]}
{"id": "C150", "title": "Argument lists and memory in the formatting functions", "statement": "Every variadic argument list that a formatting function begins is ended before it returns (C11 7.16.1), no list is read after it was read through or ended twice, and no heap block is leaked or freed twice, also when the formatting fails, when an allocation throws, and when the std::string constructor throws. The caller of Sprintf owns exactly the block it gets; StringPrintf leaves none. The caller of SprintfArgs/StringPrintfVa finds its list read through and must only end it. SafeSprintf and path::Format are always balanced.", "quantifier": "every format outcome of both vsnprintf calls, every allocation that throws, every set of lists and blocks already there", "why_tests_cant": "va_end is a no-op on the platforms the tests run on, and no test makes the second vsnprintf or an allocation fail", "anchors": ["amtl/am-string.h:SprintfArgsImpl", "amtl/am-string.h:Sprintf", "amtl/am-string.h:SafeSprintf", "amtl/am-string.h:StringPrintf", "amtl/os/am-path.h:Format", "amtl/am-argparser.h:parsev"]}
{"id": "C151", "title": "PriorityQueue when moving an item throws", "statement": "If constructing, moving or assigning an item throws inside add, emplace or pop, wherever that happens, there is no undefined behaviour, the queue stays usable, and the damage is bounded: add leaves every queued item but at most one, pop every other item but at most two; with items whose throwing moves change nothing, add loses only the new item and pop only the top and at most one other. Users want the strong guarantee (the queue holds what it held); it does not hold.", "quantifier": "every item class (what moves, throwing moves and throwing assignments leave), every comparator, every queue, every operation at which an exception is thrown, elided return or not", "why_tests_cant": "a test fixes which move throws, and classes whose moves throw are rare", "anchors": ["amtl/am-priority-queue.h:add", "amtl/am-priority-queue.h:emplace", "amtl/am-priority-queue.h:pop", "amtl/am-priority-queue.h:propagateUp", "amtl/am-priority-queue.h:propagateDown"]}
{"id": "C152", "title": "Handles together with AddRef and Release called by hand", "statement": "A program may mix RefPtr and AlreadyRefed handles with AddRef()/Release() on raw pointers, AdoptRef and take(). As long as it gives back only references it took, the count of an object is always its handles plus the references held by hand, the object lives exactly while that is not 0, and each statement is safe exactly if its pointers do not dangle and the operands of an assignment outlive the old object. In every history without fault, balanced or not, a destroyed object has as many dangling handles as there were releases too many, so these cannot all be given up cleanly; and a reference not given back leaks the object.", "quantifier": "every program of handle statements, AddRef, Release, AdoptRef and take on any number of handles and objects with any number of member handles; every counter width for the overflow", "why_tests_cant": "a test takes and gives back a few references in one order", "anchors": ["amtl/am-refcounting.h:Refcounted::AddRef", "amtl/am-refcounting.h:Refcounted::Release", "amtl/am-refcounting.h:AdoptRef", "amtl/am-refcounting.h:AlreadyRefed", "amtl/am-refcounting.h:RefPtr"]}
{"id": "C153", "title": "ReturnAndVoid when an operation of the type throws", "statement": "If copying, default-constructing, assigning or moving the type throws inside ReturnAndVoid, every object made is still destroyed exactly once and nothing but the argument is touched; and for a type whose failed assignment changes nothing the call either returns the old value and leaves T(), or throws and changes nothing. The last part holds if the compiler elides the returning move; if it does not (it need not) and that move throws, the value is lost.", "quantifier": "every type (which operations throw, what a failed assignment leaves), every memory, with and without elision", "why_tests_cant": "a test runs one compiler, which elides, and one throwing operation at a time", "anchors": ["amtl/am-raii.h:ReturnAndVoid"]}
{"id": "C154", "title": "Case conversion in any locale and with signed or unsigned char", "statement": "Uppercase and Lowercase are defined for every string, change each byte as the program's locale says, keep the length, and are idempotent where the locale is. This holds where char is unsigned. Where it is signed the conversions are defined exactly for strings of ASCII bytes and 255, and leave 255 alone whatever the locale says.", "quantifier": "every locale (any table of 256 bytes), every string, signed and unsigned char", "why_tests_cant": "a test runs in one locale, on one platform, on a few strings, and the undefined calls usually happen to work", "anchors": ["amtl/am-string.h:Uppercase", "amtl/am-string.h:Lowercase"]}
{"id": "C155", "title": "Objects whose constructor takes references on them", "statement": "A class's constructor may pass `this` to code that makes handles on it, or call AddRef and Release itself; the object is still there when `new` returns and can be given to a RefPtr. This fails: nobody owns the object yet, so the first time its references drop to none it is destroyed in its own constructor. Exactly: it outlives the constructor if and only if no statement of the constructor gives up the last reference on it; a constructor that begins with AddRef() is safe whatever it does with balanced references afterwards.", "quantifier": "every constructor body of handle statements, AddRef, Release, AdoptRef and take, after every history, for objects with any number of member handles", "why_tests_cant": "a test constructs a few classes; the destroyed object is often still readable", "anchors": ["amtl/am-refcounting.h:Refcounted::AddRef", "amtl/am-refcounting.h:Refcounted::Release", "amtl/am-refcounting.h:RefPtr", "amtl/am-refcounting.h:AlreadyRefed"]}
