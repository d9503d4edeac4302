{"id": "C01", "title": "Heap: pop order and contents", "statement": "Starting from an empty BinaryHeap and applying any sequence of Insert, Pop and Set calls with in-range arguments, the heap always holds exactly the multiset of values inserted (or set) and not yet popped, and Peek/Pop always give a value that no other held value exceeds under the comparison.", "quantifier": "every finite sequence of Insert/Pop/Set operations over any totally preordered element type", "why_tests_cant": "the set of operation histories is infinite; a percolation bug can need a particular tree shape of arbitrary depth", "anchors": ["include/bss-util/BinaryHeap.h: Insert, Pop, Get, Peek, Set, PercolateUp, PercolateDown"]}
{"id": "C02", "title": "Heap sort is a sort", "statement": "BinaryHeap::HeapSort leaves the given array a permutation of its input, in ascending order under the comparison; Heapify alone yields a valid heap holding the same multiset.", "quantifier": "every array of every length over any totally preordered element type", "why_tests_cant": "sorting correctness is a statement about all inputs; tests sample a few permutations", "anchors": ["include/bss-util/BinaryHeap.h: HeapSort, Heapify, PercolateDown"]}
{"id": "C03", "title": "Heap removal by index", "statement": "BinaryHeap::Remove(i) removes exactly the element at position i, and the remaining elements still form a valid heap so that later Pops come out in order.", "quantifier": "every valid heap and every valid index", "why_tests_cant": "failure needs a removed position whose replacement comes from another subtree and exceeds the removed node's parent; few small heaps exhibit it", "anchors": ["include/bss-util/BinaryHeap.h: Remove"]}
{"id": "C04", "title": "Binary searches return the exact bound", "statement": "On an array sorted by the comparison, BinarySearchAfter returns the first position whose element is not less than the key (last if none), BinarySearchBefore returns the last position whose element is not greater than the key (first-1 if none), and BinarySearchExact returns a position holding an equal element if there is one and -1 otherwise; none of them ever reads outside [first,last).", "quantifier": "every sorted array of every length, every key, every sub-range [first,last)", "why_tests_cant": "off-by-one errors in binary searches depend on length parity and duplicates, over unboundedly many arrays", "anchors": ["include/bss-util/algo.h: BinarySearchNear, BinarySearchBefore, BinarySearchAfter, BinarySearchExact"]}
{"id": "C05", "title": "Sorted array stays sorted", "statement": "After any sequence of Insert, Remove, ReplaceData, Discard and Clear with valid indices, an ArraySort is sorted and holds exactly the inserted-minus-removed multiset; Find(x) returns an index holding an element equal to x whenever one is present and an invalid index otherwise.", "quantifier": "every operation history over any totally preordered element type", "why_tests_cant": "unbounded histories; ReplaceData and duplicate handling create rarely exercised branches", "anchors": ["include/bss-util/ArraySort.h: Insert, Remove, ReplaceData, Find, FindNear"]}
{"id": "C06", "title": "Sorted map refines a finite map", "statement": "For a Map whose keys are kept distinct by the caller, after any sequence of Insert/Set/SetKey-free updates/Remove, Get(k) finds an entry for k iff k is present and the value stored there is the last value associated with k.", "quantifier": "every operation history and every key", "why_tests_cant": "an infinite family of histories; tests check a handful of keys", "anchors": ["include/bss-util/Map.h: Insert, Get, GetNear, Set, Remove"]}
{"id": "C07", "title": "Union-find decides connectivity", "statement": "After any sequence of Union calls, Find(a)==Find(b) holds exactly when a and b are connected by the pairs united so far, whatever Find calls (with their path compression) happened in between, and Find always terminates.", "quantifier": "every number of elements, every history of Union/Find calls on valid ids, Union being given two different roots as documented", "why_tests_cant": "path compression and weighted union rearrange the forest; equality of partitions must hold for every history", "anchors": ["include/bss-util/DisjointSet.h: Union, Find"]}
{"id": "C08", "title": "Union-find set counts", "statement": "NumSets() is the number of distinct classes and NumElements(x) is the size of x's class after every history of valid Union/Find calls; GetElements(x) lists precisely the members of x's class.", "quantifier": "every history and element", "why_tests_cant": "counting invariants over unbounded histories", "anchors": ["include/bss-util/DisjointSet.h: NumSets, NumElements, GetElements"]}
{"id": "C09", "title": "Kruskal gives a minimum spanning forest", "statement": "DisjointSet::MinSpanningTree, given edges sorted by weight, writes a subset of those edges that is cycle-free, connects exactly what the whole edge list connects, and has minimum total weight among all such subsets.", "quantifier": "every finite edge list over every number of vertices", "why_tests_cant": "minimality compares against exponentially many alternatives for infinitely many graphs", "anchors": ["include/bss-util/DisjointSet.h: MinSpanningTree"]}
{"id": "C10", "title": "Base64 round trip", "statement": "Decoding the text produced by Base64Encode gives back the original bytes, for every byte string; the encoder's reported length equals the number of characters it writes and the decoder's reported length equals the number of bytes it writes.", "quantifier": "every byte string of every length", "why_tests_cant": "2^(8n) inputs for each n and three tail cases", "anchors": ["include/bss-util/algo.h: Base64Encode, Base64Decode"]}
{"id": "C11", "title": "Base64 output is URL-safe and injective, malformed lengths are rejected", "statement": "Base64Encode output uses only the URL-safe alphabet, distinct inputs give distinct outputs, and Base64Decode rejects every text whose length is 1 modulo 4.", "quantifier": "every byte string / every text", "why_tests_cant": "universally quantified over unbounded strings", "anchors": ["include/bss-util/algo.h: Base64Encode, Base64Decode"]}
{"id": "C12", "title": "Bit stream round trip", "statement": "Values written to a BitStream with chosen bit counts, then flushed, and read back with the same bit counts in the same order into zeroed variables, come back equal to the low bits written.", "quantifier": "every sequence of (value, bit count) writes, any alignment mix", "why_tests_cant": "bit offsets interact across byte boundaries in unboundedly many ways", "anchors": ["include/bss-util/BitStream.h: Write, Read, Flush"]}
{"id": "C13", "title": "Queue is FIFO", "statement": "For every history of Push and Pop/Discard on a Queue, popped values are exactly the pushed values in push order, Length() is pushes minus pops, and growth never loses or reorders elements.", "quantifier": "every operation history, every initial capacity", "why_tests_cant": "wrap-around position and growth instants combine in infinitely many ways", "anchors": ["include/bss-util/Queue.h: Push, Pop, Peek, Discard", "include/bss-util/ArrayCircular.h: Push, PopBack, SetCapacity"]}
{"id": "C14", "title": "Circular array keeps the newest elements", "statement": "An ArrayCircular of capacity n>0 holds, after any history of Push/Pop/PopBack, the most recent surviving values: operator[](0) is the newest, operator[](k) the k-th newest; Push on a full array discards exactly the oldest; SetCapacity to a larger size preserves contents and order.", "quantifier": "every capacity and every history", "why_tests_cant": "modular cursor arithmetic over unbounded histories", "anchors": ["include/bss-util/ArrayCircular.h: Push, Pop, PopBack, Front, Back, operator[], SetCapacity", "include/bss-util/bss_util.h: bssMod"]}
{"id": "C15", "title": "Stack is LIFO", "statement": "For every history of Push/Pop/Peek/Clear on a Stack, Pop returns the most recently pushed value not yet popped, and Length is pushes minus pops.", "quantifier": "every operation history", "why_tests_cant": "unbounded histories with growth at arbitrary points", "anchors": ["include/bss-util/Stack.h: Push, Pop, Peek, Clear", "include/bss-util/DynArray.h: Add, RemoveLast"]}
{"id": "C16", "title": "Random queue neither loses nor invents elements", "statement": "Whatever the random numbers drawn, a RandomQueue always holds exactly the multiset pushed minus removed, and each Pop returns a held element and removes that one occurrence.", "quantifier": "every history and every sequence of random draws in range", "why_tests_cant": "depends on random draws; tests see one seed", "anchors": ["include/bss-util/RandomQueue.h: Push, Pop, Remove"]}
{"id": "C17", "title": "Linked array: sequence with stable handles", "statement": "In a LinkedArray every index returned by Add/InsertBefore/InsertAfter keeps denoting the same value until that index is removed, forward traversal from Front yields the values in the list order implied by the insertions, backward traversal yields the reverse, and Length is the number of live values, for every history including growth.", "quantifier": "every history of Add/InsertAfter/InsertBefore/Remove/Clear with live indices", "why_tests_cant": "free-list reuse makes index aliasing possible only after particular histories", "anchors": ["include/bss-util/LinkedArray.h: Add, InsertAfter, InsertBefore, Remove, Clear, Front, Back"]}
{"id": "C18", "title": "Intrusive list operations", "statement": "LLInsert, LLInsertAfter, LLAdd, LLAddAfter and LLRemove applied to a well-formed doubly-linked chain produce the well-formed chain of the list with the node inserted at / removed from exactly that place, updating root and last correctly and touching no other node.", "quantifier": "every well-formed chain of every length, every target node, every fresh node", "why_tests_cant": "pointer surgery must be right for head, middle, tail and singleton cases at any length", "anchors": ["include/bss-util/LLBase.h: LLInsert, LLAdd, LLInsertAfter, LLAddAfter, LLRemove"]}
{"id": "C19", "title": "LinkedList behaves as a sequence", "statement": "For a LinkedList tracking its last node, Add appends, Insert(x,t) inserts before t, Remove deletes exactly that node, Length (when tracked) is the number of nodes, and += appends the right list's items in order; the variant not tracking last must satisfy the documented 'appends the item to the end of the list' too.", "quantifier": "every operation history", "why_tests_cant": "unbounded histories", "anchors": ["include/bss-util/LinkedList.h: Add, Insert, Remove, operator+="]}
{"id": "C20", "title": "AVL tree refines a finite map", "statement": "After every history of Insert and Remove, an AVLTree's Get(k) returns the data last inserted for k if present and null otherwise; Insert of an existing key is rejected without change, and Remove of an absent key changes nothing.", "quantifier": "every operation history over any totally ordered key type", "why_tests_cant": "rotations are shape dependent; shapes are unbounded", "anchors": ["include/bss-util/AVLTree.h: Insert, Remove, Get"]}
{"id": "C21", "title": "AVL tree stays balanced and ordered", "statement": "At every node of an AVLTree reached by any history, stored balance equals the height difference of its subtrees and lies in {-1,0,1}, so the height is at most logarithmic in the number of keys; in-order traversal is strictly sorted.", "quantifier": "every operation history", "why_tests_cant": "balance is an invariant over all reachable shapes, not sampled ones", "anchors": ["include/bss-util/AVLTree.h: _insert, _remove, _leftRotate, _rightRotate, Traverse"]}
{"id": "C22", "title": "AA tree ordered and balanced", "statement": "After every history of Insert and Remove an AATree is a search tree satisfying the AA level rules, its contents are the inserted-minus-removed multiset, and Get(k) finds k iff present.", "quantifier": "every operation history", "why_tests_cant": "skew/split chains depend on unbounded shapes", "anchors": ["include/bss-util/AATree.h: Insert, Remove, Get, _skew, _split"]}
{"id": "C23", "title": "Threaded red-black tree", "statement": "Inserting into or removing from a threaded red-black tree keeps the colour rules (root black, no red node with red child, equal black counts), keeps search order, keeps the next/prev thread equal to in-order traversal, and retains duplicates.", "quantifier": "every history of insertions and removals (by value or by node)", "why_tests_cant": "colour fix-up recursion over unbounded shapes", "anchors": ["include/bss-util/TRBtree.h: InsertNode, LeftRotate, RightRotate, GetNear"]}
{"id": "C24", "title": "Hash refines a finite map", "statement": "For every history of Insert/Set/Remove/Clear on a Hash, Get(k) yields the value last stored for k iff k is present; deletions, probing collisions and rehashing never lose, duplicate or resurrect entries, and Length is the number of present keys (hash function consistent with the key equality, fewer than 2^29 entries, at most 2^31 buckets requested).", "quantifier": "every history, every key type, every hash function", "why_tests_cant": "collision patterns and tombstone layouts over every hash function cannot be enumerated", "anchors": ["include/bss-util/Hash.h: Insert, Set, Get, Remove, _put, _get, _delete, _resize"]}
{"id": "C25", "title": "Hash lookups always terminate", "statement": "Every lookup, insertion and resize in a Hash terminates, because probing visits every bucket of the power-of-two table and there is always a never-used bucket after any operation.", "quantifier": "every history and every hash function", "why_tests_cant": "non-termination needs a full table of tombstones, reached only by particular histories", "anchors": ["include/bss-util/Hash.h: _put, _get, _resize"]}
{"id": "C26", "title": "Trie lookup", "statement": "A Trie built from a list of distinct non-empty words maps every listed word to its index in the list and every other string to the 'not found' value.", "quantifier": "every list of distinct words and every query string", "why_tests_cant": "shared prefixes nest arbitrarily; queries are unbounded", "anchors": ["include/bss-util/Trie.h: Trie constructor, Get, operator[]"]}
{"id": "C27", "title": "Dynamic array refines a sequence", "statement": "Add, Insert(x,i), Remove(i), RemoveLast, SetLength, append and copy on a DynArray have exactly the effect of the corresponding operation on the sequence of its first Length() elements, for every history and whatever growth happens, and writes never fall outside the allocated capacity.", "quantifier": "every operation history with valid indices", "why_tests_cant": "capacity/length interplay over unbounded histories", "anchors": ["include/bss-util/DynArray.h: Add, Insert, Remove, RemoveLast, SetLength, SetCapacity", "include/bss-util/Array.h: Array, ArrayBase"]}
{"id": "C28", "title": "Packed bool array refines a sequence of booleans", "statement": "Add, Insert, Remove and element access on DynArray<bool> act as on a plain sequence of booleans, across byte boundaries, at every index and length.", "quantifier": "every length, index and bit content", "why_tests_cant": "bit shifting across byte boundaries has 8 x 8 alignment cases for every length", "anchors": ["include/bss-util/DynArray.h: DynArray<bool> Add, Insert, Remove, _shiftDelete, _shiftInsert"]}
{"id": "C29", "title": "Rational arithmetic is exact", "statement": "Rational +,-,*,/ and their compound forms return exactly the rational sum, difference, product and quotient whenever no intermediate overflows the integer type, for rationals and integers on either side.", "quantifier": "every pair of rationals (canonical operands), non-zero divisor", "why_tests_cant": "infinitely many operand pairs; gcd-reordering formulas can be wrong on rare common factors", "anchors": ["include/bss-util/Rational.h: operator+=, operator-=, operator*=, operator/=, Simplify, GCD"]}
{"id": "C30", "title": "Rationals stay in canonical form", "statement": "Every Rational built by the constructor (non-zero denominator) and every result of arithmetic on canonical operands has positive denominator and coprime numerator and denominator, so that == coincides with numeric equality.", "quantifier": "every pair of operands without overflow", "why_tests_cant": "needs number theory over all inputs", "anchors": ["include/bss-util/Rational.h: Simplify, operator==, operator+=, operator*="]}
{"id": "C31", "title": "Fixed-point arithmetic and conversion", "statement": "Adding two FixedPt values of different precision gives the exact sum rescaled; multiplying gives the exact product truncated to the format; converting a FixedPt to another precision preserves the represented value up to the target precision.", "quantifier": "every pair of precisions and every raw value without overflow", "why_tests_cant": "shift direction mistakes show up only for particular precision pairs", "anchors": ["include/bss-util/FixedPt.h: FixedPt conversion constructor, fixedpt_add, fixedpt_mul", "include/bss-util/bss_util.h: SafeShift, bssMultiplyExtract"]}
{"id": "C32", "title": "Alias table reproduces the distribution", "statement": "An AliasTable built from probabilities summing to one draws index i with exactly probability p_i (in exact arithmetic), every drawn index is in range, and construction terminates.", "quantifier": "every non-empty list of non-negative probabilities summing to one", "why_tests_cant": "statistical tests cannot establish exact probabilities for all distributions", "anchors": ["include/bss-util/AliasTable.h: AliasTable constructor, Get"]}
{"id": "C33", "title": "Fixed-size block allocator never hands out overlapping blocks", "statement": "For every history of allocations, deallocations and Clear on a block allocator, all live blocks are pairwise disjoint, aligned to the block size inside memory obtained from the system allocator, and a freed block becomes reusable.", "quantifier": "every history, every block size and initial count", "why_tests_cant": "aliasing appears only after specific histories; tests cannot enumerate", "anchors": ["include/bss-util/BlockAlloc.h: Alloc, Dealloc, Clear, _allocChunk, _initChunk"]}
{"id": "C34", "title": "Bump block allocator disjointness", "statement": "GreedyBlockAlloc returns pairwise disjoint in-bounds regions between Clears, for every sequence of request sizes, and a request larger than the current chunk is still satisfied.", "quantifier": "every sequence of requests and clears", "why_tests_cant": "chunk boundary conditions over unbounded sequences", "anchors": ["include/bss-util/GreedyBlockAlloc.h: allocate, Clear, _allocChunk"]}
{"id": "C35", "title": "Greedy allocator disjointness under concurrency", "statement": "GreedyAlloc::Alloc called from any number of threads in any interleaving returns pairwise disjoint regions, each inside a live chunk, until Clear.", "quantifier": "every interleaving of any number of threads' atomic steps, every request size", "why_tests_cant": "schedules cannot be enumerated by tests", "anchors": ["include/bss-util/GreedyAlloc.h: Alloc, Clear, _allocChunk", "include/bss-util/RWLock.h: RLock, AttemptUpgrade, Downgrade, RUnlock"]}
{"id": "C36", "title": "Size-class cache allocator", "statement": "For every history of Alloc(sz)/Dealloc(p,sz) with matching sizes, made one call after the other on a cache allocator, live blocks are pairwise disjoint and at least the requested size, and memory freed for one size class is only reused for that class.", "quantifier": "every history of requests", "why_tests_cant": "aliasing across size classes appears only after specific histories", "anchors": ["include/bss-util/CacheAlloc.h: Alloc, Dealloc, CachePolicy::allocate"]}
{"id": "C37", "title": "Ring allocator recycling", "statement": "RingAlloc never hands out memory overlapping a live allocation: a bucket is recycled only after every allocation from it was deallocated, for every history of calls made one after the other.", "quantifier": "every history of allocations and deallocations", "why_tests_cant": "bucket reuse depends on the order of frees over unbounded histories", "anchors": ["include/bss-util/RingAlloc.h: Alloc, Dealloc, _genBucket, _checkRecycle, _recycle"]}
{"id": "C38", "title": "Reader-writer lock mutual exclusion", "statement": "In every interleaving of any number of threads using RWLock, whenever a thread holds the write lock no other thread holds a read or write lock.", "quantifier": "every number of threads, every program of lock operations, every interleaving of atomic steps", "why_tests_cant": "a race needs a specific schedule; schedule space is infinite", "anchors": ["include/bss-util/RWLock.h: Lock, Unlock, RLock, RUnlock, AttemptLock, AttemptRLock, Upgrade, AttemptUpgrade, Downgrade, AttemptStrictLock"]}
{"id": "C39", "title": "Reader-writer lock state returns to free", "statement": "When no thread holds or is inside a lock operation, RWLock's state is exactly 'free', so a lock attempt succeeds; failed attempts leave no residue.", "quantifier": "every execution", "why_tests_cant": "leaked counts require particular interleavings of failing attempts", "anchors": ["include/bss-util/RWLock.h: AttemptLock, AttemptRLock, AttemptUpgrade"]}
{"id": "C40", "title": "Upgrade atomicity", "statement": "A successful AttemptUpgrade converts the caller's read lock into the write lock with no other writer in between; a failed one leaves the caller holding its read lock; of several simultaneous attempts at most one succeeds.", "quantifier": "every interleaving", "why_tests_cant": "simultaneous upgrades are a schedule-dependent corner", "anchors": ["include/bss-util/RWLock.h: AttemptUpgrade, Upgrade, Downgrade"]}
{"id": "C41", "title": "Lock-free block pool never double-allocates", "statement": "In every interleaving of allocate/deallocate by any number of threads on the lock-free block policy, no block is handed to two holders at once and no freed block is lost.", "quantifier": "every interleaving, any number of threads", "why_tests_cant": "ABA races need precise schedules", "anchors": ["include/bss-util/BlockAllocMT.h: allocate, deallocate, _initChunk, _setFreeList", "include/bss-util/lockless.h: asmcasr"]}
{"id": "C42", "title": "Single-producer single-consumer queue", "statement": "With one producer and one consumer in any interleaving, LocklessQueue delivers every pushed value exactly once and in order, never touches a reclaimed node, and Pop reports empty only when nothing was pushed before it looked.", "quantifier": "every interleaving of one producer and one consumer, any number of operations", "why_tests_cant": "memory reclamation races are schedule dependent", "anchors": ["include/bss-util/LocklessQueue.h: LocklessQueue::Push, Pop, _produce"]}
{"id": "C43", "title": "Multi-producer multi-consumer queue", "statement": "With any number of producers and consumers MicroLockQueue delivers every pushed value exactly once, in an order consistent with the order the pushes took effect.", "quantifier": "every interleaving of any number of threads", "why_tests_cant": "schedule dependent", "anchors": ["include/bss-util/LocklessQueue.h: MicroLockQueue::Push, Pop, _produce"]}
{"id": "C44", "title": "Thread pool runs each task once", "statement": "Every task added to a ThreadPool is executed exactly once, and Wait returns only when every task added before has finished.", "quantifier": "every interleaving of adders, workers and waiters", "why_tests_cant": "lost wakeups and double execution are schedule dependent", "anchors": ["include/bss-util/ThreadPool.h: AddTask, Wait, _worker"]}
{"id": "C45", "title": "Reference counting frees exactly once", "statement": "For every history of creating, copying, moving, assigning and dropping ref_ptr handles, the object is destroyed exactly when its last handle goes away, never earlier and never twice.", "quantifier": "every history of handle operations on any number of handles and objects", "why_tests_cant": "self-assignment and move chains over unbounded histories", "anchors": ["include/bss-util/RefCounter.h: Grab, Drop, ref_ptr"]}
{"id": "C46", "title": "Owning pointer deletes exactly once", "statement": "For every history of OwnerPtr operations each owned object is deleted exactly once and unowned objects never.", "quantifier": "every history of construction, copy, move and assignment", "why_tests_cant": "ownership transfer corner cases", "anchors": ["include/bss-util/SmartPtr.h: OwnerPtr"]}
{"id": "C47", "title": "UTF-8 validity", "statement": "isLegalUTF8 on a 1-4 byte sequence accepts exactly the well-formed UTF-8 byte sequences of Unicode Table 3-7 (given a length determined by the first byte).", "quantifier": "every byte sequence", "why_tests_cant": "2^32 four-byte sequences with special cases", "anchors": ["bss-util/ConvertUTF.c: isLegalUTF8, isLegalUTF8Sequence"]}
{"id": "C48", "title": "UTF-32/UTF-8 round trip", "statement": "Converting any NUL-terminated text of Unicode scalar values from UTF-32 to UTF-8 and back gives the same text, when the buffers have the size reported by the length query.", "quantifier": "every sequence of scalar values", "why_tests_cant": "over a million code points and unbounded strings", "anchors": ["bss-util/ConvertUTF.c: UTF32toUTF8, UTF8toUTF32"]}
{"id": "C49", "title": "UTF-32/UTF-16 round trip", "statement": "Converting any NUL-terminated text of Unicode scalar values from UTF-32 to UTF-16 (16-bit wide characters) and back gives the same text, with surrogate pairs exactly for code points above U+FFFF.", "quantifier": "every sequence of scalar values", "why_tests_cant": "unbounded strings", "anchors": ["bss-util/ConvertUTF.c: UTF32toUTF16, UTF16toUTF32"]}
{"id": "C50", "title": "UTF converters never overrun the buffer", "statement": "UTF32toUTF8, UTF32toUTF16, UTF8toUTF32 and UTF16toUTF32 never write more than buflen units, whatever the input (valid or not), and the length query reports a size sufficient for the whole conversion.", "quantifier": "every input, valid or malformed, every buffer size", "why_tests_cant": "malformed inputs are unbounded", "anchors": ["bss-util/ConvertUTF.c: UTF32toUTF8, UTF32toUTF16, UTF8toUTF32, UTF16toUTF32"]}
{"id": "C51", "title": "Integer to text", "statement": "itoa_r with sufficient buffer writes digits that denote exactly the given integer in the given radix, with a leading '-' only for negative values, no leading zeros, and never writes past the buffer when it is too small.", "quantifier": "every 32-bit integer, every radix 2..36, every buffer size", "why_tests_cant": "2^32 values x 35 radices", "anchors": ["bss-util/bss_util_c.c: itoa_r"]}
{"id": "C52", "title": "Floor division and modulus", "statement": "IntDiv(x,y) is the mathematical floor of x/y and bssMod(x,m) is the representative of x in [0,m) congruent to x modulo m, for every x and every positive divisor or modulus.", "quantifier": "every integer and every positive divisor", "why_tests_cant": "all sign/remainder combinations over 2^64 pairs", "anchors": ["include/bss-util/bss_util.h: IntDiv, bssMod"]}
{"id": "C53", "title": "Integer square root", "statement": "IntFastSqrt(n) returns floor(sqrt n) for every unsigned n.", "quantifier": "every unsigned value of each supported width", "why_tests_cant": "2^32 / 2^64 values", "anchors": ["include/bss-util/bss_util.h: IntFastSqrt"]}
{"id": "C54", "title": "Civil date to day number", "statement": "DaysFromCivil(y,m,d) equals the number of days between 1970-01-01 and the given proleptic Gregorian date, so consecutive calendar dates get consecutive numbers.", "quantifier": "every valid Gregorian date", "why_tests_cant": "every year of an infinite calendar, leap rules every 400 years", "anchors": ["include/bss-util/bss_util.h: DaysFromCivil"]}
{"id": "C55", "title": "Bit tricks", "statement": "BitCount(x) is the number of one bits, NextPow2(x) is the least power of two not below x (x>0 and representable), bssLog2(x) is floor(log2 x), FlipEndian reverses the byte order and is an involution, for every value of each width.", "quantifier": "every value of each width", "why_tests_cant": "2^32 and 2^64 values", "anchors": ["include/bss-util/bss_util.h: BitCount, NextPow2, bssLog2, FlipEndian"]}
{"id": "C56", "title": "Growth function and alignment", "statement": "fbnext(x) > x for every x for which it does not overflow, is monotone and stays below 1.75x+1, and AlignSize(sz,a) is the least multiple of the power of two a that is at least sz.", "quantifier": "every size and alignment", "why_tests_cant": "unbounded domain", "anchors": ["include/bss-util/defines.h: T_FBNEXT, T_NEXTMULTIPLE", "include/bss-util/Alloc.h: AlignSize", "include/bss-util/bss_util.h: fbnext"]}
{"id": "C57", "title": "Comparison functions are total preorders", "statement": "SGNCOMPARE/CompT return -1, 0 or 1 consistently (antisymmetric, transitive, zero only for equal values), CompTInv is the reversed order, and CompTBoth is the lexicographic order on pairs.", "quantifier": "every triple of values", "why_tests_cant": "transitivity quantifies over all triples", "anchors": ["include/bss-util/compare.h: SGNCOMPARE, CompT, CompTInv, CompTBoth, CompTFirst"]}
{"id": "C58", "title": "Bit field updates only the addressed bits", "statement": "Setting, clearing, toggling and masked assignment on a BitField change exactly the addressed bits to the requested values and no others.", "quantifier": "every field value, mask and bit value", "why_tests_cant": "2^64 states x masks", "anchors": ["include/bss-util/BitField.h: Set, operator[], operator+=, operator-=", "include/bss-util/defines.h: T_SETBIT"]}
{"id": "C59", "title": "UBJSON round trip", "statement": "Writing any UBJSON value (null, booleans, integers of each width, chars, floats, strings, arrays, objects, arbitrarily nested) and parsing the bytes back yields the same value and consumes exactly the bytes written.", "quantifier": "every value of arbitrary nesting depth and size", "why_tests_cant": "recursive values are unbounded", "anchors": ["include/bss-util/UBJSON.h: Parse, ParseInteger, WriteInteger, WriteLength", "bss-util/UBJSON.cpp: Write, ParseLength, ParseTypeCount, WriteTypeCount"]}
{"id": "C60", "title": "UBJSON integer encoding is minimal and lossless", "statement": "The integer type chosen for writing a length always contains the value, and length parsing returns the value written; negative or non-integer length markers are rejected.", "quantifier": "every 64-bit length / every byte stream", "why_tests_cant": "2^63 values", "anchors": ["include/bss-util/UBJSON.h: GetIntType, CheckIntType, WriteLength", "bss-util/UBJSON.cpp: ParseLength"]}
{"id": "C61", "title": "KD-tree query exactness", "statement": "A rectangle query on a KDTree reports exactly the stored items whose rectangles intersect the query, each once, for every history of insertions and removals.", "quantifier": "every tree reachable by insertions/removals, every query rectangle", "why_tests_cant": "tree shapes and straddling rectangles are unbounded", "anchors": ["include/bss-util/KDTree.h: Insert, Remove, Traverse, _traverse"]}
{"id": "C62", "title": "Xorshift state never degenerates", "statement": "From any non-zero state the xorshift generators never reach the all-zero state, the state transition is a bijection, and the circular index stays in range.", "quantifier": "every state and every number of draws", "why_tests_cant": "2^1024 states", "anchors": ["include/bss-util/XorshiftEngine.h: xorshift1024star, xorshift64star, seed"]}
{"id": "C63", "title": "Shuffle produces every permutation exactly once", "statement": "Shuffle always yields a permutation of its input, and distinct in-range random draw sequences yield distinct permutations, so uniform draws give a uniform permutation.", "quantifier": "every array and every sequence of in-range draws", "why_tests_cant": "n! outcomes for every n", "anchors": ["include/bss-util/algo.h: Shuffle"]}
{"id": "C64", "title": "Graph edge bookkeeping", "statement": "In a Graph, AddEdge/RemoveEdge/RemoveNode keep the outgoing and incoming edge lists mutually consistent: an edge from a to b is listed exactly once in a's outgoing list and exactly once in b's incoming list, for every history.", "quantifier": "every history of node and edge operations", "why_tests_cant": "pointer aliasing over unbounded histories", "anchors": ["include/bss-util/Graph.h: AddNode, AddEdge, RemoveEdge, RemoveNode"]}
{"id": "C65", "title": "Breadth-first traversal visits reachable nodes", "statement": "BreadthFirstGraph calls its action on every node reachable from the root, and only on those, in non-decreasing distance order, each exactly once, until the action stops it.", "quantifier": "every finite directed graph and root", "why_tests_cant": "all graphs", "anchors": ["include/bss-util/Graph.h: BreadthFirstGraph", "include/bss-util/DisjointSet.h: Union, Find"]}
{"id": "C66", "title": "Priority heap handles", "statement": "A handle returned by PriorityHeap insertion keeps denoting its element through any sequence of other insertions and changes until that element leaves, and Set/Remove through a handle affects exactly that element.", "quantifier": "every history of operations", "why_tests_cant": "handle tracking through percolation over unbounded histories", "anchors": ["include/bss-util/PriorityQueue.h: Insert, Set, Remove, Get, Pop"]}
{"id": "C67", "title": "Tokeniser", "statement": "The strtok_r fallback splits a string at delimiter characters into exactly the maximal runs of non-delimiters in order, then returns null.", "quantifier": "every string and delimiter set", "why_tests_cant": "unbounded strings", "anchors": ["bss-util/bss_util_c.c: strtok_r"]}
{"id": "C68", "title": "Scheduler fires due events in time order", "statement": "Scheduler::Update fires exactly the events due by the new time, each once and in order of due time, re-queueing an event at the (positive) delay its callback asks for and dropping it when the callback answers 0, as long as at least one event remains queued.", "quantifier": "every schedule of events and time steps", "why_tests_cant": "unbounded event sets", "anchors": ["include/bss-util/Scheduler.h: Update, Add"]}
{"id": "C69", "title": "Double-width multiply-extract", "statement": "bssMultiplyExtract(x,y,shift) is the exact double-width product shifted right by shift and truncated to the type, for every operand pair.", "quantifier": "every pair of 64-bit operands and every valid shift", "why_tests_cant": "2^128 operand pairs; carries are rare", "anchors": ["include/bss-util/bss_util.h: _bssmultiplyextract, bssMultiplyExtract"]}
{"id": "C70", "title": "INI section lookup", "statement": "bssFindINISection/bssFindINIEntry return the requested instance of the section/key with that exact (case-insensitive) name, never a different name.", "quantifier": "every INI text, section name, key and instance number", "why_tests_cant": "unbounded texts; prefixes collide rarely in tests", "anchors": ["bss-util/INIParser.c: bssFindINISection, bssFindINIEntry, bssParseLine"]}
{"id": "C71", "title": "String table indexing", "statement": "A StringTable built from a list of strings returns the i-th string for index i, and appending strings or tables keeps earlier indices valid.", "quantifier": "every list of strings and every append history", "why_tests_cant": "unbounded lists", "anchors": ["include/bss-util/StringTable.h: StringTable constructor, GetString, AppendString, operator+="]}
{"id": "C72", "title": "Memory stream over a dynamic array", "statement": "Bytes written through StreamBufDynArray in any mix of single-byte and block writes appear in the array in order, none lost across growth, and reading back returns them in order.", "quantifier": "every sequence of writes and initial capacities", "why_tests_cant": "growth boundaries over unbounded write sequences", "anchors": ["include/bss-util/stream.h: StreamBufDynArray::xsputn, overflow, _expand, _fixlength"]}
{"id": "C73", "title": "Compact array", "statement": "A CompactArray acts as the sequence of its elements whether stored inline or on the heap, across any history of Add/Insert/Remove/SetLength that crosses the inline limit in both directions.", "quantifier": "every history", "why_tests_cant": "representation switches depend on history", "anchors": ["include/bss-util/CompactArray.h: Add, Insert, Remove, SetLength, SetCapacity"]}
{"id": "C74", "title": "Spline and curve algebra", "statement": "Quadratic and cubic Bezier subdivision produce two curves that together trace exactly the original curve (left half over [0,t], right half over [t,1]) in exact arithmetic, and uniform B-spline weights sum to one.", "quantifier": "every control polygon and every parameter", "why_tests_cant": "identity over a continuum of parameters", "anchors": ["include/bss-util/algo.h: SplitCubic, SplitQuadratic, UniformQuadraticBSpline, UniformCubicBSpline, CubicBSpline"]}
{"id": "C75", "title": "AVL tree nearest key", "statement": "Near(k) on a non-empty AVLTree returns a stored entry such that no stored key lies strictly between it and k; if k itself is stored, Near returns its entry.", "quantifier": "every tree reached by any history and every key", "why_tests_cant": "which neighbour the descent ends at depends on the tree shape", "anchors": ["include/bss-util/AVLTree.h: Near, _near"]}
{"id": "C76", "title": "AVL tree ReplaceKey", "statement": "ReplaceKey(old, new) moves the data stored under old to new when that is possible, and reports failure without changing the map otherwise (old absent or new already present).", "quantifier": "every tree reached by any history and every pair of keys", "why_tests_cant": "the failing cases are the ones a test of the success path never reaches", "anchors": ["include/bss-util/AVLTree.h: ReplaceKey"]}
{"id": "C77", "title": "Threaded red-black tree: nearest element", "statement": "GetNear(v, before) on a non-empty threaded red-black tree returns the equal element if present; otherwise with before=true the closest element below v (the first element if none is below) and with before=false the closest element above v (the last element if none is above). On an empty tree it reports that there is none.", "quantifier": "every tree produced by insertions and removals (duplicates included), every v, both values of before", "why_tests_cant": "The answer depends on the whole shape of the tree and thread; tests only probe particular trees.", "anchors": ["include/bss-util/TRBtree.h:512-533"]}
{"id": "C78", "title": "Rational comparisons with integers are exact", "statement": "Comparing a canonical Rational with an integer by <, >, <=, >= or == gives the exact mathematical answer, and Truncate rounds towards zero; no rounding error can change the outcome.", "quantifier": "every canonical rational whose numerator is not the most negative integer, every integer", "why_tests_cant": "The comparison runs a correction loop on truncated division; tests sample a few signs and remainders.", "anchors": ["include/bss-util/Rational.h:125-130", "include/bss-util/Rational.h:134"]}
{"id": "C79", "title": "Roots of quadratics and cubics", "statement": "In exact arithmetic SolveQuadratic returns the two roots of the polynomial, CubicInflectionPoints returns exactly the parameters where the first and second derivative of the cubic are parallel, and solveCubic returns only roots and misses none.", "quantifier": "every polynomial with a leading coefficient other than zero, every control polygon in general position", "why_tests_cant": "identities over a continuum of coefficients with case distinctions on the discriminant", "anchors": ["include/bss-util/algo.h:396-421 SolveQuadratic, CubicInflectionPoints", "include/bss-util/algo.h:494-524 solveCubic"]}
{"id": "C80", "title": "Cubic to quadratics", "statement": "ApproxCubic terminates and calls the function with quadratics that form one connected curve from the first to the last point of the cubic, each within the given error of the part of the cubic it stands for.", "quantifier": "every control polygon, every positive error", "why_tests_cant": "recursion depth and pieces depend on the curve; the bound is on a continuum of points", "anchors": ["include/bss-util/algo.h:422-492 ApproxCubicError, ApproxCubicR, ApproxCubic"]}
{"id": "C81", "title": "Bracketing root finder", "statement": "NewtonRaphsonBisection started in an interval where the function changes sign returns a point of the interval that is within epsilon of zero or lies in a smaller interval where the function changes sign; NewtonRaphson reports success only within epsilon of zero.", "quantifier": "every function, derivative, start and number of iterations", "why_tests_cant": "behaviour for arbitrary functions and derivatives", "anchors": ["include/bss-util/algo.h:526-571 NewtonRaphson, NewtonRaphsonBisection"]}
{"id": "C82", "title": "Breadth-first traversal of a tree", "statement": "BreadthFirstTree calls the action on the nodes of the tree by depth, and from left to right within a depth, each node once, and stops after the first node for which the action returns true; the fixed queue, sized by the number of nodes, never overflows.", "quantifier": "every binary tree, every action, every node count that is at least the number of nodes", "why_tests_cant": "whether the circular queue is large enough depends on the shape of the whole tree", "anchors": ["include/bss-util/algo.h:295-323 BreadthFirstTree"]}
{"id": "C83", "title": "Running mean and sum of squares", "statement": "Feeding values one by one to bssAvg yields their mean, and to bssVariance their mean and the sum of squared differences from it.", "quantifier": "every non-empty list of values, in exact arithmetic", "why_tests_cant": "induction over lists of any length", "anchors": ["include/bss-util/bss_util.h:680-700 bssAvg, bssVariance"]}
{"id": "C84", "title": "Floating point comparison by places", "statement": "fCompare(a, b, maxDiff) is true exactly if at most maxDiff steps from one representable number to the next lie between a and b, also across zero.", "quantifier": "every pair of floats or doubles that are not NaN, every tolerance from 0 up to the width of the mantissa", "why_tests_cant": "2^64 pairs of floats; bit tricks with wrap-around", "anchors": ["include/bss-util/bss_util.h:535-559 fCompare"]}
{"id": "C85", "title": "Random subdivision tiles the rectangle", "statement": "The rectangles that StochasticSubdivider hands to its callback cover the given rectangle and nothing else, do not overlap, and their areas add up to its area, whatever random decisions are made; if the callback forces an end at some depth it ends with at most 2^depth rectangles.", "quantifier": "every rectangle, every sequence of random decisions and fractions in [0,1], every stateful callback", "why_tests_cant": "random, unbounded recursion", "anchors": ["include/bss-util/algo.h:214-235 StochasticSubdivider"]}
{"id": "C86", "title": "Byte search finds the first occurrence", "statement": "ByteSearch returns the first place where the bytes to find occur and null exactly if there is none, a buffer is null or there is nothing to find; it never reads beyond the given lengths.", "quantifier": "every pair of byte strings", "why_tests_cant": "unbounded strings with overlapping partial matches", "anchors": ["include/bss-util/bss_util.h:702-717 ByteSearch"]}
{"id": "C87", "title": "JSON written and read back", "statement": "WriteJSON of a JSONValue, compact or pretty, produces a text of the JSON grammar that denotes the value, and ParseJSON reads the same value back from it.", "quantifier": "every value of any depth and size, every indentation level", "why_tests_cant": "unbounded nesting; all strings with all characters that need escapes", "anchors": ["include/bss-util/JSON.h:345-466 WriteJSONObject, WriteJSONBase, SerializeArray, SerializeNumber", "include/bss-util/JSON.h:115-136", "include/bss-util/Serializer.h:288-302 EvaluateKeyValue"]}
{"id": "C88", "title": "JSON parser agrees with the grammar", "statement": "ParseJSON of a JSONValue returns, for every text of the JSON grammar with any blank space between the tokens, the value that the text denotes, decoding all escapes of strings; and it ends for every text, well-formed or not.", "quantifier": "every text", "why_tests_cant": "infinitely many texts; the parser is lenient, so its agreement with the grammar is not evident", "anchors": ["include/bss-util/JSON.h:74-103 ParseJSONEatCharacter", "include/bss-util/JSON.h:170-203 ParseJSONObject", "include/bss-util/JSON.h:217-295 ParseJSONBase", "include/bss-util/JSON.h:303-325 ParseArray", "include/bss-util/bss_util.h:329-336 OutputUnicode"]}
{"id": "C89", "title": "An XML file written with XMLFile::Write is read back as the same tree", "statement": "For every file whose tree XML can express, reading the text written by XMLFile::Write gives a file with the same name, attributes and nodes: in the compact form the tree is exactly the same, and in the pretty form it is the same except for blank space in the texts of nodes that have children. The text written is well-formed.", "quantifier": "for all trees of nodes of any depth, with any names, attributes and texts, and both forms of output", "why_tests_cant": "Tests write one known document; trees, texts and nesting are unbounded, and loss of an entity or of a blank appears only for particular characters in particular places.", "anchors": ["bss-util/XML.cpp:44-56", "bss-util/XML.cpp:346-416", "bss-util/XML.cpp:178-310"]}
{"id": "C90", "title": "XMLFile reads every well-formed document as the tree it denotes, and reading ends on every input", "statement": "For every document made of an optional declaration, elements with attributes in quotation marks, self-closing elements, text, predefined entities, decimal and hexadecimal character references and comments, the tree read has the names, attributes, texts (entities decoded, references as UTF-8) and children that the document denotes, whatever blank space stands between the parts of tags. Reading ends for every byte sequence, well-formed or not.", "quantifier": "for all derivations of the grammar, of any depth and length, and for termination all byte sequences", "why_tests_cant": "Tests parse one document; documents are unbounded, and the termination of a hand-written parser with backtracking on arbitrary bytes cannot be settled by samples.", "anchors": ["bss-util/XML.cpp:18-42", "bss-util/XML.cpp:178-324", "include/bss-util/Str.h:310-311"]}
{"id": "C91", "title": "Children and attributes of an XMLNode are found by name after every history of edits", "statement": "After any sequence of AddNode and RemoveNode, GetNode by index gives the children in the order of addition, GetNode by name gives the newest child of the name or null if there is none, and the links next and prev connect the children of one name from the newest to the oldest. AddAttribute sets the value of its name and of no other, and each attribute name is there once. RemoveAttribute removes the attribute.", "quantifier": "for all histories of additions and removals and all names", "why_tests_cant": "The index in the hash table and the links depend on the whole history; tests perform a few edits and never combine a removal with a later lookup.", "anchors": ["bss-util/XML.cpp:97-133", "bss-util/XML.cpp:145-175", "include/bss-util/XML.h:50-66", "include/bss-util/LLBase.h:32-39"]}
{"id": "C92", "title": "Integers in XML values survive the conversion to text and back", "statement": "A value set with SetValue(int64_t) has a text that evaluates to the same integer. Decimal digits of an unsigned number of 64 bits and hexadecimal digits after 0x evaluate to the number with the same 64 bits.", "quantifier": "for all 2^64 integers and all digit strings below 2^64", "why_tests_cant": "There are 2^64 integers and infinitely many digit strings with leading zeros; the limits of the signed and unsigned conversions meet at particular values.", "anchors": ["bss-util/XML.cpp:135-136", "bss-util/XML.cpp:326-344"]}
{"id": "C93", "title": "Removing lower bounds preserves the circulations", "statement": "LowerBound_Circulation keeps the nodes and the edges of the graph, leaves every lower bound zero, and a choice of flows is a circulation of the original graph (each flow between the lower bound and the capacity, each node receiving its demand) exactly if the flows less the lower bounds are a circulation of the resulting graph.", "quantifier": "for every graph whose edges connect its nodes, every demand, lower bound and capacity, and every choice of flows", "why_tests_cant": "An equivalence between the sets of all circulations of two graphs cannot be settled by solving sample graphs.", "anchors": ["include/bss-util/Graph.h:369-396"]}
{"id": "C94", "title": "A circulation exists if and only if the maximum flow of the derived graph equals the supply", "statement": "Circulation_MaxFlow adds a source and a sink. It returns the sum of all demands, and if that is not zero the graph has no circulation. Otherwise the flows of the new graph from the new source to the new sink whose value is the total supply are exactly the circulations of the original graph together with full flows on the added edges.", "quantifier": "for every graph with distinct node identifiers, every demand and capacity without lower bounds, and every choice of flows", "why_tests_cant": "The claim is an equivalence over all flows of a graph of any size.", "anchors": ["include/bss-util/Graph.h:329-367"]}
{"id": "C95", "title": "MaxFlow_PushRelabel computes a maximum flow", "statement": "MaxFlow_PushRelabel ends on every graph without flows and with capacities that are not negative. Every edge then carries between zero and its capacity, every node other than source and sink sends as much as it receives, the nodes, edges and capacities are unchanged, and no flow brings more to the sink.", "quantifier": "for every graph, source and sink, every width of the index type, and every number of rounds of the loops", "why_tests_cant": "Termination and maximality quantify over all graphs and all flows of each; the runs that go wrong need a dead end or a particular order of the edges.", "anchors": ["include/bss-util/Graph.h:198-320"]}
{"id": "C96", "title": "Dual numbers compute derivatives of every order", "statement": "Evaluating an expression on dual numbers started from a variable gives, in the i-th component, the i-th derivative of the function that the expression denotes, for every order up to the one chosen. Expressions are built from the variable, numbers, +, -, *, /, negation, powers, sine, cosine, exponential, logarithms and absolute value.", "quantifier": "For every expression, every order, every component and every point at which the operations are defined (divisors and bases of powers not zero, arguments of logarithms positive, arguments of absolute values not zero).", "why_tests_cant": "Tests try a few functions at low order; the recursion mixes derivatives of the operands at all lower orders, so one missing term only shows at higher orders.", "anchors": ["include/bss-util/Dual.h:13-90"]}
{"id": "C97", "title": "Determinants and inverses of matrices", "statement": "Determinant returns the determinant of a 2x2, 3x3 or 4x4 matrix, in the plain form and in the SSE form for floats, and Inverse returns the inverse whenever the determinant is not zero, in both forms.", "quantifier": "For all matrices over a field (exact arithmetic).", "why_tests_cant": "The SSE forms permute lanes by immediates; a wrong lane changes the result only for matrices in which those entries differ, and special matrices such as diagonal or rotation ones hide it.", "anchors": ["include/bss-util/vector.h:187-376", "include/bss-util/vector.h:433-534", "include/bss-util/vector.h:871-872", "include/bss-util/vector.h:918-925"]}
{"id": "C98", "title": "Matrix products and transposes", "statement": "Multiplying matrices gives the product, in the general form and in the SSE form, for all sizes and whatever the destination held before, also if the destination is one of the operands. Transpose gives the transpose, Identity the identity.", "quantifier": "For all sizes, all matrices and all previous contents of the destination.", "why_tests_cant": "In place multiplication is correct only because of the order in which rows are read and written; tests fix sizes and operands.", "anchors": ["include/bss-util/vector.h:378-431", "include/bss-util/vector.h:830-848"]}
{"id": "C99", "title": "Transformation matrices act as documented", "statement": "Rotation matrices turn a point in the plane of their axis as Rotate does, compose by adding angles, keep lengths and orientation; translation and scaling matrices move and scale a point; an affine transform turns a point about its centre and then moves it; the forms with suffix _T are the transposes.", "quantifier": "For all angles, centres, offsets and points.", "why_tests_cant": "Tests try angles such as 0 or a quarter turn, for which wrong signs or swapped sine and cosine can agree.", "anchors": ["include/bss-util/vector.h:145-185", "include/bss-util/vector.h:651", "include/bss-util/vector.h:877-882", "include/bss-util/vector.h:931-966", "include/bss-util/vector.h:1010-1042"]}
{"id": "C100", "title": "Vector geometry is Euclidean", "statement": "Dot, Length, Distance and DistanceSq are those of Euclidean space in all dimensions, in the plain, the unrolled and the SSE form; Normalize gives the vector of length 1 in the same direction; Cross is the determinant or the vector product; the area of a triangle is half of the area that two edges span, in any dimension; polar coordinates convert back and forth.", "quantifier": "For all dimensions and all vectors (not zero for Normalize), all polar coordinates with a positive radius and an angle in (-pi, pi].", "why_tests_cant": "Heron's formula and the lane permutations agree with the definition by algebra, not by samples.", "anchors": ["include/bss-util/vector.h:16-92", "include/bss-util/vector.h:597-603", "include/bss-util/vector.h:637-657", "include/bss-util/vector.h:684-692", "include/bss-util/vector.h:734-739", "include/bss-util/sseVec.h:548"]}
{"id": "C101", "title": "Comparison of vectors is a linear order", "statement": "The operators <, >, <= and >= on vectors are the lexicographic order, == and != are equality of all elements, so exactly one of <, == and > holds and the order is transitive. Comparing with a scalar compares every element. Matrices are equal if all elements are.", "quantifier": "For all dimensions and all vectors over a linear order.", "why_tests_cant": "A comparison that looks at too few elements or goes on after the first difference passes tests with vectors that differ in one place.", "anchors": ["include/bss-util/vector.h:1096-1107", "include/bss-util/vector.h:1146-1149", "include/bss-util/compare.h:11"]}
{"id": "C102", "title": "Rotation matrices from quaternions", "statement": "FromQuaternion of a unit quaternion is the matrix of the rotation that the quaternion stands for.", "quantifier": "For all unit quaternions and all vectors.", "why_tests_cant": "The entries are quadratic forms in four variables; samples on the axes leave the mixed terms undetermined.", "anchors": ["include/bss-util/vector.h:536-583"]}
{"id": "C103", "title": "Spline evaluation", "statement": "GenericBSpline returns the powers of the parameter times the matrix times the control points.", "quantifier": "For all parameters, control points and matrices.", "why_tests_cant": "The value is a sum of sixteen products, of which a sample with few non-zero entries sees few.", "anchors": ["include/bss-util/vector.h:1197-1208"]}
{"id": "C104", "title": "Reading an INI file", "statement": "Reading a file with bssParseLine until it returns no more yields, line by line and in order, exactly the sections and entries that the lines stand for: a line with [ as the first of ; = [ begins the section named up to ] or the end of the line, a line with = first and something visible before it is an entry, anything else is nothing, comments and surrounding white space are not part of names and values, and no memory is read or written out of bounds.", "quantifier": "For all files.", "why_tests_cant": "Line ends, white space, comments and the buffers reused from line to line interact; which combinations are wrong is not visible from samples.", "anchors": ["bss-util/INIParser.c:22-52", "bss-util/INIParser.c:54-217"]}
{"id": "C105", "title": "Sections and entries are found by name and instance", "statement": "In a storage or section, after any history of adding, removing and assigning, looking up a name (ignoring case) and an instance number yields the value put there: a new one is the last of its name, removing one moves the later ones down by one, and others are not touched. The number of instances of a name is right, iteration meets every value once with its right instance number, and no freed memory is used.", "quantifier": "For all histories of operations and all names.", "why_tests_cant": "The first node of a name owns the array of the others and is overwritten when it is removed; histories of many removals under several names are needed to see a wrong link.", "anchors": ["bss-util/INIstorage.cpp:84-101", "bss-util/INIstorage.cpp:136-203", "bss-util/INIstorage.cpp:244-269", "bss-util/INIsection.cpp:76-99", "bss-util/INIsection.cpp:125-144"]}
{"id": "C106", "title": "Copying an INI storage or section", "statement": "A copy of a storage or section finds the same values as its source, is independent of it, and the source is not changed.", "quantifier": "For all storages and sections.", "why_tests_cant": "Copies of storages with single names behave; the copy of the instance array is only exercised by repeated names.", "anchors": ["bss-util/INIstorage.cpp:352-385", "bss-util/INIsection.cpp:45-74"]}
{"id": "C107", "title": "Editing keeps the file and the storage in step", "statement": "After any history of AddSection, RemoveSection, EditEntry and EditAddEntry the storage finds what the edits call for, each edit returns the documented value, the text written to the file says the same as the storage, and a storage read from that file finds the same as the edited one. Comments, layout and everything not edited stay.", "quantifier": "For all files and all histories of edits.", "why_tests_cant": "Each edit is done twice, once on the nodes and once on the text, by different code; agreement over all files and histories is an invariant, not a sample.", "anchors": ["bss-util/INIstorage.cpp:31-72", "bss-util/INIstorage.cpp:113-134", "bss-util/INIstorage.cpp:165-285", "bss-util/INIstorage.cpp:305-325", "include/bss-util/INIstorage.h:44"]}
{"id": "C108", "title": "Spheres and circles contain and collide as sets of points", "statement": "ContainsPoint is true exactly for the points of the open ball, in any number of dimensions; ContainsSphere and ContainsCircle exactly if the other ball with its surface is a subset; CircleCollide and SphereSphereCollide exactly if the two balls overlap; touching is no collision. All overloads agree.", "quantifier": "For all dimensions, centres and non-negative radii.", "why_tests_cant": "Tests pick a few positions; the decisive ones lie on borders and in degenerate arrangements, and the claim is an equivalence over a continuum of arguments.", "anchors": ["include/bss-util/Collision.h:13-32", "include/bss-util/Collision.h:70-93", "include/bss-util/Geometry.h:20-32", "include/bss-util/Geometry.h:60-69"]}
{"id": "C109", "title": "Two circles meet in the reported points; the nearest point is the nearest", "statement": "The points returned by CircleRadiusIntersect and CircleCircleIntersect are exactly the common points of the two circles, none if there are none; NearestPoint returns the point of the circle that is nearest to the given one.", "quantifier": "For all centres and non-negative radii, and all points.", "why_tests_cant": "Tests pick a few positions; the decisive ones lie on borders and in degenerate arrangements, and the claim is an equivalence over a continuum of arguments.", "anchors": ["include/bss-util/Collision.h:38-68", "include/bss-util/Collision.h:96-104", "include/bss-util/Geometry.h:65-67"]}
{"id": "C110", "title": "Lines, rays and segments meet a circle in the reported points", "statement": "LineIntersect, RayIntersect and LineSegmentIntersect return exactly the points of the line, ray or segment on the circle; the Collide functions are true exactly if the line, ray or segment has a point in the disc.", "quantifier": "For all lines given by two points, rays, segments and radii.", "why_tests_cant": "Tests pick a few positions; the decisive ones lie on borders and in degenerate arrangements, and the claim is an equivalence over a continuum of arguments.", "anchors": ["include/bss-util/Collision.h:110-216", "include/bss-util/Geometry.h:70-78"]}
{"id": "C111", "title": "Nearest points and distances of lines, rays and segments", "statement": "The nearest point functions return the point of the line, ray or segment with the least distance to the given point; the distance functions return that least distance and the Sqr functions its square.", "quantifier": "For all lines, rays and segments and all points.", "why_tests_cant": "Tests pick a few positions; the decisive ones lie on borders and in degenerate arrangements, and the claim is an equivalence over a continuum of arguments.", "anchors": ["include/bss-util/Collision.h:219-313", "include/bss-util/Geometry.h:178-214"]}
{"id": "C112", "title": "Segments and lines cross where the functions say", "statement": "LineSegmentLineSegmentCollide is true exactly if the segments have a common point, and its versions for vertical and horizontal segments agree with it; the Intersect functions return the common point exactly if there is one.", "quantifier": "For all pairs of lines and segments.", "why_tests_cant": "Tests pick a few positions; the decisive ones lie on borders and in degenerate arrangements, and the claim is an equivalence over a continuum of arguments.", "anchors": ["include/bss-util/Collision.h:315-380", "include/bss-util/Geometry.h:178-214"]}
{"id": "C113", "title": "Rectangles behave as sets of points", "statement": "ContainsPoint, ContainsRect and RectCollide agree with the sets of points; cutting a rectangle in two leaves every point in exactly one part; Intersection contains exactly the common points; Union, ExpandTo and the bounding box of a polygon are the least rectangles around their arguments; Canonical orders the corners; BoundingCircle goes through the corners and contains the rectangle; a circle or an ellipse collides exactly if it has a point in the rectangle.", "quantifier": "For all rectangles, points, polygons, circles and ellipses.", "why_tests_cant": "Tests pick a few positions; the decisive ones lie on borders and in degenerate arrangements, and the claim is an equivalence over a continuum of arguments.", "anchors": ["include/bss-util/Collision.h:385-399", "include/bss-util/Collision.h:443-458", "include/bss-util/Collision.h:491-496", "include/bss-util/Collision.h:540-544", "include/bss-util/Geometry.h:271-288", "include/bss-util/Geometry.h:372-378", "include/bss-util/Geometry.h:672-679"]}
{"id": "C114", "title": "A rectangle collides with a segment exactly if they have a common point", "statement": "RectLineCollide is true exactly if a point of the segment is in the rectangle or on its border.", "quantifier": "For all rectangles and segments.", "why_tests_cant": "Tests pick a few positions; the decisive ones lie on borders and in degenerate arrangements, and the claim is an equivalence over a continuum of arguments.", "anchors": ["include/bss-util/Collision.h:402-440", "include/bss-util/Geometry.h:301-303"]}
{"id": "C115", "title": "Points in triangles and polygons", "statement": "The triangle test is true exactly for the points strictly inside. The polygon test is true exactly for the points in an odd number of the triangles of the fan from the first vertex; it is true for every point strictly inside a strictly convex polygon, false for every point outside the convex hull of the vertices, and does not depend on the orientation.", "quantifier": "For all points and polygons of any number of vertices, also self-intersecting ones.", "why_tests_cant": "Tests pick a few positions; the decisive ones lie on borders and in degenerate arrangements, and the claim is an equivalence over a continuum of arguments.", "anchors": ["include/bss-util/Collision.h:463-486", "include/bss-util/Collision.h:580-591", "include/bss-util/Geometry.h:389", "include/bss-util/Geometry.h:704"]}
{"id": "C116", "title": "Area, centroid and convexity of polygons", "statement": "Area is the sum of the signed areas of the triangles between the edges and any point, independent of the position and negated by reversing the vertices; Centroid is the mean of the triangles' centroids weighted with their areas, and CenterPolygon moves it to the origin; IsConvex is true exactly for convex polygons; ConvexContainsPoint is true exactly for the points of a convex polygon.", "quantifier": "For all polygons of any number of vertices.", "why_tests_cant": "Tests pick a few positions; the decisive ones lie on borders and in degenerate arrangements, and the claim is an equivalence over a continuum of arguments.", "anchors": ["include/bss-util/Collision.h:595-652", "include/bss-util/Geometry.h:388", "include/bss-util/Geometry.h:699-711"]}
{"id": "C117", "title": "Discrete frames of an animation are called once each, in order", "statement": "Without a loop the destination has been called with exactly the values of the frames whose time has come, once each and in order of time, and the time stops at the end. With a loop the time is the total time folded back into the part from the loop point to the end, and every pass calls all the frames.", "quantifier": "For all frames, lengths, loop points and histories of Interpolate with steps of any (non-negative) size.", "why_tests_cant": "The effect depends on how the frames fall between the steps of the whole history; tests fix one sequence of steps.", "anchors": ["include/bss-util/Animation.h:93-111", "include/bss-util/Animation.h:156-177", "include/bss-util/Animation.h:63-68"]}
{"id": "C118", "title": "A smooth animation follows its curve", "statement": "After any history, Interpolate sets the destination to the value of the curve at the new time: the straight lines from the initial value through the frames for linear interpolation, the value of the last frame up to now for none, and the same added to the initial value for the relative kinds. The curve goes through the frames and stays between neighbouring frames.", "quantifier": "For all frames, initial values, lengths, loop points and histories of Interpolate, SetTime and Reset.", "why_tests_cant": "The value depends on a cursor kept over the whole history, including rewinds and loops; tests look at a few times of one animation.", "anchors": ["include/bss-util/Animation.h:179-220", "include/bss-util/Animation.h:339-342", "include/bss-util/Animation.h:63-68"]}
{"id": "C119", "title": "Intervals of an animation are ended, once each", "statement": "The functions for the start and for the end of intervals are called in pairs: an interval is ended only after it was started and only once, by its own handle; it is ended when its time plus its length has come; after Reset, or when the animation state is destroyed, all are ended. The starts are those of discrete frames.", "quantifier": "For all intervals, lengths, loop points and histories of Interpolate, SetTime and Reset.", "why_tests_cant": "Whether handles leak depends on the whole history and on the order of overlapping intervals.", "anchors": ["include/bss-util/Animation.h:222-255", "include/bss-util/PriorityQueue.h:28-33", "include/bss-util/BinaryHeap.h:57-79"]}
{"id": "C120", "title": "Frames are kept in order and the length of an animation is the largest end", "statement": "The frames of every track are in order of time; a frame that is added is at the returned index and the others are kept; a frame that is removed is the one of the index. The length is the one set last or, if that is negative, the largest end of a frame, where the end of an interval is its time plus its length.", "quantifier": "For all numbers of tracks and histories of Add, Remove, SetLength and SetLoop.", "why_tests_cant": "The cached length is updated differently by each call, so that it depends on the whole history.", "anchors": ["include/bss-util/Animation.h:267-284", "include/bss-util/Animation.h:355-416", "include/bss-util/Animation.h:424-432", "include/bss-util/Animation.h:469-540"]}
{"id": "C121", "title": "Easing and Bezier curves start and end at their frames", "statement": "The eased progress is 0 at the start and 1 at the end of a frame, in between it is the ordinate of a point of the easing curve whose abscissa is the time (within the tolerance), and stays between 0 and 1 if the control points do; the eased value stays between the neighbouring values. The curves start and end at their frames, their derivative functions return the derivative, and Length returns its Euclidean length.", "quantifier": "For all control points, values, times, tolerances and numbers of iterations.", "why_tests_cant": "The arguments range over a continuum; tests pick a few, and a wrong derivative only makes the iteration slower or less accurate.", "anchors": ["include/bss-util/Animation.h:543-594", "include/bss-util/Animation.h:603-622", "include/bss-util/Animation.h:666-684"]}
{"id": "C122", "title": "TOML strings are read as the bytes they denote", "statement": "What WriteTOML writes for a string is read back by ParseTOML as the same bytes. A string in any of the four forms of TOML (basic, literal, and both with three quotes), with escapes, Unicode escapes, inner quotes and escaped line breaks, is read as the bytes it denotes, and the stream is left right behind it.", "quantifier": "For all byte strings, all texts of the four forms and everything that may follow.", "why_tests_cant": "The strings and texts are unbounded; tests contain a handful of strings and few of the escapes.", "anchors": ["include/bss-util/TOML.h:144-272", "include/bss-util/TOML.h:750-776"]}
{"id": "C123", "title": "A TOML document sets exactly the fields it mentions", "statement": "ParseTOML reads a well-formed document to its end and changes the object as the document says: each line sets the field of its name, bare or quoted; arrays append their elements in order; inline tables and sections set the fields of the object at their path; a section of a table array appends a new object, and a path through an array leads to its last element; unknown names, comments and blanks have no effect; all other fields keep their values.", "quantifier": "For all types of objects (nested to any depth), all values and all documents of the grammar.", "why_tests_cant": "The documents, types and paths are unbounded and the loops leave characters to each other; a test has one document.", "anchors": ["include/bss-util/TOML.h:76-96", "include/bss-util/TOML.h:190-342", "include/bss-util/TOML.h:371-388", "include/bss-util/TOML.h:567-648"]}
{"id": "C124", "title": "An object written as TOML is read back as the same object", "statement": "ParseTOML of what WriteTOML writes restores the object: strings, integers, numbers, booleans, arrays of values and of objects, and nested objects.", "quantifier": "For all types of objects, all values of the type and every object with empty arrays that is read into.", "why_tests_cant": "A test writes one object; separators, escapes and the paths of sections depend on the nesting.", "anchors": ["include/bss-util/TOML.h:108-118", "include/bss-util/TOML.h:650-743", "include/bss-util/TOML.h:750-805", "include/bss-util/TOML.h:550-553"]}
{"id": "C125", "title": "Reading TOML ends and is defined for every text", "statement": "ParseTOML returns for every text, also a malformed one, without undefined behaviour.", "quantifier": "For all texts, all types of objects and all values.", "why_tests_cant": "Malformed texts are unbounded in number; a test of an endless loop does not end.", "anchors": ["include/bss-util/TOML.h:190-342", "include/bss-util/TOML.h:371-388", "include/bss-util/TOML.h:567-648"]}
{"id": "C126", "title": "Trimming removes the blanks at both ends and nothing else", "statement": "strtrim and Str::Trim give the string without the characters from 1 to 32 at its beginning and end; all other characters stay, and nothing outside of the string is written.", "quantifier": "For all strings, including empty and blank ones and bytes above 127, at any place in memory.", "why_tests_cant": "Strings are unbounded; tests trim a few ASCII words, where signed bytes and one-past-the-end writes do not show.", "anchors": ["include/bss-util/bss_util.h:194-222", "include/bss-util/Str.h:180", "include/bss-util/Str.h:310-311"]}
{"id": "C127", "title": "Splitting a string gives its pieces", "statement": "Explode and ParseTokens give the non-empty pieces between delimiters in order; Explode with the delimiter NUL gives each of a list of strings that ends with an empty one; the constructor with an index gives the piece with that index, empty ones included, or an empty string if there are fewer. This holds for every character type.", "quantifier": "For all texts, delimiters, indices and character types.", "why_tests_cant": "Texts and numbers of pieces are unbounded; an endless loop cannot be tested for.", "anchors": ["include/bss-util/Str.h:84-95", "include/bss-util/Str.h:131-149", "include/bss-util/Str.h:193-239"]}
{"id": "C128", "title": "Counting, replacing and removing a character concern every occurrence", "statement": "strreplace and ReplaceChar replace every occurrence and change nothing else; strccount returns the number of occurrences, with a length among the first characters up to the terminator; StripChar keeps all other characters in their order.", "quantifier": "For all strings, characters and lengths.", "why_tests_cant": "Strings are unbounded; reading past the terminator is not visible in a test.", "anchors": ["include/bss-util/bss_util.h:114-152", "include/bss-util/Str.h:181-191", "include/bss-util/Str.h:242-255"]}
{"id": "C129", "title": "Command lines are taken apart into their arguments", "statement": "ToArgV with a null array returns the number of arguments and changes nothing; with an array it stores exactly as many pointers, each to a terminated argument: the words between white space, or what is between quotes, which may contain white space and quotes. It never reads or writes outside of the string. ProcessCmdArgs passes every argument on once and in order, in groups of which all but the first start with the divider and which have no such argument inside.", "quantifier": "For all command lines, numbers of arguments and dividers.", "why_tests_cant": "Command lines are unbounded; the array is sized by the first pass, so that a difference between the passes in one of them overruns it.", "anchors": ["include/bss-util/bss_util.h:224-271"]}
{"id": "C130", "title": "SafeFormat replaces each placeholder by its argument", "statement": "SafeFormat writes the format with each {n}, n of one or two digits, replaced by argument n, or by a note with the number if there is no such argument. Everything else is written as it is, text from arguments is not interpreted, and the format is never read beyond its end.", "quantifier": "For all formats and all numbers of arguments.", "why_tests_cant": "Formats are unbounded; placeholders cut off at the end of the format and numbers without an argument are rarely tested.", "anchors": ["include/bss-util/bss_util.h:273-326"]}
{"id": "C131", "title": "Arrays are independent values and own their elements", "statement": "Each Array or DynArray behaves as a sequence of its own: copying, moving, assigning, appending, inserting, removing and resizing one array changes only the arrays the call is about. Every element is constructed once before it is used and destroyed once, memory is never used after it was freed or outside of its block, and after the last array is destroyed no memory is left.", "quantifier": "For all programs of constructions, copies, moves, assignments, appends, sums, insertions, removals, resizes and destructions on any number of arrays, for both array types that run constructors.", "why_tests_cant": "A test runs a few programs; that none of all interleavings of copies, moves and resizes double-frees, leaks or uses a dead element needs an invariant over all programs.", "anchors": ["include/bss-util/Array.h:99-402", "include/bss-util/DynArray.h:12-164"]}
{"id": "C132", "title": "The targets of a logger get exactly the text that is written to it", "statement": "Every stream that is a target of a logger gets the text that is written to the logger, or to a stream redirected to it, while it is a target: once, in order, and nothing else. When Log, LogFormat or PrintLog return, and when the logger is flushed or destroyed, nothing is outstanding. No call fails to return.", "quantifier": "For all programs of constructions, moves, destructions, redirections, changes of targets and settings, writes and log entries on any number of loggers and streams.", "why_tests_cant": "The number of loggers, streams and calls is unbounded; whether text is lost or doubled depends on the order of writes and changes of targets, and an endless recursion cannot be tested for.", "anchors": ["bss-util/Logger.cpp:16-96", "include/bss-util/stream.h:25-63", "include/bss-util/Logger.h:71-103"]}
{"id": "C133", "title": "Streams that a logger has redirected are restored", "statement": "A stream that was passed to Assimilate writes to the logger until the logger is destroyed and then again to its own buffer. At no time does a stream refer to a buffer that was deleted, and no buffer is left when all loggers are destroyed.", "quantifier": "For all programs as in the property about targets.", "why_tests_cant": "A dangling buffer is noticed only when someone writes to that stream later; the orders in which loggers are created, moved and destroyed are unbounded.", "anchors": ["bss-util/Logger.cpp:16-58", "bss-util/Logger.cpp:143-151"]}
{"id": "C134", "title": "Naming a log level and limiting the levels concern only that", "statement": "SetLevel changes the name of the given level and of no other. After SetMaxLevel(n), entries below n are written and all others are not.", "quantifier": "For all numbers of levels, levels, names and limits.", "why_tests_cant": "Levels and limits are independent parameters; the tests of the project only log with the default levels.", "anchors": ["bss-util/Logger.cpp:104-113", "bss-util/Logger.cpp:159-167", "include/bss-util/Logger.h:71-93"]}
{"id": "C135", "title": "A log entry is its format with source, file, line, level and time filled in", "statement": "The text of an entry is the format of the logger (that for entries without a source if there is none) in which {0} to {5} are replaced by the source, the last part of the path, the line, the name of the level, the local time and the date with the local time, followed by the message and a new line.", "quantifier": "For all formats, paths, lines, levels, messages, times and time zones.", "why_tests_cant": "Formats and paths are unbounded, and the text depends on the clock and on the time zone, which a test does not control.", "anchors": ["bss-util/Logger.cpp:115-142", "bss-util/Logger.cpp:152-158", "bss-util/Logger.cpp:185-203", "include/bss-util/Logger.h:71-93"]}
{"id": "C136", "title": "A variant holds one value, of the type it says", "statement": "A Variant is empty or holds exactly one value of one of its types. is<T> is true for that type only, get<T> and convert give its value, copies and assignments make the two variants hold the same, a move leaves a moved-from value of the same type. Every object is constructed once and destroyed once, as the type it has, and no call on one variant changes another.", "quantifier": "For all lists of types (repetitions included) and all programs of constructions, copies, moves, assignments of variants and of values, typeset, writes through get and destructions.", "why_tests_cant": "The tests use a few type lists and programs; that none of all programs constructs over a live object, destroys with the wrong destructor or leaks needs an invariant.", "anchors": ["include/bss-util/Variant.h:47-262"]}
{"id": "C137", "title": "The storage of a variant fits each of its types", "statement": "The storage lies within the variant, behind the tag, is at least as large as each of the types and is aligned for each of them.", "quantifier": "For all lists of types with all sizes and alignments, and all addresses at which a variant may be.", "why_tests_cant": "Sizes and alignments are parameters of the template; a misaligned access works by chance on common processors.", "anchors": ["include/bss-util/Variant.h:31-45", "include/bss-util/Variant.h:264-269"]}
{"id": "C138", "title": "Every region on every path of calls is measured by itself", "statement": "Profile blocks that are nested and follow each other as blocks of a program do add up, for each path of regions, the number of calls of the path, the mean of the time of these calls, and the mean of the part of their time that was not spent in other profiled regions. After the outermost block has ended the profiler is where it began, and no null pointer is followed.", "quantifier": "for all programs (all nestings and repetitions of regions, recursion included), all values of a clock that does not run backwards, and all sets of region numbers in which no number's digits begin another's", "why_tests_cant": "The nodes are created while the program runs and shared by number; a test has a few regions with small numbers and cannot know the times, so it cannot check averages, and collisions of numbers with several digits need at least 17 regions.", "anchors": ["include/bss-util/Profiler.h:61-87", "include/bss-util/Profiler.h:132-138", "bss-util/profiler.cpp:231-238"]}
{"id": "C139", "title": "The flat output adds up all calls of a region", "statement": "The flat output has for each region the number of all its calls, in whichever other regions they were made, and the mean of the times of all these calls, and writes each beside the name of its region.", "quantifier": "for all programs, and all prefix-free sets of 16-bit region numbers", "why_tests_cant": "The sums are over all nodes of a trie that depends on the history of calls, and the number of a region has to be put together again from digits on the way.", "anchors": ["bss-util/profiler.cpp:193-211", "bss-util/profiler.cpp:84-100"]}
{"id": "C140", "title": "The tree output has one line for each path of calls", "statement": "The tree output has exactly one line for each path of regions that was called, with the region's number, its mean time and number of calls, indented once for each region around it, the lines of the regions around it before it and those of one region's inner regions together.", "quantifier": "for all programs, and all prefix-free sets of 16-bit region numbers", "why_tests_cant": "It holds for unboundedly many shapes of the trie; a test compares one output.", "anchors": ["bss-util/profiler.cpp:109-123"]}
{"id": "C141", "title": "The heat output shows the parts of each region's time", "statement": "The heat output has a node for each path of regions that was called, with its mean time, below the nodes of the regions around it, and below each path in which other regions were called one more for its own code, with the mean time that was not spent in other regions. It has no other nodes.", "quantifier": "for all programs", "why_tests_cant": "It holds for unboundedly many shapes of the trie; a test compares one output and cannot know the times.", "anchors": ["bss-util/profiler.cpp:124-148"]}
{"id": "C142", "title": "Gaussian quadrature is exact for polynomials", "statement": "GaussianQuadrature with N sampling points returns exactly the integral of f from a to b if f is a polynomial of degree below 2N.", "quantifier": "for all N from 1 to 5, all polynomials of degree below 2N and all bounds a and b in either order, in exact arithmetic", "why_tests_cant": "There are uncountably many polynomials and bounds, and a test with rounding cannot tell an exact rule from a good one.", "anchors": ["include/bss-util/algo.h:571-602"]}
{"id": "C143", "title": "Distances of angles are those on the circle", "statement": "bssFMod gives the representative of a number between 0 and the modulus. AngleDist is the least distance between representatives of the two angles, so it lies between 0 and half a turn and has the cosine of their difference. AngleDistSigned has this size, lies between minus half a turn and half a turn, and leads from the first angle to the second.", "quantifier": "for all real angles, whatever their sign and number of turns, and all moduli other than 0, in exact arithmetic", "why_tests_cant": "Errors occur at wrap-around for particular signs and numbers of turns; a test samples a few pairs of angles.", "anchors": ["include/bss-util/bss_util.h:187-193", "include/bss-util/bss_util.h:408-422"]}
{"id": "C144", "title": "The quick length is within a fixed ratio of the length", "statement": "fLength(x, y) is at least 85.6 percent and at most 92.7 percent of the length of the vector (x, y). It does not depend on signs or the order of the coordinates and grows in proportion with the vector.", "quantifier": "for all real coordinates, in exact arithmetic", "why_tests_cant": "The worst ratio is at directions that a sample does not contain.", "anchors": ["include/bss-util/bss_util.h:593-601"]}
{"id": "C145", "title": "The font closest to the request is chosen", "statement": "GetFontPath chooses, among the fonts of a family, one with the requested slant if there is one. Among these it chooses the requested weight if there is one, otherwise 400 for 500 and 500 for 400, otherwise the nearest on the same side of 500, otherwise the nearest to 500 on the other side. Without a font of the requested slant it chooses by weight among the others.", "quantifier": "for all families, enumerated in any order with repetitions, and all requested weights and slants", "why_tests_cant": "The installed fonts are not under a test's control, and the result depends on the order in which candidates replace each other.", "anchors": ["bss-util/bss_util.cpp:376-453"]}
{"id": "C146", "title": "Timers neither drift nor run backwards", "statement": "After any updates at any readings of the clock the time of a HighPrecisionTimer is that between the start and the latest reading, and the delta that between the last two. Whatever is called, the time is the sum of the deltas since its reset, and times and deltas in milliseconds and nanoseconds are the same.", "quantifier": "for all sequences of calls, all readings of the clock (also ones that go back) and all frequencies", "why_tests_cant": "A test cannot control the clock, wait half an hour or make it run backwards.", "anchors": ["include/bss-util/HighPrecisionTimer.h:31-61", "bss-util/HighPrecisionTimer.cpp:16-73"]}
{"id": "C147", "title": "Deleting a registry node deletes exactly its subtree", "statement": "DelRegistryNode ends, removes no key that is not the given key or below it, and reports success exactly if none of these is left. If the system refuses no access to them it removes all of them.", "quantifier": "for all registries, all nonempty key names, and all sets of keys to which the system refuses access", "why_tests_cant": "A test would have to set up registries of all shapes with access restrictions; termination depends on each round removing a key.", "anchors": ["bss-util/bss_util.cpp:309-373"]}
{"id": "C148", "title": "Limits of integers of a given number of bits", "statement": "BitLimit<B> gives the smallest integer types with at least B bits, and as limits the least and greatest signed and unsigned numbers of B bits.", "quantifier": "for all B from 1 to 64", "why_tests_cant": "The tests have ten of the numbers of bits; each number is another instance of the template.", "anchors": ["include/bss-util/bss_util.h:70-96", "include/bss-util/defines.h:51-53"]}
{"id": "C149", "title": "Bit masks have the bits they are asked for", "statement": "GetBitMask<T>(i) has exactly bit i. GetBitMask<T>(low, high) has exactly the bits from low to high, where negative numbers count from the highest bit. bssSetBit changes exactly the bits of its mask. bssGetBit reads the bit of its index in an array.", "quantifier": "for all integer types of 8 to 64 bits, all ranges within the type, all words and all arrays", "why_tests_cant": "There are too many ranges and words for each type, and undefined shifts give results that depend on the processor.", "anchors": ["include/bss-util/bss_util.h:102-111", "include/bss-util/defines.h:45-49"]}
{"id": "C150", "title": "A stream over an array behaves as a file of its bytes", "statement": "Reading single characters and blocks, looking at the next character, putting back characters, seeking and asking for what is available give on a StreamBufArray what they give on a file with the same bytes, and read nothing outside of the array. Seeks to places outside fail.", "quantifier": "for all arrays, and all sequences of calls", "why_tests_cant": "Errors occur for particular bytes and orders of calls at the ends of the array, and reads outside may go unnoticed.", "anchors": ["include/bss-util/stream.h:62-133"]}
{"id": "C151", "title": "Streams with an operation lose and repeat nothing", "statement": "Everything that is written to a StreamBufFunction reaches its target once and in order, after a flush at the latest, and the calls return how much was written. Reads return the source in order, as much as was asked for unless the source ends.", "quantifier": "for all buffer sizes above 0, all data, and all sequences of calls with all sizes of pieces", "why_tests_cant": "The result depends on where pieces cross the end of the buffer; the default buffer has 256 kB, so tests with small data never cross it.", "anchors": ["include/bss-util/stream.h:229-317"]}
{"id": "C152", "title": "Times survive being written to TOML", "statement": "A time point written to a TOML document and read back is the same second; nothing overflows, and the text is the date and time in UTC.", "quantifier": "for all 64-bit counts of nanoseconds since 1970, before and after, and whatever follows in the document", "why_tests_cant": "There are 2^64 time points; leap years, centuries and times before 1970 each have their own errors.", "anchors": ["include/bss-util/TOML.h:402-452", "include/bss-util/TOML.h:777-788"]}
{"id": "C153", "title": "TOML dates are read as the moment they name", "statement": "A date with time and offset is read as the moment it names, a date with Z as that in UTC, and a date alone as the midnight that begins it, wherever in the document it stands. Text that is no date leaves the value as it was.", "quantifier": "for all dates from year 0 to 9999 that the clock can hold, all times, offsets and what follows", "why_tests_cant": "Tests have a handful of dates, each in one of the forms and at one place in the document.", "anchors": ["include/bss-util/TOML.h:402-452"]}
{"id": "C154", "title": "INI values have the number that is written in them", "statement": "After Set an entry has the text, and as integer and as floating point number the number that the text is, whether decimal, hexadecimal, negative or with a fraction. A null pointer changes nothing.", "quantifier": "for all texts that begin with a numeral, and whatever follows it", "why_tests_cant": "Numerals are unlimited; errors occur for particular notations, such as hexadecimal numbers of 64 bits or exponents.", "anchors": ["include/bss-util/INIentry.h:23-55", "bss-util/INIentry.cpp:28-50"]}
{"id": "C155", "title": "Integers in INI entries convert exactly", "statement": "An integer set in an entry is read back unchanged from it and from its text. Conversions to smaller types give the number modulo the size of the type, conversion to bool whether it is not 0. Equality is an equivalence that ignores the case of keys and texts and compares the numbers.", "quantifier": "for all 64-bit integers, all entries and all integer types", "why_tests_cant": "There are 2^64 integers; that a relation is transitive is no statement about single calls.", "anchors": ["include/bss-util/INIentry.h:29-50", "bss-util/INIentry.cpp:22-61"]}
{"id": "C156", "title": "INI files are saved where they came from", "statement": "The path and the name of an INI document put together are the file name it was constructed with, so that edits are written to the same file; the name has no separator and the path is empty or ends with one.", "quantifier": "for all file names, with any mixture of slashes and backslashes", "why_tests_cant": "File names are unlimited, and the two separators can be mixed in any order.", "anchors": ["bss-util/INIstorage.cpp:286-298", "bss-util/INIstorage.cpp:326-338"]}
{"id": "C157", "title": "Moving an INI document keeps it usable", "statement": "A document made or assigned by moving has all the sections and the edited text of its source, and the source is empty; what the target had is freed, no freed section is read, and its sections edit the new document.", "quantifier": "for all documents, and all section names", "why_tests_cant": "Reading freed memory often gives the old contents, so that tests pass.", "anchors": ["bss-util/INIstorage.cpp:55-61", "bss-util/INIstorage.cpp:400-416", "bss-util/INIsection.cpp:13-16", "bss-util/INIsection.cpp:152-155"]}
{"id": "C158", "title": "Reading a missing INI entry gives an empty one", "statement": "GetEntry gives for an entry that is there what was last put into it, and an empty entry for one that is not, whatever was done to this or other documents before.", "quantifier": "for all sequences of assignments, additions and removals, in all documents", "why_tests_cant": "The error needs an assignment to a missing entry and a later read of another missing one, possibly in another document.", "anchors": ["include/bss-util/INIstorage.h:48-52", "bss-util/INIsection.cpp:10", "bss-util/INIsection.cpp:146-150"]}
{"id": "C159", "title": "Parts of slices are the elements asked for", "statement": "A part of a slice taken with a begin and an end refers to exactly the elements between them, where negative positions count from the end; it never extends beyond the slice. Incrementing goes through all elements in order.", "quantifier": "for all slices of all lengths, and all begins and ends, in all memories", "why_tests_cant": "Off-by-one errors occur only for particular combinations of begin, end and length; elements outside often happen to be readable.", "anchors": ["include/bss-util/Array.h:17-75"]}
{"id": "C160", "title": "Arrays of several dimensions have one place for each element", "statement": "ArrayMultiRef gives every tuple of indices within the dimensions an element of the array, row by row; different tuples have different elements, and every element has a tuple.", "quantifier": "for all numbers of dimensions above one, all sizes, and all indices", "why_tests_cant": "The number of dimensions is unlimited; wrong strides can collide only for particular sizes.", "anchors": ["include/bss-util/Array.h:395-430"]}
{"id": "C161", "title": "Arrays on the stack or heap free what they take", "statement": "An array made with VARARRAY has room for its elements; each is constructed and destroyed once, and memory from the heap is freed once, whichever of stack and heap it came from.", "quantifier": "for all lengths and element sizes", "why_tests_cant": "The choice depends on the size in bytes; leaks and overflows are not visible in results.", "anchors": ["include/bss-util/Array.h:444-501"]}
{"id": "C162", "title": "Delegates call what was assigned to them", "statement": "After any assignments and copies, calling a delegate calls the function last assigned to it, on its object, with the arguments given. It says that it is empty exactly if it has nothing to call.", "quantifier": "for all sequences of assignments among any number of delegates, from methods, functions with and without object and std::function", "why_tests_cant": "Sequences of assignments are unlimited; a stale object or function shows only for particular orders.", "anchors": ["include/bss-util/Delegate.h:16-58"]}
{"id": "C163", "title": "Deferred calls are made once at the end of the block", "statement": "A call deferred in a block is made exactly once, at the end of that block, after those deferred later, with the arguments given.", "quantifier": "for all programs with nested blocks and any number of deferred calls, also if the returned objects are copied", "why_tests_cant": "The order depends on nesting of any depth.", "anchors": ["include/bss-util/Delegate.h:60-106"]}
{"id": "C164", "title": "Joining a thread waits as long as asked", "statement": "join with a timeout returns as soon as the thread has ended, with its code, and otherwise fails when the timeout is over, not before. The thread can be joined once.", "quantifier": "for all times of day, timeouts and moments at which the thread ends, and all sequences of calls", "why_tests_cant": "Whether the milliseconds carry into the next second depends on when the test is run.", "anchors": ["include/bss-util/Thread.h:74-109"]}
{"id": "C165", "title": "Semaphores let as many waits pass as were notified", "statement": "Notify(n) lets exactly n waits pass, and reports whether it did; a failed call lets none pass.", "quantifier": "for all sequences of calls and counts, on both systems", "why_tests_cant": "Histories are unlimited, and the greatest values are too large for tests.", "anchors": ["include/bss-util/Thread.h:22-60"]}
{"id": "C166", "title": "The sign of a number is that of the number", "statement": "tsign and fsign give -1 for negative numbers and 1 for positive ones, for integers of every size and floating point numbers, and tsignzero also 0 for 0; nothing else is ever returned.", "quantifier": "for all integers of all sizes, and all bit patterns of float and double", "why_tests_cant": "There are 2^64 inputs, among them NaN, zeros of both signs and the smallest integer.", "anchors": ["include/bss-util/bss_util.h:377-406"]}
{"id": "C167", "title": "fSmall compares absolute values", "statement": "fSmall tells whether the absolute value of a number is at most eps, and fCompareSmall whether two numbers are near each other, or both small if one is 0.", "quantifier": "for all floats and doubles, all eps that are not negative, and all distances", "why_tests_cant": "There are 2^32 to 2^64 bit patterns for each argument.", "anchors": ["include/bss-util/bss_util.h:562-591"]}
{"id": "C168", "title": "fWideCompare tells near numbers from distant ones", "statement": "fWideCompare is true exactly for floats that agree to about 16 bits, and false for numbers of different sign or magnitude.", "quantifier": "for all pairs of floats", "why_tests_cant": "There are 2^64 pairs; errors are at powers of two and for signs.", "anchors": ["include/bss-util/bss_util.h:522-533"]}
{"id": "C169", "title": "The hash of a literal is FNV-1a", "statement": "hash_fnv1a is the published FNV-1a hash of the bytes of a text, in 32 and in 64 bits, so that it can be compared with hashes made elsewhere.", "quantifier": "for all texts and start values", "why_tests_cant": "Texts are unlimited; test texts are ASCII, for which signed characters make no difference.", "anchors": ["include/bss-util/bss_util.h:1003-1016"]}
{"id": "C170", "title": "CPU features are those the processor has", "statement": "bssGetCPUInfo reports the highest level of vector instructions that the processor has, and each flag exactly if the processor has the feature.", "quantifier": "for all processors, as described by the registers of cpuid", "why_tests_cant": "A test sees only the processor it runs on.", "anchors": ["bss-util/bss_util_c.c:24-83"]}
{"id": "C171", "title": "Operators of vectors and matrices work by component", "statement": "The arithmetic operators of vectors and matrices apply the operation to each component, also if both operands are the same object, change nothing else, and the comparisons hold exactly if they hold for all components (!= for one).", "quantifier": "for all numbers of components, rows and columns, all types and operations, and all contents", "why_tests_cant": "The sizes are template parameters without limit; tests use a few sizes and objects that do not overlap.", "anchors": ["include/bss-util/vector.h:1065-1150"]}
{"id": "C172", "title": "Integer registers give the same with SSE and without", "statement": "The operations of sseVecT<int32_t> are those of 32 bit integers in each lane, and give the same whether the library is built with SSE or not.", "quantifier": "for all contents of registers and all shift counts", "why_tests_cant": "There are 2^256 pairs of registers, and a test runs only one of the two builds.", "anchors": ["include/bss-util/sseVec.h:55-62", "include/bss-util/sseVec.h:98-117", "include/bss-util/sseVec.h:399-413", "include/bss-util/sseVec.h:479-484", "include/bss-util/sseVec.h:739-770"]}
{"id": "C173", "title": "Shuffles give the lanes they name", "statement": "Shuffle<x,y,z,w> gives lanes x, y, z, w, Sum the sum of all lanes, and the code without SSE gives the same as the instructions.", "quantifier": "for all contents and all shuffle codes", "why_tests_cant": "Contents are too many; the codes of the portable functions are not all used by tests.", "anchors": ["include/bss-util/sseVec.h:64-82", "include/bss-util/sseVec.h:488", "include/bss-util/sseVec.h:786"]}
{"id": "C174", "title": "Rounding of lanes is floor and ceil", "statement": "The floor of a lane is the greatest integer that is not above it, and ceil the least that is not below.", "quantifier": "for all finite floats", "why_tests_cant": "There are 2^32 floats; the errors are at large numbers and at integers.", "anchors": ["include/bss-util/sseVec.h:451-475"]}
{"id": "C175", "title": "A sector contains its points", "statement": "CircleSector::ContainsPoint is true exactly for the points at a distance from inner to outer and an angle from min to min + range, with angles taken modulo a full turn, and a constructed sector has the points its arguments describe.", "quantifier": "for all sectors and points, in exact arithmetic", "why_tests_cant": "Points and angles are a continuum; the period of the angle and the centre are easily missed.", "anchors": ["include/bss-util/Geometry.h:445-451", "include/bss-util/Collision.h:549-574"]}
{"id": "C176", "title": "A circle collides with a sector exactly if they share a point", "statement": "CircleSector::CircleCollide is true exactly if a point of the disc is a point of the sector.", "quantifier": "for all sectors with inner below outer and all circles, in exact arithmetic", "why_tests_cant": "The cases (hole, edges, arcs) depend on reals, and a case left out shows only for some positions.", "anchors": ["include/bss-util/Geometry.h:508-537", "include/bss-util/Geometry.h:625-633"]}
{"id": "C177", "title": "A segment intersects a sector exactly if they share a point", "statement": "CircleSector::IntersectLine is true exactly if a point of the segment is a point of the sector.", "quantifier": "for all sectors with inner below outer and all segments, in exact arithmetic", "why_tests_cant": "That the border of a sector is met whenever its interior is entered is a statement about continua.", "anchors": ["include/bss-util/Geometry.h:497-506", "include/bss-util/Geometry.h:609-612", "include/bss-util/Geometry.h:636-668"]}
{"id": "C178", "title": "A polygon intersects a sector exactly if they share a point", "statement": "CircleSector::IntersectPolygon is true exactly if the polygon and the sector have a common point.", "quantifier": "for all sectors with inner below outer, all numbers of vertices and all positions, in exact arithmetic", "why_tests_cant": "The number of vertices is unlimited, positions are a continuum.", "anchors": ["include/bss-util/Geometry.h:476-495"]}
{"id": "C179", "title": "Two sectors collide exactly if they share a point", "statement": "CircleSector::CircleSectorCollide is true exactly if a point is in both sectors.", "quantifier": "for all pairs of sectors, in exact arithmetic", "why_tests_cant": "There are twelve real parameters and more than twenty tests in the code.", "anchors": ["include/bss-util/Geometry.h:539-606", "include/bss-util/Geometry.h:613-623", "include/bss-util/Geometry.h:654-660"]}
{"id": "C180", "title": "Strings of one character type convert to another", "statement": "A StrT made from a pointer, string or count of characters of the other type has exactly the converted characters, and converting back gives the first text.", "quantifier": "for all texts, counts and conversions that are inverse to each other", "why_tests_cant": "Texts are unlimited; tests use short texts without zeros and do not check the size of the result.", "anchors": ["include/bss-util/Str.h:124-131", "include/bss-util/Str.h:163-167", "include/bss-util/Str.h:283-308"]}
{"id": "C181", "title": "StrF gives the whole formatted text", "statement": "StrF has exactly the characters the format describes, however long they are.", "quantifier": "for all formatted texts", "why_tests_cant": "The length is unlimited, and the buffer is as long as a first call says.", "anchors": ["include/bss-util/Str.h:257-277"]}
{"id": "C182", "title": "RecalcSize makes a string end at its terminator", "statement": "After a text is written into UnsafeString() and RecalcSize is called, the string is that text.", "quantifier": "for all strings, texts and reserved sizes", "why_tests_cant": "What the memory behind the text holds depends on the history of the string.", "anchors": ["include/bss-util/Str.h:176-179"]}
{"id": "C183", "title": "Concatenation appends", "statement": "All forms of + and += give the characters of the left operand followed by those of the right one, also if they are moved, null or the string itself.", "quantifier": "for all strings and pointers", "why_tests_cant": "There are eight overloads, and operands that share memory are rarely tested.", "anchors": ["include/bss-util/Str.h:154-174", "include/bss-util/Str.h:345-391"]}
{"id": "C184", "title": "Keys that are equal have equal hashes", "statement": "Two keys that a Hash compares as equal have the same hash, comparison is an equivalence, and without case it ignores exactly the case of letters.", "quantifier": "for all integers, floating point numbers, texts and tuples of them, nested to any depth", "why_tests_cant": "Keys are unlimited; a test finds a violation only with a pair of different keys that compare equal.", "anchors": ["include/bss-util/Hash.h:18-138"]}
{"id": "C185", "title": "Different integers have different hashes", "statement": "The hash of 32-bit integers is injective, that of 64-bit integers on those with the same upper half.", "quantifier": "for all pairs of integers", "why_tests_cant": "There are 2^63 pairs of 32-bit integers.", "anchors": ["include/bss-util/Hash.h:20-36", "include/bss-util/khash.h:387", "include/bss-util/khash.h:425-436"]}
{"id": "C186", "title": "Graphs and matrices are the same", "statement": "A Graph made from an adjacency matrix has exactly its nodes and edges with their data; ToMatrix writes the data of each edge at the positions of its nodes and leaves the other entries; and a matrix made into a graph and back is unchanged.", "quantifier": "for all matrices, data and histories of added and removed nodes and edges", "why_tests_cant": "Sizes are unlimited, and indices differ from positions only after a removal.", "anchors": ["include/bss-util/Graph.h:75-118", "include/bss-util/Graph.h:126-150", "include/bss-util/Graph.h:173-187", "include/bss-util/LinkedArray.h:43-56", "include/bss-util/LinkedArray.h:164-183"]}
{"id": "C187", "title": "GetNode finds exactly the nodes", "statement": "Graph::GetNode gives a pointer for every index of a node and null for all others.", "quantifier": "for all graphs and indices", "why_tests_cant": "The errors are after removals of nodes, in an order tests do not have.", "anchors": ["include/bss-util/Graph.h:85"]}
{"id": "C188", "title": "ParseJSON stores a text into a typed object", "statement": "ParseJSON ends for every text; for a JSON text that fits the type it sets every member, element and value to what the text says, in whatever order the members come, ignores members the type does not have, and leaves members without a value unchanged.", "quantifier": "for all objects built from flags, integers, strings, vectors, arrays, tuples and structures, nested to any depth, and all texts", "why_tests_cant": "Types, texts, blank space and the order of members vary without limit.", "anchors": ["include/bss-util/JSON.h:46-70", "include/bss-util/JSON.h:169-204", "include/bss-util/JSON.h:296-342", "include/bss-util/Serializer.h:73-186", "include/bss-util/Serializer.h:269-287", "include/bss-util/Serializer.h:328-362"]}
{"id": "C189", "title": "A typed object survives WriteJSON and ParseJSON", "statement": "What WriteJSON writes for an object, compact or pretty, is a JSON text for its type, and ParseJSON into a new object of the type gives the object back.", "quantifier": "for all objects built from flags, integers, strings, vectors, arrays, tuples and structures, nested to any depth", "why_tests_cant": "A round trip is tested for a few types; separators and escapes interact with the nesting.", "anchors": ["include/bss-util/JSON.h:33-38", "include/bss-util/JSON.h:344-402", "include/bss-util/JSON.h:430-466", "include/bss-util/Serializer.h:89-104", "include/bss-util/Serializer.h:269-275"]}
{"id": "C190", "title": "DEBUGVERIFY recognises red-black trees", "statement": "DEBUGVERIFY of a TRBtree ends, returns the number of black nodes on each way down if the tree satisfies the red-black constraints and its links lead back, and -1 if it does not.", "quantifier": "for all structures of nodes, links and colours that are finite and have no null child", "why_tests_cant": "The structures that must be refused are unlimited; tests only feed it trees that the library built.", "anchors": ["include/bss-util/TRBtree.h:167-187", "include/bss-util/TRBtree.h:535"]}
{"id": "C191", "title": "Validate tells whether a changed node has to be inserted again", "statement": "After the value of a node of a TRBtree was changed, Validate is true exactly if the elements are still in order, and then Get still finds exactly the values in the tree.", "quantifier": "for all trees, nodes, new values and total preorders", "why_tests_cant": "Trees and values vary without limit; equal elements are threaded behind the tree node and easily forgotten in tests.", "anchors": ["include/bss-util/TRBtree.h:64-66", "include/bss-util/TRBtree.h:479", "include/bss-util/TRBtree.h:496-511"]}
{"id": "C192", "title": "Containers that are moved give back every node exactly once", "statement": "However AVLTree, KDTree, LinkedList and TRBtree objects are made, filled, moved into new or existing objects, cleared and destroyed, every node is given back exactly once, to the allocator it is from; the target of a move has the elements of the source, and the source is empty and can be used again.", "quantifier": "for all sequences of calls on any number of objects, with and without a policy for the allocator", "why_tests_cant": "A leak or a double free needs a particular order of moves and destructions of several objects.", "anchors": ["include/bss-util/AVLTree.h:95-100", "include/bss-util/AVLTree.h:164", "include/bss-util/KDTree.h:40-45", "include/bss-util/KDTree.h:124-131", "include/bss-util/LinkedList.h:126-137", "include/bss-util/LinkedList.h:176-213", "include/bss-util/TRBtree.h:401-442", "include/bss-util/TRBtree.h:481-494", "include/bss-util/Alloc.h:111-146"]}
{"id": "C193", "title": "The nearest point of an ellipse", "statement": "EllipseNearestPoint gives a point of the ellipse (a point inside is its own nearest point, for one outside the result is on the border), and for points on an axis of the ellipse, or if the ellipse is a circle, it is the nearest one; so an ellipse and a circle are reported to collide only if they have a common point, and in those cases exactly if they have. (Circles that only touch are not reported, Ellipse::NearestPoint forgets to shift the result back to the ellipse's centre, and away from the axes the result is what four steps of Newton's method give.)", "quantifier": "all half axes, centres, points and radii, in exact arithmetic", "why_tests_cant": "The claim compares the result with all the points of the ellipse; tests compare a few points with expected values and tolerances.", "anchors": ["include/bss-util/Collision.h:499-537", "include/bss-util/Geometry.h:413"]}
{"id": "C194", "title": "Poisson disk samples keep their distance", "statement": "PoissonDiskSample with float elements always ends, whatever the random numbers are, without accessing anything outside its grid; it gives at most as many points as the rectangle has cells (squares with the diagonal mindist); all the points are in the rectangle, any two of them have at least the distance mindist, and each but the first is closer than twice mindist to an earlier one. (With double elements the code reads the emptiness of a cell from another cell, and points closer than mindist are given.)", "quantifier": "all rectangles, distances, numbers of points per iteration and sequences of random numbers, in exact arithmetic", "why_tests_cant": "The points are random; a test sees a few runs and cannot decide that no sequence of random numbers gives two close points or an endless loop.", "anchors": ["include/bss-util/RandomQueue.h:60-138"]}
{"id": "C195", "title": "The ziggurat generator rejects exactly", "statement": "NormalZig: the strips of its table all have the area dV (but possibly the last one) and get narrower upwards; a round of Get that draws a point of a strip returns it if and only if the point is below the bell curve, the lowest strip returns what is below dR and otherwise samples the tail, whose rounds are exact rejection from the exponential envelope, with the sign kept; and with mirrored random numbers the result is the negative one. (The number of the strip is drawn from 0 to 127 whatever the size of the table is, and the tail begins at the fixed number ZIGNOR_R whatever dR is: other sizes read outside the table, other values of dR give wrong tails.)", "quantifier": "all sequences of random numbers and all tables that can be computed, in exact arithmetic", "why_tests_cant": "Whether random numbers have the right distribution is a statement about all the draws; tests only see a finite sample, with tolerances.", "anchors": ["include/bss-util/algo.h:149-214"]}
{"id": "C196", "title": "The fast square roots are close to the square root", "statement": "fFastSqrt(x) for every positive normal float x is at most the square root of x and falls short of it by at most 11 millionths of it; dFastSqrt(x) for every positive normal double x is at most the square root and falls short by at most a ten-thousand-millionth of it (both with the multiplications and subtractions in exact arithmetic, the estimate from the bits being exact). (For denormal numbers this is false: the result for the smallest positive float is less than a hundredth of its root.)", "quantifier": "all positive normal float and double numbers", "why_tests_cant": "There are about 2^31 positive floats and 2^63 positive doubles; a test samples a few of them.", "anchors": ["include/bss-util/bss_util.h:603-633"]}
{"id": "C197", "title": "Typed objects through XML", "statement": "Serializing an object (a structure listing its members, a string, a vector, a fixed array or a tuple, built from bools, integers of up to 64 bits, strings, and such types again) with Serializer<XMLEngine> under a name and parsing the text under the same name into an object whose vectors are empty gives the object back, pretty-printed or not, if no array has an array as element, the member names are different and expressible in XML, the integers fit their types, member strings have no quote, '>' or zero byte and strings in arrays are empty or have a visible character. Attributes and elements that are not members are ignored. Without a name, for arrays of arrays, for numbers that are not members and for strings with quotes, the object does not come back; parsing into a vector appends.", "quantifier": "for all types built this way, all values, all objects parsed into with empty vectors, all names, both print modes", "why_tests_cant": "Types nest without bound and members, array elements and node names interact through shared parser state; a test tries a handful of structures", "anchors": ["include/bss-util/XML.h:141-305", "include/bss-util/Serializer.h:70-185", "include/bss-util/Serializer.h:249-362"]}
{"id": "C198", "title": "Typed objects through UBJSON", "statement": "Serializing an object (bool, integer, float, string, vector, DynArray, fixed array, tuple or a structure listing its members, nested) with Serializer<UBJSONEngine> without a name succeeds and parsing the bytes into an object whose vectors and dynamic arrays are empty gives the object back and consumes exactly the bytes written, if arrays have only elements that the writer has a marker for (bool in fixed arrays, char, unsigned char outside vectors, signed 16/32/64-bit, float, double, strings, DynArray, structures), integers are below 2^63, strings have no zero byte and member names are different. An integer written as one type is read into another integer type as by a cast, into a string as decimal text, into a bool as non-zero. Outside these conditions it fails: vectors of bytes come back with as many zeros in front, arrays of larger unsigned integers, of vectors or of tuples cannot be written, bits of a DynArray<bool> are lost, unknown members derail the parser, a name makes the output unreadable, and an array without count that is longer than the fixed array it is read into loops forever.", "quantifier": "for all types built this way, all values, all objects parsed into, all bytes that follow", "why_tests_cant": "Types nest without bound, and markers, counts and bulk reads depend on the combination of container and element type; a test tries a handful", "anchors": ["include/bss-util/UBJSON.h:252-503", "include/bss-util/Serializer.h:70-185", "include/bss-util/Serializer.h:249-409"]}
{"id": "C199", "title": "Random numbers are in the range asked for", "statement": "An integer from bssrand with a 64-bit engine is at least min and below max for every draw, however large the range; bssRandInt is defined exactly if max - min is an int64_t, and with bounds in the wrong order it gives a number above max and not above min. Larger draws give larger numbers, and in a range of up to 2^52 numbers each is given for some draw, so that Shuffle stays in the array and can give every permutation. A real number from bssRandReal is not below min and not above max for 0 <= min < max, but max itself is not excluded; in ranges of nearly 2^53 numbers some are never given.", "quantifier": "for all draws of the engine and all bounds, with rounding to nearest in double arithmetic; arrays of any length", "why_tests_cant": "The failures of such code come from roundings at single draws out of 2^64, which no test meets by chance", "anchors": ["include/bss-util/algo.h:104-136"]}
{"id": "C200", "title": "Variants survive a serializer", "statement": "A Variant that has a value is written by a serializer and read back, into a variant in any state, as the same value of the same type if the engine reads back values of that type; members of other names do not matter. An empty variant read into an empty one stays empty. Whatever the text is, if it can be read and the value comes after the tag, the variant holds a value of the type its tag says. But the value that the variant had before is never destroyed, and a text that has the value before the tag, or a tag without value, leaves a variant whose tag and object do not agree.", "quantifier": "for all lists of types, all values and engines, all states of the variant read into, all texts", "why_tests_cant": "A test reads a text of the writer into a fresh variant; what untrusted texts and used variants lead to is not seen from the outside", "anchors": ["include/bss-util/Variant.h:97-119", "include/bss-util/Serializer.h:188-230", "include/bss-util/Serializer.h:268-287"]}
{"id": "C201", "title": "Registry values are read back", "statement": "A number stored with SetRegistryValue or SetRegistryValue64 is read back by GetRegistryValueDWORD or GetRegistryValueQWORD as the unsigned number of the same bits, no other value changes, and nothing changes if storing fails. Reading a number from an existing key succeeds exactly if there is a value of that type that fits; GetRegistryValue gives the length of the value and its bytes if the buffer is large enough. Storing a string reads behind its end, reading from a missing key uses a handle that was never set, and a failed read may change the variable.", "quantifier": "for all registries, keys, names, numbers and buffers, given the documented behaviour of the system calls", "why_tests_cant": "The registry cannot be enumerated, and reads behind a string or of unset handles usually go unnoticed", "anchors": ["bss-util/bss_util.cpp:196-306"]}
{"id": "C202", "title": "Initial values of an animation", "statement": "GetValues of an animation state gives the initial values of those of its parts that have one, in their order. SetValues gives each of these parts the value at its place and changes no other part. Values that were set are those that are got, and setting the values that were got changes nothing.", "quantifier": "for all lists of parts with distinct types, with or without value, and all values", "why_tests_cant": "The indices are computed by recursion over the template arguments; each test instantiates one list", "anchors": ["include/bss-util/Animation.h:83", "include/bss-util/Animation.h:114-146"]}
{"id": "C203", "title": "Resizing memory through allocators", "statement": "StandardAllocator::allocate with a block, its number of elements (or zero) and a new number gives a block with room for the new number which begins with the elements of the old, up to the smaller number; every other block keeps its address and elements, and the old block is gone unless it was resized in place. deallocate with the block's number of elements (or zero) frees exactly that block. This holds in debug builds, where no assertion fails and another number is noticed, and in release builds, with and without an alignment; a block has the allocator's alignment. GreedyPolicy::allocate keeps the elements likewise and writes to the new memory only.", "quantifier": "every heap, every block, element size, alignment, old and new number, every address and content the system's allocator may choose", "why_tests_cant": "The contents of blocks depend on the heap and on addresses chosen by the system; tests run in one build with one allocator.", "anchors": ["include/bss-util/Alloc.h:15-92", "include/bss-util/GreedyAlloc.h:180-198"]}
{"id": "C204", "title": "Keys of a hash table live as long as they should", "statement": "For every history of calls on a Hash, the keys (and values) of all present entries have been constructed and not destroyed, no key is destroyed more often than one is constructed, and when the table is destroyed every key it constructed has been destroyed.", "quantifier": "every history, every key type, hash function and kind of array", "why_tests_cant": "Constructors and destructors of most key types leave no trace a test looks at; rehashing happens only at certain fill levels.", "anchors": ["include/bss-util/Hash.h:207-224", "include/bss-util/Hash.h:438-526", "include/bss-util/Hash.h:529-633"]}
{"id": "C205", "title": "Bits written through BitStream objects arrive once and in order", "statement": "However BitStream objects are constructed, moved, copied, assigned, flushed and destroyed: once the last object of a stream is destroyed, the stream has exactly the bits that were written to it, once and in order, filled up to a whole byte, and reading them with the same bit counts gives the values back.", "quantifier": "every history of calls on any number of objects and streams", "why_tests_cant": "The unfinished byte is shared state of the object and the stream; its handling depends on the whole history.", "anchors": ["include/bss-util/BitStream.h:17-20", "include/bss-util/BitStream.h:81-84"]}
{"id": "C206", "title": "A seeded random engine is determined by its numbers", "statement": "Seeding an engine with 16 words does not depend on its state before. Engines seeded with different arrays, or with different numbers, do not return the same first 16 numbers. Two engines compare equal exactly if they return the same numbers from then on. discard(z) leaves out exactly the next z numbers. XorshiftRand with a seed, and the calls without a seed after it, return what an engine with that seed returns.", "quantifier": "every seed and array, every number of draws, every history of calls", "why_tests_cant": "There are 2^1024 states; that no two of them give the same numbers is about all of them.", "anchors": ["include/bss-util/XorshiftEngine.h:82-138"]}
{"id": "C207", "title": "Alias tables that are assigned and moved return the same results", "statement": "However alias tables are constructed, assigned and moved, every table returns for the same draws what the table that it was made from returned, reads only entries it has, and has its number of entries; a table that was moved from can be used like an empty one.", "quantifier": "every history of operations on any number of tables, all sizes of the number and probability types, all draws", "why_tests_cant": "What is copied is counted in bytes of one type for two arrays; tests use one pair of types.", "anchors": ["include/bss-util/AliasTable.h:15-24", "include/bss-util/AliasTable.h:108-127"]}
{"id": "C208", "title": "Block pools that are moved keep their blocks and free their memory once", "statement": "However block pools are made, used, moved, assigned, cleared and destroyed: blocks that were taken from a pool stay valid when it is moved and belong to the pool that took it over, no block is handed out twice, also by different pools, no memory is freed twice, and all memory is freed when the last pool is destroyed; a pool that was moved from can be used again.", "quantifier": "every history of operations on any number of pools", "why_tests_cant": "Ownership of chunks depends on the whole history of moves.", "anchors": ["include/bss-util/BlockAlloc.h:20-103", "include/bss-util/BlockAllocMT.h:17-101"]}
{"id": "C209", "title": "Linked arrays that are copied and assigned are independent and keep their indices", "statement": "However linked arrays are constructed, changed, copied, assigned and moved: indices that were valid in the source are valid in the copy and have the same values in the same order in both directions, later changes to one array are not visible in another, an array that is assigned to itself keeps its values, and one that was moved from is empty.", "quantifier": "every history of operations on any number of linked arrays", "why_tests_cant": "Whether free cells and links of copies stay right depends on the history before and after the copy.", "anchors": ["include/bss-util/LinkedArray.h:30-36", "include/bss-util/LinkedArray.h:80-81", "include/bss-util/Array.h:343-355"]}
{"id": "C210", "title": "XML nodes that are copied, assigned and moved are independent trees", "statement": "However XML nodes are constructed, edited, copied (also with AddNode), assigned, moved, cleared and destroyed: a copy has the name, text, attributes and children of its source, an assigned node has exactly what its source has, also if it is the node itself, a node that was moved from has no attributes and children, and later changes to one node are not visible in another.", "quantifier": "every history of operations on any number of nodes, trees of every shape", "why_tests_cant": "Whether copies are deep, and whether the copy ends, depends on the shape of the tree; tests do not copy nodes.", "anchors": ["bss-util/XML.cpp:57-98", "bss-util/XML.cpp:137-143", "include/bss-util/Array.h:207-222", "include/bss-util/DynArray.h:27-28", "include/bss-util/DynArray.h:99-108"]}
{"id": "C211", "title": "ArbitraryArray is an array of elements of a size chosen at run time", "statement": "For every history of calls on arrays of elements of any size: Get gives each element that was added, Add appends an element that begins with the bytes of the item (cut off after the element size), Remove removes exactly one, SetElement with an array replaces the content, SetElement with a size keeps every element, cut off or filled with zeros, SetLength keeps elements, copies and moves have the same elements, and no call accesses memory outside of the array.", "quantifier": "every history of operations, all element sizes, item sizes and contents", "why_tests_cant": "Whether memory suffices depends on the sizes that were used before in combination with later ones.", "anchors": ["include/bss-util/DynArray.h:339-453"]}
{"id": "C212", "title": "A moved CacheAlloc keeps its blocks safe and leaves nothing behind", "statement": "When a CacheAlloc is moved by construction or assignment, blocks in use still never overlap and lie in memory the new owner frees, every later Alloc and Dealloc on the new owner is defined, the source frees nothing and hands out no block of the new owner, and an assignment loses no memory.", "quantifier": "for all maximal sizes, alignments, histories of Alloc, Dealloc, client writes and moves, all addresses the system returns, and all target pools", "why_tests_cant": "A moved pool works in a short test because the old blocks stay valid; the free lists left in the source and the memory lost by an assignment show only when both objects are used or destroyed later.", "anchors": ["include/bss-util/CacheAlloc.h:18", "include/bss-util/CacheAlloc.h:106-113", "include/bss-util/GreedyAlloc.h:26-31", "include/bss-util/GreedyAlloc.h:125-134", "include/bss-util/GreedyAlloc.h:37-47"]}
{"id": "C213", "title": "A singleton never registers an object that does not exist", "statement": "Through any construction, move construction, move assignment and destruction of objects of a class derived from Singleton, the registered instance is null or an object that exists; a new object is registered, a moved object hands its place on, destroying another object changes nothing; with one object at a time the instance is that object wherever it is moved to.", "quantifier": "for all histories of calls on any number of objects at any addresses, including addresses that are used again", "why_tests_cant": "A dangling instance needs a particular order of moves and destructions at reused addresses; tests with one static object never see it.", "anchors": ["include/bss-util/Singleton.h:10-26"]}
{"id": "C214", "title": "Destroying a graph releases every edge once, and moving one loses none", "statement": "The destructor of a Graph releases the memory of every edge exactly once and touches nothing released, whatever nodes and edges were added and removed; a graph that is assigned by move has all nodes and edges of the source and releases them, the source can be destroyed, and no edge of the target is lost.", "quantifier": "for all histories of adding and removing nodes and edges, with loops and parallel edges, and all pairs of graphs", "why_tests_cant": "Leaks and double releases do not change results; a test would need an instrumented allocator and every shape of graph.", "anchors": ["include/bss-util/Graph.h:81", "include/bss-util/Graph.h:119-125", "include/bss-util/Graph.h:154-161", "include/bss-util/LinkedArray.h:81"]}
{"id": "C215", "title": "A moved ring allocator keeps its blocks, and the source can be used again after Clear", "statement": "When a ring allocator is moved by construction or assignment, blocks in use still do not overlap and lie in buckets the new owner releases, every later call on the new owner is defined, an assignment releases exactly the buckets of the target, and the source releases nothing and after Clear is an empty allocator with one new bucket.", "quantifier": "for all histories of Alloc, Dealloc, Clear, client writes, moves and reuse of sources, for all sizes and all addresses the system returns", "why_tests_cant": "The source keeps its list of free buckets after a move, so safety depends on the order in which Clear resets fields; tests do not reuse moved pools.", "anchors": ["include/bss-util/RingAlloc.h:32-37", "include/bss-util/RingAlloc.h:44", "include/bss-util/RingAlloc.h:112-152"]}
{"id": "C216", "title": "CompactArray objects release the memory they take, once", "statement": "However CompactArray objects are made, filled, copied, moved into new or existing objects (also onto themselves) and destroyed, every block of memory belongs to exactly one array, no block is released twice, a moved array hands its block on and is left empty, a copy has memory of its own, and when no array is left all memory is released.", "quantifier": "for all histories of calls on any number of arrays, all inline capacities, and all addresses the allocator returns", "why_tests_cant": "The union of pointer and inline elements is copied bytewise; leaks and double releases need particular orders of moves between inline and heap states and do not change results.", "anchors": ["include/bss-util/CompactArray.h:23-55", "include/bss-util/CompactArray.h:86-109", "include/bss-util/CompactArray.h:123-138"]}
{"id": "C217", "title": "Priority heaps that are copied and moved keep their handles", "statement": "PriorityHeap objects are values: a copy, a move into a new object and the target of an assignment have the elements of the source under the same handles, later calls on one object do not concern another, and an object that was moved from is empty and can be used again.", "quantifier": "for all histories of calls, copies and moves on any number of heaps and all orders of values", "why_tests_cant": "Whether a handle still denotes its element after a move shows only when the table of handles is read; a test that only pops elements passes.", "anchors": ["include/bss-util/PriorityQueue.h:68-73", "include/bss-util/PriorityQueue.h:88-101", "include/bss-util/BinaryHeap.h:39-40", "include/bss-util/BinaryHeap.h:141-142"]}
{"id": "C218", "title": "A lock-free queue loses no node and its destructor gives back every node", "statement": "For the single-producer single-consumer queue: at any moment, however the two threads interleave, every node that was allocated and not given back can be reached from the first node, but for the one a running Push is about to give back; and once both threads have finished their calls, the destructor ends, touches no node that was already given back and leaves none, whatever values were not popped.", "quantifier": "for all interleavings of any numbers of Push and Pop calls and all addresses the allocator gives", "why_tests_cant": "Which nodes the collection in Push has already given back depends on the interleaving; a leak or a double release in one of them shows only there.", "anchors": ["include/bss-util/LocklessQueue.h:52-70", "include/bss-util/LocklessQueue.h:73-89", "include/bss-util/LocklessQueue.h:103-121"]}
{"id": "C219", "title": "A queue for many threads loses no node, also when it is moved", "statement": "For MicroLockQueue: at any moment, however any number of threads interleave, every node that was allocated and not given back is in the queue or held by a running call; once all calls have finished, the destructor ends, touches no node that was already given back and leaves none; and after a queue was moved into a new object or assigned to another one, the destructors of both give back every node exactly once.", "quantifier": "for all numbers of threads, all interleavings of their Push and Pop calls, and all addresses the allocator gives", "why_tests_cant": "A node that is lost or given back twice in one interleaving shows only in that interleaving, and a leak never shows in the results of the calls.", "anchors": ["include/bss-util/LocklessQueue.h:137-142", "include/bss-util/LocklessQueue.h:158-190", "include/bss-util/LocklessQueue.h:192-214"]}
{"id": "C220", "title": "Union-find objects that are moved keep their classes", "statement": "DisjointSet objects can be moved: the new object or the target of an assignment has the elements, classes and NumSets of the source, later Union and Find calls and Reset go on from there, calls on one object do not concern another, and an object that was moved from has no elements and no sets.", "quantifier": "for all histories of constructions, Union, Find, NumElements and Reset calls and moves on any number of objects", "why_tests_cant": "Whether a moved object still counts its sets right depends on all calls before and after the move; no finite set of histories settles it.", "anchors": ["include/bss-util/DisjointSet.h:27", "include/bss-util/DisjointSet.h:40-86", "include/bss-util/DisjointSet.h:109-113", "include/bss-util/DisjointSet.h:186-191", "include/bss-util/Array.h:110-133"]}
{"id": "C221", "title": "Circular arrays can be copied, moved and destroyed like values", "statement": "ArrayCircular objects are values: a copy, a move into a new object and the target of an assignment have the capacity and the elements of the source in order, wherever they lie in its block, later calls on one object do not concern another, an object that was moved from is an empty array without capacity that can be used again, and every element is destroyed before its block is given back.", "quantifier": "for all histories of calls, constructions, copies, moves and destructions of any number of arrays", "why_tests_cant": "The elements may lie in one or two chunks of the block at any position; the combinations of positions, lengths and capacities of source and target have no bound.", "anchors": ["include/bss-util/ArrayCircular.h:25-34", "include/bss-util/ArrayCircular.h:60-75", "include/bss-util/ArrayCircular.h:100-129", "include/bss-util/Array.h:110-133"]}
{"id": "C222", "title": "A queue destroys every value", "statement": "Every value pushed into a Queue that is not returned by Pop is destroyed: by Discard, by Clear, or by the destructor before the memory of the queue is given back, however often the queue has grown and wrapped around.", "quantifier": "for all initial capacities and all histories of Push, Pop, Peek, Discard and Clear calls", "why_tests_cant": "A value that is never destroyed changes no result of any call; whether the destructor reaches it depends on where the queue lies in its block.", "anchors": ["include/bss-util/Queue.h:24-35", "include/bss-util/Queue.h:50-56", "include/bss-util/ArrayCircular.h:34", "include/bss-util/ArrayCircular.h:46-53", "include/bss-util/ArrayCircular.h:60-75"]}
