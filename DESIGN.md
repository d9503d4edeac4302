# Formal model of bss-util: design

This document says what is modelled, how each property of `properties.jsonl` is stated and proved,
what is trusted, and where the code disagrees with the property.

## 1. Method and conventions

* One directory per component under `lean/Verif/`.  Inside it: `Model.lean` (the code, function by
  function, every definition citing file and lines), `Spec.lean` where the property needs vocabulary that
  is not in core Lean/Mathlib (kept small and independent of the model), `Lemmas*.lean` (helpers),
  `Props.lean` (the property theorems, named `Cnn_…`, each with an `example` that meets its hypotheses,
  plus counterexample theorems for violated claims).  Small components may use fewer files.
* Mutation through pointers becomes a returned value; loops become structural recursion or recursion with
  an explicit measure.  Where the C++ loop has no syntactic bound, the model either carries fuel and the
  theorem proves that the fuel chosen is always sufficient (termination is then part of the claim), or
  uses a well-founded measure.
* Undefined behaviour (out-of-range access, signed overflow, division by zero, use after free) is a
  distinct outcome (`none`, `.ub`, or an explicit fault flag) and the theorems prove it is not reached, or
  state the precondition.
* Machine integers are `BitVec n`, or `Nat`/`Int` with an explicit range hypothesis, when the property is
  about overflow; otherwise `Nat`/`Int`, which assumes sizes stay below 2^63 (recorded per component).
* Concurrency: each `std::atomic` access is one step of a labelled transition system with sequentially
  consistent semantics; threads are unbounded in number; every interleaving is a path.
* Where the unchanged code violates a property, a theorem whose name contains `_false` or
  `_counterexample` proves the negation with a concrete witness, and a `_partial` theorem proves what does
  hold under an explicit precondition.

## 2. Trusted base

* Lean 4.33.0's kernel.  Property theorems depend on at most `propext`, `Classical.choice`, `Quot.sound`.
  No axioms are added; no `sorry`, `admit`, `native_decide`, `bv_decide`.
* The reading of the C++ source: the models are hand-written from the source text.  The code was not run.
* C++ language assumptions: two's complement, 8-bit bytes, `char` signed, LP64; the element type's copy,
  move and destructor behave as value copies without side effects unless stated.
* Memory model: sequential consistency (the code uses `memory_order_acquire/release/relaxed` in places;
  relaxed-memory behaviours are not modelled).
* `malloc`/`operator new` return fresh, disjoint blocks and do not fail.
* Comparison functions given by the user are total preorders where the property says so.

## 3. Plan per property

| Id | What is modelled | How it is proved |
|----|------------------|------------------|
| C01 | `BinaryHeap` on `List`/`Array` with index arithmetic of Parent/Left/Right | heap invariant by induction on ops; multiset preserved; refinement to a multiset with max |
| C02 | `Heapify`, `HeapSort` | invariant "suffix sorted and above the heap prefix" |
| C03 | `Remove` | counterexample + `_partial`: holds when the replacement does not exceed the removed node's parent |
| C04 | the search loops, with checked reads | loop invariant; result characterised as count of smaller/equal elements |
| C05 | `ArraySort` | sortedness invariant over operation lists |
| C06 | `Map` as sorted array of pairs | refinement to `K → Option V` |
| C07, C08 | parent array with negative sizes at roots | forest invariant with rank measure; refinement to the equivalence closure |
| C09 | Kruskal loop over union-find | exchange argument on finite edge lists |
| C10, C11 | byte-level encoder/decoder incl. the decode table | induction three bytes at a time; bit-vector lemmas |
| C12 | writer/reader state machines | each op appends/consumes a list of bits |
| C13, C14 | circular buffer with cursor, capacity, length | refinement to list; modular arithmetic lemmas |
| C15, C16 | arrays as lists | refinement |
| C17 | link array with next/prev/free list | representation predicate: chain segments + free chain partition indices |
| C18, C19 | heap of nodes `Addr → Option Node` | representation predicate `Chain`, frame lemma |
| C20, C21 | tree with stored balance, insert/remove with rotations and height-change flag | BST + balance invariants, refinement to map |
| C22 | level-tree with skew/split | AA invariants; insertion; deletion |
| C23 | red-black insertion with threads | colour invariants + in-order thread |
| C24, C25 | flags/keys/vals arrays, quadratic probing, resize with kick-out | probe-permutation lemma on powers of two; table invariant; refinement to finite map |
| C26 | trie node array | lookup correctness by induction over the build |
| C27, C28 | array with capacity; bit-packed array | refinement to `List` |
| C29, C30 | `Rational` over `Int` with overflow predicate | algebra in `ℚ`, gcd lemmas |
| C31, C69 | `FixedPt`, `SafeShift`, `bssMultiplyExtract` on integers/BitVec | arithmetic; counterexample for conversion |
| C32 | alias construction over `ℚ` | mass-conservation invariant |
| C33–C37 | allocators: address = (chunk, offset), free lists explicit | ownership-partition invariants over histories |
| C38–C40 | `RWLock` transition system | inductive invariant on counter/flag vs. program counters |
| C41 | tagged free list CAS machine | invariant over interleavings |
| C42, C43 | queue machines with node heap and reclamation | invariant relating list segments to history |
| C44 | task pool machine | conservation invariant over interleavings |
| C45, C46 | handle graph with counts / owner flags | count = number of handles invariant |
| C47–C50 | UTF converters on lists of units, with buffer limits | per-code-point lemmas lifted by list induction |
| C51 | digit loop | positional-value induction |
| C52–C58 | integer and bit functions | arithmetic, `omega`, `BitVec` extensionality |
| C59, C60 | value tree, byte encoder, recursive-descent parser | induction on values |
| C61 | tree of rectangles with split lines | traversal exactness from tree invariant |
| C62 | xorshift maps on `BitVec 64` / 16-word state | explicit inverses |
| C63 | Fisher–Yates loop | injectivity of draws → permutations |
| C64, C65 | adjacency lists; BFS loop with union-find visited set | list invariants; reachability |
| C66 | heap with handle back-pointers | consistency invariant |
| C67, C70 | string scanners | list recursion |
| C68 | event queue loop | order invariant; UB on empty queue as counterexample |
| C71–C73 | string table, stream buffer, compact array | refinement to lists |
| C74, C79 | curve and root formulas over a field | `ring`, factorisation |
| C80 | recursive subdivision with fuel | de Casteljau identities, error bound, contraction argument for termination |
| C81 | Newton/bisection loop | bracket invariant |
| C82 | circular queue with uninitialised slots | queue abstracted to a list of subtrees; counting argument for the room |
| C83 | loops over a field | induction over the values |
| C84 | bit patterns as naturals below 2^w | case analysis on signs, modular arithmetic |
| C85 | recursion with fuel, stateful oracle | tilings of two parts combine |
| C86 | loop with checked reads | first-occurrence invariant |
| C87, C88 | value tree, writer, recursive-descent parser on characters | grammar as an inductive relation; induction on derivations; length argument for termination |
| C89, C90, C92 | node tree, writer, pattern-matching parser on bytes | grammar as an inductive relation; induction on derivations; length argument for termination |
| C91 | list of children with links and hash table | invariant over histories |
| C93, C94 | list of edges, nodes and demands | equivalence of the sets of solutions, by induction over the loops |
| C95 | flows, excesses, heights, vertex list; fuel | preflow as invariant of every round; endless run by strong induction on the fuel |
| C96 | recursion on the order over the reals | a dual number is the jet of a function; induction on the order for each operation, then on the expression |
| C97 | matrices over a field, SSE registers as functions of the lane | polynomial identities |
| C98 | loops as folds of updates | each position is written once, so a fold of updates is a pointwise definition |
| C99, C100 | matrices and vectors over the reals | polynomial and trigonometric identities; Gram determinant; complex argument |
| C101 | loop with early exit over a linear order | first difference; lexicographic order of Mathlib |
| C102, C103 | SSE registers | polynomial identities; quaternions of Mathlib |
| C104 | lines of a text; reader state machine with buffers and their sizes | induction over the lines; trimming and scanning as `takeWhile`/`dropWhile` |
| C105, C106 | node lists, memory of nodes, table of names | invariant: the list is the concatenation of the groups of each name; induction over operations |
| C107 | text edits by position against node edits | position arithmetic to line splits; both sides refine one abstract view; induction over edits |
| C108 | balls of Euclidean space | distances to comparisons of squares; a witness on the axis for subsets and overlaps |
| C109 to C112, C114 | points of lines, rays, segments and circles as sets | parameters; quadratic equation; Lagrange's identity; Cramer's rule |
| C113 | rectangles as boxes | order on each axis; nearest point of the box for circles; scaling for ellipses |
| C115 | polygons as functions from the number of the vertex | parity of crossings; induction over the fan; existence and uniqueness of the rising edge of a convex polygon |
| C116 | sums over the edges | telescoping sums over a cycle; fan decomposition |
| C117 | time in an ordered field; a track is a state machine with calls as outputs | induction over the steps; floor arithmetic; prefixes of the list of frames |
| C118 | as C117 | cursor = number of frames up to an earlier time, by induction over the history |
| C119 | as C117, with the heap of C03 | heap specification; invariant: handles returned = removed + queued |
| C120 | tracks with the sorted array of C05 | invariant by induction over the history |
| C121 | polynomials over a field; derivatives over the reals | the bracket theorem C81; calculus |
| C122 | bytes and escapes as functions; grammar of the four forms as inductive predicates | induction over the grammar |
| C123 | types as a description with values indexed by it; the grammar says how a text changes a value | induction over types, arrays, lines, sections |
| C124 | as C123 | what is written is a document of C123; embedding of nested objects into the root |
| C125 | loops with fuel; `hang` and `ub` as outcomes | every function returns a suffix of the stream, every iteration a shorter one |
| C126 | memory as a list, pointers as indices, characters as integers | one-step lemmas, induction over the string |
| C127 | as C126; `strtok_r` on lists | induction over the pieces; fuel for the endless loop |
| C128 | as C126 | induction over the string |
| C129 | as C126; command line as an inductive relation | induction over the length; both passes in step |
| C130 | as C126; reading of a format as an inductive relation | induction over the reading; pending text flattened |
| C131 | blocks of slots (raw, moved, element) on a heap; arrays as objects with pointer, capacity, length | invariant over all programs, framing of the heap, refinement to sequences |
| C132 | streams, splitters and loggers as numbered objects; delivery as nested calls with a depth | invariant over all programs, refinement to "text goes to the targets at once" |
| C133 | as C132 | as C132 |
| C134 | array of names with the `uint8_t` arithmetic | list lemmas; invariant |
| C135 | format of C130 with the placeholders of the logger; minutes since midnight | reading of the format, arithmetic of the day |
| C136 | variants as tag and storage (raw or a live object of a type), with counters of constructors and destructors | invariant over all programs, refinement to "empty or a typed value" |
| C137 | sizes and alignments as numbers, the usual layout rules | arithmetic of rounding |
| C138 | the trie as a map from places (lists of base-16 digits) to nodes, the clock as given values | induction over programs, with an invariant of the trie |
| C139 | `_flatOut` with fuel, exact averages | induction over the depth; sums over calls split by the next digit |
| C140 | `_treeOut` as a list of lines | induction over the depth; the list is the sorted list of the paths that were called |
| C141 | `_heatOut` as a set of nodes with their paths | induction over the depth |
| C142 | `GaussianQuadrature` over the real numbers | moments of each rule, then linearity and substitution for all polynomials |
| C143 | `bssFMod`, `AngleDist`, `AngleDistSigned` over the real numbers with the exact π | characterisation of the floor; comparison with `arccos (cos (a - b))` |
| C144 | `fLength` over the real numbers | inequalities between squares |
| C145 | the choice in `GetFontPath` (Windows) | invariant of the loop over the sorted fonts against a separate ranking of weights |
| C146 | `HighPrecisionTimer` with the clock's readings as arguments, both platforms | induction over the calls |
| C147 | `r_delregnode` on a registry given by its keys | mutual induction over a bound on the steps; measure: keys at or below the key |
| C148 | `BitLimit` and `T_CHARGETMSB` | all cases of the finite domain |
| C149 | `GetBitMask`, `bssSetBit`, `bssGetBit` on bit vectors | bit by bit |
| C150 | `StreamBufArray` behind the public functions of `std::streambuf` | refinement to bytes and a position, by induction over the calls |
| C151 | `StreamBufFunction` with `_onwrite` and `_onread` as their places in the code require | invariants by induction over the calls |
| C152, C153 | reading and writing of time points in TOML, with `time_get`, `put_time` and `gmtime` by their specification | calendar by induction over days; parsing of all printed texts |
| C154, C155 | `INIentry` with `strtoll`, `strtoull`; floating point numbers are a parameter | induction over digits |
| C156 | `_setFilePath` | the parts around the last separator |
| C157 | constructors and assignments of `INIstorage` on a memory of nodes | ownership of nodes |
| C158 | entries of all documents and the shared empty one | induction over the calls |
| C159 | `Slice` with its part and increment operators | case analysis on begin and end; induction over the length |
| C160 | `ArrayMultiRef::GetIndice` | induction over the dimensions: a bijection |
| C161 | `VARARRAY` and `VariableArray`, events of construction and memory | bit masks |
| C162 | `Delegate` variables | refinement to a map of callables, induction over the assignments |
| C163 | `defer` in nested blocks | induction over programs |
| C164 | `Thread::join` with a timeout, on POSIX and Windows | decision logic; induction over calls |
| C165 | `Semaphore` on POSIX and Windows | counting, induction over the history |
| C166 to C168 | `tsign`, `tsignzero`, `fsign`, `fSmall`, `fCompareSmall`, `fWideCompare` on bit patterns | bit arithmetic, order of the values |
| C169 | `hash_fnv1a`, `hash64_fnv1a` | induction over the text |
| C170 | `bssGetCPUInfo` over the registers of `cpuid` | bit masks, decision logic |
| C171 | component-wise operators of `Vector` and `Matrix` over a memory | induction over the loops, objects that coincide |
| C172 to C174 | `sseVecT` of 32-bit lanes, with SSE and portable; floor and ceil | refinement between the two builds, bit arithmetic |
| C175 to C178 | `CircleSector`: points, circles, segments, polygons over the reals | angles modulo 2π, first point of a closed set on a segment, induction over the edges |
| C179 | `CircleSector::CircleSectorCollide` | soundness of each test, counterexamples |
| C180 to C183 | `StrT`: conversion of characters, `StrF`, `RecalcSize`, `+` and `+=` | conversions as parameters, memory with a terminator, case analysis of shared memory |
| C184, C185 | hashes and comparison of keys | induction over nested tuples, bit-by-bit induction, inverses modulo 2^32 |
| C186, C187 | `Graph` from and to matrices, node indices | invariant over histories, induction over the loops, round trip |
| C188, C189 | `ParseJSON` and `WriteJSON` of typed objects (`Serializer` with `JSONEngine`) | grammar relative to a type, mutual induction, suffix invariant for termination, round trip |
| C190, C191 | `TRBtree::DEBUGVERIFY` and `Validate` | memory of nodes, induction over the structure; the tree of C23 with a changed value |
| C192 | moves of `AVLTree`, `KDTree`, `LinkedList`, `TRBtree` and their allocators | simulation over histories of several objects, ownership invariant |
| C193 | `Geo/Ellipse`: nearest point by Newton's method over ℝ | the start is already a zero of the derivative for circles and points on an axis, then distances compared; membership in general |
| C194 | `Spatial/Poisson`: grid, queue and output of the sampler, arbitrary random numbers | invariant (grid = cells of the points given, distances), neighbourhood lemma for floors, counting of cells for termination |
| C195 | `Random/Ziggurat`: tables, rounds, tail of `NormalZig` over ℝ | recursion of the table inverted by exp/log; the tests of the rounds are equivalent to lying below the bell curve |
| C196 | `Num/FastSqrt`: bits of `float` and `double`, exact steps over ℚ | case analysis on the parity of the exponent and the borrow, polynomial bounds, quadratic convergence of the steps |
| C197 | typed objects through XML as dependently typed values, parser and serializer by mutual recursion on the type | round trip by mutual induction on types, for a loop invariant that says which nodes belong to which member; filtering unknown nodes |
| C198 | `Ubjson/Typed`: typed objects through UBJSON, on the byte level of C59 | round trip by mutual induction on types with embeddings of partial tuples and structures; bulk reads of bytes separately |
| C199 | `Random/Rand`: rounding to 53 bits on natural numbers, draw, product and truncation | rounding is monotone and fixes the doubles; the product is compared with the double before the difference |
| C200 | `Var/Serial`: tag and value members of a variant, the object in the storage, objects lost | folding the members of a text; position of a type in the list is injective |
| C201 | `Sys/RegValue`: registry as a function of key and name, documented system calls | frame and read-back lemmas for one value, base 256 |
| C202 | `Ani/Values`: recursion over the template arguments with checked tuple access | induction on the arguments with the prefix that is already set |
| C203 | `Verif/Alloc/Standard` | heap of blocks; contents and frame per call, debug and release |
| C204 | `Verif/Hash/Life` | counting of constructions and destructions along every history, on the model of C24 |
| C205 | `Verif/BitStream/Objects` | refinement of histories of objects to lists of requests per stream, then C12 |
| C206 | `Verif/Random/Engine` | 16 outputs determine the words, injectivity of the step (C62) goes back to the seed; turned states for the counterexample |
| C207 | `Verif/Random/AliasObjects` | refinement of histories on arrays of bytes to values |
| C208 | `Verif/Alloc/Moves` | ownership invariant over histories of operations on many pools |
| C209 | `Linked/ArrObjects` | every live object stays a reachable state of C17 with its own sequence |
| C210 | `Xml/Objects` | objects refine trees of their own; elements that were not copied are a value of their own; loops with fuel |
| C211 | `Dyn/Arbitrary`: `ArbitraryArray` on bytes with checked copies | memory = concatenated rows and room for whole elements, by induction over the calls |
| C212 | `Alloc/CacheMoves`: move constructor and assignment on the pool of C36 | histories with moves are histories of C36; no free list before the first cached block |
| C213 | `Own/Singleton`: registered address and existing objects | invariant over all histories; exact state for one object at a time |
| C214 | `Graph/Objects`: destructor and move assignment on the graph of C64 | induction over the nodes with the invariant of C64; every edge starts at a node that exists |
| C215 | `Alloc/RingMoves`: move constructor and assignment on the pool of C37 | histories with moves are histories of C37; `Clear` of a source is `Clear` of the pool |
| C216 | `Compact/Heap`: place of the elements of each object, allocated blocks | one owner for each block, invariant over all histories |
| C217 | `Heap/PObjects`: objects on the model of C66 | refinement: every object keeps the relation of C66 with its own elements |
| C218 | `Sync/QueueDestroy`: the destructor on the machine of C42 | invariant: one chain of all nodes; induction over the chain |
| C219 | `Sync/MicroDestroy`: destructor and moves on the machine of C43 | invariant: every node is in the chain or owned by a call |
| C220 | `DSet/Objects`: objects on the model of C07 | refinement: every object keeps the relation of C07 with its own pairs |
| C221 | `Circ/Objects`: objects on the model of C14 | refinement: worlds of arrays to worlds of values |
| C222 | `Circ/QueueLife`: lives of values on the model of C13 | invariant: only the slots of the queue hold living values |

## 4. What is modelled, component by component

For every component: the source, what the model covers, what it leaves out, and where the code
disagrees with the property (each disagreement is a theorem with `_counterexample` in its name). Sizes and
counters are unbounded unless stated; allocation does not fail unless stated.

### Heaps and schedulers (`Verif/Heap`; C01–C03, C66, C68)

* Source: `BinaryHeap.h`, `PriorityQueue.h`, `Scheduler.h`.
* Covered: `Insert`, `Pop`, `Peek`, `Set`, `Remove`, `Heapify`, `HeapSort`, `PercolateUp/Down`; the handle table
  of `PriorityHeap`; `Scheduler::Add/Update`.
* Left out: `size_t` overflow of `k << 1`; element construction and destruction; re-entrant callbacks of the
  scheduler; rounding of `double` times (times are integers).
* Disagreements: `Remove(i)` only percolates down (C03). Handles of removed elements hit other elements, and the
  move constructor of `PriorityHeap` loses the handle table (C66). `Scheduler::Update` looks at the top of an empty
  queue when the last event leaves (C68).

### Searches, sorted arrays and maps (`Verif/Sorted`; C04–C06)

* Source: `algo.h:20-110`, `ArraySort.h`, `Map.h`.
* Covered: all the binary searches with checked reads; `ArraySort` insert/remove/replace/find; `Map`.
* Left out: signed/unsigned conversion of lengths above 2^63.
* Disagreements: comparison functions returning magnitudes other than one break the approximate searches (C04).
  `Map::Insert` does not check for an existing key (C06 is stated for absent keys).

### Union-find and spanning trees (`Verif/DSet`; C07–C09)

* Source: `DisjointSet.h`.
* Covered: `Find` with path compression and termination, `Union`, `NumSets`, `NumElements`, `GetElements`,
  `AddSets`, and Kruskal's `MinSpanningTree`.
* Disagreements: `Union(s, s)` destroys the class size, `AddSets` leaves `NumSets` unchanged. The copy constructor
  copies bytes (not modelled). It, the assignment and `AddSets` use members that `ArrayBase` does not have (`Capacity`, `SetCapacity`), so that
  they only compile where these are added.

### Base64 and bit streams (`Verif/Base64`, `Verif/BitStream`; C10–C12)

* Source: `algo.h:586-696`, `BitStream.h`.
* Left out: error flags of the underlying stream.
* Disagreements: the decoder accepts characters outside the alphabet that lie within its table; reading into a
  dirty variable ORs the bits.

### Arrays, queues, stacks (`Verif/Circ`, `Verif/Dyn`, `Verif/BoolArr`, `Verif/Compact`; C13–C16, C27, C28, C73)

* Source: `ArrayCircular.h`, `Queue.h`, `Array.h`, `DynArray.h`, `Stack.h`, `RandomQueue.h`, `CompactArray.h`.
* Covered: slots are raw, constructed or moved-from, so use of raw memory and double destruction are visible. Both
  families of array types (by `memmove` and element by element).
* Left out: overflow of `CType`; exceptions.
* Disagreements: arguments that refer into the array itself, self-assignment, and moving from an `Array` with
  another type (C27). `DynArray<bool>::Insert` shifts wrongly two bytes after the place (C28). `CompactArray`:
  `SetCapacity` below the length loses elements; the constructor from a short initializer list writes through the
  heap pointer (C73).

### Linked structures (`Verif/Linked`; C17–C19)

* Source: `LLBase.h`, `LinkedArray.h`, `LinkedList.h`.
* Covered: every function of `LLBase.h` with its frame; histories on any number of lists in one memory.
* Disagreements: with `useLast == false`, `Add` prepends instead of appending (C19).

### Trees (`Verif/AVL`, `Verif/AA`, `Verif/TRB`; C20–C23, C75–C77)

* Source: `AVLTree.h`, `AATree.h`, `TRBtree.h`.
* Left out: node addresses and allocator in AVL and AA (in TRB nodes have identities); the intrusive list calls
  of TRB are taken as proved in C18.
* Disagreements: AA `Remove` on a new tree reads the uninitialised `_deleted`, and `Clear` leaves `_root` at freed
  memory (C22). AVL `ReplaceKey` loses or creates entries when it cannot succeed (C76). TRB `GetNear` with duplicates,
  and on the empty tree (C77).

### Hash (`Verif/Hash`; C24, C25)

* Source: `Hash.h`, `khash.h`.
* Covered: probing, insertion, removal, resize with kick-out, iterators, copy assignment; every loop has a proved bound.
* Left out: construction and destruction of keys and values; more than 2^29 entries (`kroundup32` wraps above 2^31).
* Disagreements: self-assignment empties the table. Floating point keys: 0 and -0 are equal but hash differently
  (outside the assumption that the hash respects equality).

### Trie (`Verif/Trie`; C26)

* Source: `Trie.h`.
* Disagreements: bytes above 127, the empty word (index 256) and a total size that wraps `T` fail.

### Numbers (`Verif/Rational`, `Verif/Arith`, `Verif/Itoa`; C29–C31, C51–C58, C69, C78)

* Source: `Rational.h`, `FixedPt.h`, `bss_util.h`, `compare.h`, `BitField.h`, `bss_util_c.c`.
* Left out: the comparisons of two `Rational`s (through `double`) and all other floating point code; overflow of
  years in the date function.
* Disagreements: division by zero gives a denominator 0 (C29); conversion of `FixedPt` between precisions shifts the
  wrong way (C31); `itoa_r(INT_MIN)` overflows (C51); `IntDiv` with a negative divisor (C52); `IntFastSqrt` from 2^60 on
  (C53); `BitCount` of signed types and the 64-bit `bssLog2` (C55); `BitField::Set(bits, mask)` toggles bits outside
  the mask (C58); the most negative operand in the signed multiply-extract (C69).

### Random numbers (`Verif/Alias`, `Verif/Random`; C32, C62, C63)

* Source: `AliasTable.h`, `XorshiftEngine.h`, `algo.h:125-145`.
* Left out: rounding; `std::generate_canonical`; `discard` with 2^31 or more. The copy constructor of `AliasTable`
  copies the bytes of an owning pointer (not modelled).
* Disagreements: seed 0 (and an unseeded `XorshiftRand`) is the all-zero state (C62).

### Allocators (`Verif/Alloc`; C33–C37, C41)

* Source: `BlockAlloc.h`, `GreedyAlloc.h`, `CacheAlloc.h`, `RingAlloc.h`, `LocklessBlockAlloc.h`.
* Covered: addresses are numbers; the client may write anything into blocks it owns, at any time; free lists are stored
  in the blocks. `GreedyAlloc` and the lock-free pool under every interleaving of single atomic accesses; the others
  one call after the other.
* Left out: failure of the system allocator (except in `BlockAlloc::Alloc`); weak memory; wrap-around of the tag of the
  lock-free pool; concurrency of `CacheAlloc` and `RingAlloc`.
* Disagreements: `CachePolicy::allocate` frees a block with the wrong size class when it shrinks (C36); an empty bucket that
  is too small is orphaned until `Clear` (C37); the lock-free pool with `init == 0` writes past its chunk (C41).
  `CacheAlloc`'s default alignment 1 allows unaligned link words, and its move constructor does not move the cache
  (not modelled).

### Locks, queues and threads (`Verif/Sync`; C38–C40, C42–C44)

* Source: `RWLock.h`, `LocklessQueue.h`, `ThreadPool.h`, `Thread.h`.
* Covered: transition systems whose steps are the single accesses to shared memory, for any number of threads; node
  addresses are reused after being freed.
* Left out: memory orders weaker than sequential consistency; length counters of the queues; `Future`; a `Wait` from
  inside a task. A blocking `Upgrade` is not atomic with respect to writers in between, by design.
* Disagreements: the unguarded first test of `MicroLockQueue::Pop` can read a recycled node (C43); a pool without
  workers never runs its tasks (C44 assumes at least one).

### Smart pointers (`Verif/Ptr`; C45, C46)

* Source: `RefCounter.h`, `OwnerPtr.h`.
* Disagreements: self-assignment of the only handle destroys the object (C45); move assignment of `OwnerPtr` always takes
  ownership (C46).

### Text (`Verif/Utf`, `Verif/Str`, `Verif/Ini`; C47–C50, C67, C70, C71)

* Source: `ConvertUTF.c`, `bss_util_c.c`, `StringTable.h`, `INIParser.c`.
* Left out: 32-bit `wchar_t`; `bssParseLine`; short reads of streams. Advancing the target pointer past its end without a write
  is not counted as undefined behaviour.
* Disagreements: three counting loops read one unit past `srclen` (C50); surrogates are encoded by `UTF32toUTF8`
  (C48 is for scalar values); the INI look-up compares only the common length of two names (C70); appending to an empty
  `StringTable`, and a stream that begins with an empty string (C71).

### UBJSON (`Verif/Ubjson`; C59, C60)

* Source: `UBJSON.h`, `UBJSON.cpp`.
* Left out: copies and moves of values; the serializer engine; floating point values are bit patterns.
* Disagreements: an array of equal nulls or booleans at the end of a stream loses its elements (C59). Unsigned values are not
  always in the shortest form, and `uint64` values from 2^63 on become a type that `Write` cannot write (C60 is stated for signed
  values).

### Spatial index and graphs (`Verif/Spatial`, `Verif/Graph`; C61, C64, C65)

* Source: `KDTree.h`, `Graph.h`.
* Left out: `InsertRoot`, `Solve`, `TraverseAll` of the tree; matrices and flow algorithms of the graph; coordinates are
  integers with arbitrary sums (no rounding).
* Disagreements: `_rebalance` leaves items on the wrong side (queries then miss them), `Remove` lets the balance drift (C61);
  breadth-first search marks nodes when it takes them out of the queue, so nodes are visited twice and the queue may overflow (C65).

### Streams (`Verif/Stream`; C72)

* Source: `stream.h:135-227`, elements of one byte.
* Disagreements: single bytes are not counted in the length until the next block write and are lost when the array grows;
  `xsputn` returns only the size of the last part; a non-zero start gives a wrong length.

### Curves and roots (`Verif/Curve`; C74, C79–C81)

* Source: `algo.h:236-571`, `lerp` of `bss_util.h`.
* Exact arithmetic: numbers are elements of a field; `FastSqrt`, `cbrt`, `cos`, ... are parameters assumed exact. `QuadraticFit`
  does not compile when it is used; `GaussianQuadrature` rejects every number of points by its second `static_assert`;
  `BezierCurve` compiles for `float` only.
* Disagreements: `solveCubic` misses a double root (C79); `NewtonRaphsonBisection` can be further from the root than bisection
  (C81).

### Small algorithms (`Verif/TreeBfs`, `Verif/Arith/{Stat,FCompare}`, `Verif/Spatial/Subdivide`, `Verif/Str/ByteSearch`; C82–C86)

* Source: `algo.h:214-235`, `algo.h:295-323`, `bss_util.h:535-559`, `bss_util.h:680-717`.
* `StochasticSubdivider` and the mean are in exact arithmetic; random numbers and callbacks are an arbitrary stateful oracle.
* Disagreements: the queue of `BreadthFirstTree` is one slot short for full trees of an odd number of nodes (C82);
  `bssVariance` divides by the value instead of the count (C83); `fCompare` relies on signed overflow across zero, and with
  a tolerance of 2^24 takes the infinities for equal (C84).

### JSON (`Verif/Json`; C87, C88)

* Source: `JSON.h`, the instance for `JSONValue`.
* Left out: the typed serializer engine (parsing into structures), the stream classes (a stream is the list of its characters),
  writing of doubles (`std::ostream << double` is an arbitrary function `showD`) and `strtod`, which is an arbitrary function that
  ignores blank space at the end of its text.
* Disagreements: null is not written at all, names are not escaped, control characters are written as they are, a boolean
  before a line break is read back as a string, a double without a point is read back as an integer (C87). Blank space after a word
  makes it a string, an exponent without a point is ignored, surrogate pairs are not combined (C88).

### XML (`Verif/Xml`; C89–C92)

* Source: `XML.cpp`, `XML.h`, `Str.h:310-311`.
* A stream is the list of its bytes. Left out: floating point values (`atof`, `SetValue(double)`), `strtoull` of base 2, copies of nodes,
  the zero that `Trim` stores behind the terminator of an empty string.
* Disagreements when written and read back (C89): a quotation mark in an attribute stays `&quot;`, a `>` in an attribute ends
  the tag, texts of blanks (also before characters outside ASCII) and the text of the file are not written, the end of a name outside
  ASCII is lost, the pretty form adds blanks to texts of nodes with children.
* Disagreements of the parser (C90): document types, CDATA and attributes between apostrophes are not understood, entities in
  attributes are not decoded, an attribute without a value gets its name twice, U+10FFFF is dropped, `--->` does not end a comment.
* Disagreements of edits (C91): `RemoveNode` leaves the indices of later nodes in the hash table, and links and the hash entry wrong
  unless the newest node of the name is removed; `RemoveAttribute` removes a child.

### Flows

* Source: `Graph.h:198-396`. Numbers are unbounded integers except heights, which are modulo the range of `CT`; a run that has not
  ended after `n` rounds gives `none`, and the theorems hold for every `n`.
* `LowerBound_Circulation` and `Circulation_MaxFlow` (C93, C94) are right.
* Disagreements of `MaxFlow_PushRelabel` (C95): relabelling looks at the backward edges only if no forward edge has capacity left, so
  that on a dead end the flow goes to and fro for ever; `last` is stale after a move to the front, so that an entry of the list is lost
  and flow is left at a node; parallel edges from the source overwrite the excess; the result need not be the maximum; with no nodes
  besides source and sink `root` is read uninitialised.

### Dual numbers (`Verif/Dual`, C96)

`Dual.h`, all operations, for every order. A number of order n is nested pairs, as the template is. Expressions are trees (`Expr`), `run` evaluates them on dual numbers from the variable, `fn` is the function they denote and `Defined` says where all operations are differentiable. Not modelled: rounding, `<cmath>` outside of its domain. Powers with base 0 are outside of `Defined`: there the code computes `k * 0^(k-1) * ...` and gives NaN for instance for the second derivative of `x^1` at 0 (0 times an infinite power). Trusted: `pow`, `log`, `sin`... of `<cmath>` are the functions of Mathlib on that domain.

### Vectors and matrices (`Verif/Vec`, C97 to C103)

`vector.h` over a field or the reals; rounding is not modelled, and `FastSqrt` is the square root (its error is not modelled; C53 treats the integer root). SSE registers are functions of the lane, each intrinsic is modelled by its lane semantics, with the immediates of the code.

- C97: `MatrixDeterminant` (2, 3, 4; plain and SSE), `Inverse` (2, 3), `MatrixInvert4x4` (plain and SSE).
- C98: `MatrixMultiply` (general with the temporary array, SSE with separate destination and in place), `MatrixMultiply1x4`, `Transpose`, `Identity`. `Transpose` is modelled for a destination in other memory: the general loop into the matrix itself does not transpose.
- C99: `Rotation*`, `AffineRotation*`, `Translation`, `AffineScaling`, `AffineTransform` and the `_T` forms, `RotatePoint`.
- C100: `NVectorDot`, `NVectorDistance(Sq)`, `NVectorNormalize`, `NTriangleArea`, the unrolled forms, `Cross`, `Outer`, polar coordinates. `atan2(y, x)` is `Complex.arg`.
- C101: comparison operators; elements are those of a linear order, so no NaN.
- C102 (partial): the SSE form of `FromQuaternion` leaves out the factor 2 and the `1 -` on the diagonal, so the quaternion 1 gives a matrix that maps every point to the origin (`C102_sse_counterexample`). `C102_sse_partial` says what it computes. The general form calls `SetSubMatrix::MM`, which does not exist, so it does not compile; read as `M3x3` it is right (`C102_general`).
- C103 (partial): `GenericBSpline` discards the results of its two shuffles, so that it returns three times the contribution of the first control point (`C103_counterexample`, `C103_partial`).

Not modelled: element-wise operators, constructors, swizzles, serialization. `operator~`, the unary `operator-` of vectors and `Vector *= Matrix` do not compile.


### INI reading, storage and editing (`Verif/IniDoc`, C104 to C107)

`Parse.lean` models `bssInitINI` and `bssParseLine` of `INIParser.c` with the buffers it reuses (size and contents), `Group.lean` the node lists that `INIstorage` and `INIsection` share (written twice in the code), `Edit.lean` loading and the four editing functions, on nodes and on text. `Spec.lean` says what lines stand for and what can be looked up (`View`), `EditSpec.lean` what an edit does to a `View`; both are independent of the model. The list links and the hash are abstracted (their own models are `Verif/Linked` and `Verif/Hash`); the numbers parsed from values, `EndINIEdit`'s file writing and allocation failure are not modelled.

- C104 (partial): wrong at the end of the file: a section header with a line break in the last line is read twice (`fgets` leaves the buffer as it was); an empty first value is written one byte past its allocation; an empty file reads the uninitialised line buffer; characters above 127 at the end of names and values are cut off (signed `char` compared with 33); lines of 1023 characters or more are read in pieces, so that the end of a long comment can become an entry. `C104_read_partial` gives the exact behaviour at the end of the file for all other files.
- C105 (partial): the hash keeps a pointer to the characters of the first node's name, and removing the first of several instances overwrites that string. If the name has more than 15 characters the pointer dangles and the next look-up of the name reads freed memory. For shorter names everything holds.
- C106 (partial): `_copy` remembers the source node, not the new one, as owner of the instances: the copy's array of further instances is never written, the source's is overwritten with nodes of the copy. For names that occur once the copy is right. Also seen, not modelled: `INIstorage::operator=(INIstorage&&)` takes over the nodes and then destroys them; `INIsection::operator=(INIsection&&)` leaks its old entries; `_parent` of sections points to the old storage after a copy or move.
- C107 (partial): holds for section names and keys of which none begins with another (the text look-up compares prefixes, C70), at most 15 characters long where removed, for ASCII files whose opening lines are all valid headers. The section without a name can be looked up but not edited: the text look-up finds the first named section instead. Deleting the only entry of the last section leaves a file from which the section is read twice (C104), so reading back (`C107_reload_partial`) asks for a readable file.

### Geometry (`Verif/Geo`, C108 to C116)

`Collision.h` and the members of `Geometry.h` that call it, over the reals: rounding is not modelled and `FastSqrt` is the square root. A division by zero gives `none` where the result is returned, and false where it is compared (as with NaN). A polygon is a function from the number of the vertex and the number of vertices; vertices need not be distinct.

- C108 (partial): `Circle::CircleCollide(const Vector&, R)` uses `C.x` for both coordinates.
- C109 (partial): two equal circles divide by zero; `CircleCircleIntersect`, `Circle::CircleIntersect` and `Circle::NearestPoint` return points relative to the centre of the first circle (`CircleNearestPoint` adds it back).
- C110 (partial): a line given by twice the same point divides by zero; a segment inside the disc does not collide; the `Intersect` members return points relative to the centre.
- C111 (partial): `LinePointDistance` returns the squared determinant divided by the length; `LineSegmentPointDistance` returns the square of the distance.
- C112 (partial): the parameters of `LineSegmentLineSegmentIntersect` and `LineLineIntersect` have the wrong sign, so that the point found is the mirror image in the first point; a cross product from -1 to 0 is taken for parallel (the range meant is a small one around 0); overlapping segments on one line do not collide.
- C114 (partial): horizontal segments are never found, vertical ones below the rectangle are (`Y2 < bottom` for `Y2 > bottom`), a segment that ends on a side from outside is not.
- C115: `TriangleContainsPoint` calls `DotProduct` with one argument, so that it does not compile when used; the model takes the scalar product. Points on the border of a polygon may be contained or not; the theorems say nothing about them but for the fan theorem, which holds for all points.
- C116 (partial): the sum in `PolygonCentroid` is not initialised (`junk`), so that any point can come out; `PolygonIsConvex` accepts stars; `ConvexPolygonContainsPoint` measures the closing edge in the wrong direction and never updates `last`: it rejects every inner point of every strictly convex polygon and accepts some outer ones. That the signed sum of the triangles is the measure of the interior is not proved.

Not modelled: `EllipseNearestPoint` (an iteration), `EllipseCircleCollide`, circle sectors, `Capsule` and three-dimensional lines. `LineN::operator=` has no return statement.

### Animation

`Animation.h`. Times are elements of an ordered field (`fmod` is exact): rounding is not modelled. A track (`Track`) is any state machine with `Reset` and `Interpolate`; the calls of the destination are its outputs. `AniState::Interpolate` is generic in the track, so that several tracks are one (`Track.seq`), but the theorems about calls are for one track at a time. The values are numbers where they are interpolated. Destinations do not call back.

- C117 (partial): a step longer than the looped part skips whole passes of frames; an animation of length 0 that does not loop never calls its frame at 0; a loop point at or past the end recurses for ever (past it) or divides by zero (at it).
- C118 (partial): a track with one frame is not set at its end (the code says so in a comment); `NoInterpolateRel` and `LerpInterpolateRel` read in front of the array when no frame is before the current time (an assertion in debug builds).
- C119 (partial): the queue is ordered by the length of the interval instead of its end, and has the largest on top: intervals end too early or too late.
- C120: `AniDataInterval(src, len)` does not initialise `_end`; `Animation::Set` calls `std::get<T>()` without an argument and does not compile; changes through `Get<T>()` do not update the length until `SetLength` is called (not modelled).
- C121 (partial): `TimeBezierD` and `AniCubicData::BezierD` are not the derivatives; `Length` takes the square root of the last component. `QuadraticInterpolateBase` and `CubicInterpolateBase` do not compile when used and are not modelled.

### TOML (`Verif/Toml`, C122 to C125)

`TOML.h` and the part of `Serializer.h` it uses, for objects whose fields are strings, `int64_t`, `double`, `bool`, arrays (`DynArray`, `std::vector`) and such objects, nested to any depth. `Ty` describes a type, `Ty.Val` its values; `double` is an arbitrary type with its own extraction and insertion (`FP`), about which C124 asks that what is inserted is extracted again. `Grammar.lean` is the specification and does not mention the functions of the model; it says how a text changes a value (`ValText`, `Body`, `AtTy`, `Document`), which characters are comments, blanks, keys and so on.

- C122 (partial): `OutputUnicode` drops U+10FFFF (`<` for `<=`).
- C123 (partial): `ParseArray` does not consume its bracket, so that an array of arrays ends after its first element; integers with underscores stop at the first; only decimal integers are read. Bare strings as values, which TOML forbids but the code reads, are not part of the grammar.
- C124 (partial): arrays of arrays as in C123; names are written without quotes; an object without fields inside an array leaves out the comma after it.
- C125 (partial): a NUL where a name is expected loops for ever; `ParseNumber` returns an uninitialised number at the end of the text; `ParseArray` dereferences `--end()` of an empty array.

Seen, not modelled: a time with the suffix `Z` or without one loses the time of day (`TOML.h:444-449`); `WriteTOML` of a `TOMLValue` writes the tags of `Variant` and cannot be read back; `[[x]]` overwrites in a `TOMLValue`; a quoted number eats one character behind its quote; bare strings lose bytes above 127 at their end. Not modelled: dates, tuples, arrays of fixed length, `Hash`, `TOMLValue`.

### Text (`Verif/Text`, C126 to C130)

Functions of `bss_util.h` and `Str.h` on C strings. Memory is a list of integers, a pointer an index, an access outside is undefined behaviour. `char` is signed. `strlen`, `strchr`, `strtok_r` and `isspace` are modelled as the C standard says (C locale); `std::basic_string` is its characters with the terminator behind them. Null pointers are not modelled.

- C126 (partial): `*inter < 33` strips bytes above 127 when `char` is signed; when nothing is left, `*(++inter) = 0` writes one past the terminator (a blank string in `strtrim`, an empty string in `Trim`).
- C127 (partial): `STR_CT<char32_t>::STOK` never returns null, so that splitting a `StrT<char32_t>` does not end.
- C128 (partial): `strccount` with a length tests `*string` instead of `string[i]` and does not stop at the terminator.
- C129 (partial): an argument whose quote is not closed loses its last character.
- C130: numbers of arguments below 2^31. The output stream is what is written to it; failures of the stream are not modelled.

### Arrays as objects (`Verif/Arr`, C131)

`Array.h:99-402` and `DynArray.h:12-164` for `ARRAY_CONSTRUCT` and `ARRAY_SAFE`, with any number of arrays on one heap. Use of memory or elements outside of their life, construction over an element and freeing of a block with elements are errors of the model. `realloc` always moves the block. `Spec.lean` is the specification: lists. Not modelled: allocation failure, sizes that overflow, exceptions of constructors, `ARRAY_SIMPLE`, other comparisons and slices, `Array(const Slice&)` and `DynArray::operator=(const Array&)`, which do not compile when used.

- C131 (partial): `a = a` and `Set` of an own slice destroy before they read; `Array::operator+=` reads the capacity of the right side after the left grew, so that `a += a` overruns; `Add` and `Insert` of an own element read freed or moved elements; `a = std::move(a)` empties `a`. `DynArray += itself` works and is part of the proved programs.

### Logger (`Verif/Log`, C132 to C135)

`stream.h:25-63`, `Logger.h` and `Logger.cpp`. Streams and splitters are numbered; a stream has a buffer of its own, whose content is what reached it. Not modelled: files as such (a file target is a stream), failures of streams, the `printf` formatting of `PrintLog` (its text is given), `operator<<` for each type (the texts of the arguments are given), conversions of `wchar_t`. The time zone is a parameter: on POSIX `GetTimeZoneMinutes` uses the offset of `gmtime`, which is always 0 (and would be in seconds), so that times are UTC there. `Spec.lean` describes the allowed programs: a stream has at most one logger, as target or redirected.

- C132 (partial): a target that is also redirected to the same logger makes `sync` call itself for ever; a stream added twice gets everything twice.
- C133 (partial): a stream redirected twice, or by two loggers that are not destroyed in opposite order, is left with a deleted buffer. Assignment neither restores the streams nor deletes the splitter of the left side, and does not assign the settings.
- C134 (partial): the condition in `SetLevel` is reversed: naming an earlier level removes all later ones, naming one beyond the next writes out of bounds. Limits from 128 become negative.
- C135 (partial): without a format for missing sources the null pointer is written; `{5}` combines the UTC date with the local time. Time zones of at least -24 hours.

### Variant (`Verif/Var`, C136 and C137)

`Variant.h`. Types are numbered, values are numbers (or moved-from). The recursion over the template arguments is modelled as it is written. Not modelled: exceptions, `Serialize`, overload resolution (a copy from a non-const variant takes the template constructor, which ends in the same code). `convert() const` does not compile and is left out. Layout rules: members in order, each at a multiple of its alignment, the union as large as its largest member.

- C136 (partial): assigning an empty variant to an empty one fails `assert(false)` in `_assignU`; assigning a part of the object held reads it after its destruction.
- C137 (partial): `max_alignof::type` lacks `::type`, so that the union is aligned to 1 and the storage is at offset 4: `Variant<int, double>` has a misaligned `double`. (The condition is reversed as well.) The part about sizes is proved.

### Profiler (`Verif/Prof`, C138 to C141)

`Profiler.h` and the output functions of `profiler.cpp`. A program is given with its clock values; a block starts and ends its region as `ProfilerBlock` does. Averages are rational numbers instead of `double`. Not modelled: threads (the profiler is a global without locks), regions that are open when the output is written, the text of the lines, the order of nodes in the heat map, `_heatWrite`.

- C138 (partial): the digits of a number are a path in the trie, and nothing marks the end of a number: region 17 shares its node with region 1 called in region 1. With numbers up to 15, or all with the same number of digits, it is right.
- C139 (partial): the averages are sorted by size before they are written, the names are not, so that the largest average is written beside the first name.
- C140 (partial): the indentation tests whether the digits so far are all zero, so that numbers that 16 divides are indented once too often.
- C141 (partial): below a region the digit position starts at 0 again for the second digit; region 33 in region 33 is reported as region 3.

### Numbers (`Verif/Num`, C142 to C144)

`GaussianQuadrature` of `algo.h` and `bssFMod`, `AngleDist`, `AngleDistSigned` and `fLength` of `bss_util.h`. All arithmetic is exact, over the real numbers of Mathlib; rounding, infinities and NaN are not modelled, and `PI` is π itself. The specification of an integral is the interval integral of Mathlib.

- C142 (partial): the first weight of the rule with five points is written `128 / 225`, which is 0 in C++, so that this rule misses even constants. (`static_assert(N < 1)` refuses every number of points from 1 to 5 as well, so no instance compiles; the model is of the body.)
- C143: the comment at `AngleDistSigned` says `a - b`; the result is the way from `a` to `b`, that is `b - a`.
- C144: the factor makes every result too short, by 7.3 to 14.4 percent.

### System (`Verif/Sys`, C145 to C149)

Functions of `bss_util.cpp`, `HighPrecisionTimer` and the macros and functions for bits. The functions of Windows are modelled by their documentation. Not modelled: the search for the file of a font, the other functions for the registry, and rounding of times in `double`.

- C145 (partial): without a font of the requested slant the lightest one is chosen whatever the weight; a request of 500 without such a font should be answered with 400, but any weight between 400 and 500 replaces it.
- C146 (partial): on Windows the number of ticks since the last update times 10^9 overflows 64 bits, with ticks of 100 ns after half an hour. `Update(timewarp)` multiplies the delta in nanoseconds and divides that in milliseconds on POSIX, and divides both on Windows.
- C147: an empty name whose key cannot be deleted at once reads `lpEnd[-1]`; the theorems are for names that are not empty.
- C148 (partial): multiples of 8 that are no powers of 2 get a type that is too short.
- C149 (partial): the masks are made by shifting an `int`, which is undefined or sign-extended for types of 64 bits. Wrap-around of `int` is assumed where the standard leaves a left shift into or beyond the sign bit undefined (before C++20).

### Read-only and functional streams (`Verif/Stream/ReadOnly`, `Verif/Stream/Func`, C150 and C151)

- C150 (partial): `pbackfail` compares the `int` of an unsigned byte with a signed `char`; `seekoff` checks nothing.
- C151 (partial): `xsputn` returns the length of its last piece, `xsgetn` stops at the end of the buffer, and neither `sync` nor the destructor sends on what is in the buffer. The library has no class derived from `StreamBufFunction`; `_onwrite` and `_onread` are modelled as moving the data unchanged.

### Dates in TOML (`Verif/Toml/Date`, C152 and C153)

`time_get`, `put_time` and `gmtime` are modelled by their specification and trusted; the calendar is that of C54. `time_get` is taken as in libstdc++: it sets `eofbit` when the input ends right behind a field, which the code treats as an error.

- C153 (partial): for `Z`, for a fraction of a second and for a local time the time of day is dropped (`TOML.h:424-447` puts it into the result only for an explicit offset). A date or an offset at the very end of the document is ignored. A day that does not exist is accepted as one of the next month. A date outside of the range of the clock (about 1677 to 2262) overflows.

### INI entries and documents as objects (`Verif/IniEnt`, C154 to C158)

Floating point numbers are an abstract type with `atof`, conversion from integers and conversion to integers, which is undefined for numbers outside of `int64_t`. In the model of copies and moves only the nodes of the section list are memory; a moved-from hash is empty.

- C154 (partial): whether a text is a floating point number is decided by a period alone, so that `1e5` is 1; a negative hexadecimal number is 0 (`strtoll` in base 10 stops at the x); a number with a period outside of 64 bits is undefined.
- C156: the constructor has a null pointer as default argument, which `strrchr` reads.
- C157 (partial): the move assignment takes the new list and then frees it, while the hash keeps pointers into it; the old list is never freed. Sections keep the pointer to the document they were made in, also in copies and after moves.
- C158 (partial): the reference returned for a missing entry is to one static object that can be assigned to.

### Views of arrays (`Verif/Arr/View`, C159 to C161)

`CType` is a signed type, its values are integers without bounds.

- C159 (partial): a negative end is subtracted instead of added (`Array.h:52-54`), so that the part reaches beyond the slice; the constant operator calls itself without end. A begin equal to the length wraps to the beginning.
- C160: the code compiles only for two dimensions or more (the recursion has no case for one), and the constant call operator does not compile.
- C161 (partial): `n * sizeof(T)` may overflow.

### Delegates, threads, processor (`Verif/Sys/{Delegate,Thread,Cpu}`, C162 to C165, C169, C170)

Functions of the operating systems (`pthread_timedjoin_np`, `sem_post`, `ReleaseSemaphore` and so on) and the instruction `cpuid` are modelled by their documentation and trusted.

- C162 (partial): a delegate of a function without an object says that it is empty.
- C163 (partial): the objects of `defer` have implicit copy constructors; each copy makes the call.
- C164 (partial): the nanoseconds are not carried into the seconds (`Thread.h:93-95`), so that the call returns at once with a failure; on Windows `GetExitCodeThread` writes only half of the result.
- C165 (partial): a failing `Notify` may have let waits pass on POSIX; the count is cut to 32 bits on Windows.
- C169 (partial): characters are signed, and the 64-bit hash is cut to 32 bits in every step.
- C170 (partial): the flag of SSE4a is read from the wrong leaf.

### Signs and comparisons of numbers (`Verif/Arith/Sign`, C166 to C168)

- C167 (partial): `fCompare` relies on signed integers that wrap around, see C84. A negative `eps` makes every number small.
- C168 (partial): the sign is ignored, and for exponents that differ by one the numbers compare as equal if the mantissas are as different as possible, whichever is greater: 1.0 equals 3.9999.

### Operators of vectors, registers (`Verif/Vec/{Ops,Lanes}`, C171 to C174)

Instructions of SSE2 are modelled by their documentation and trusted. A float is `n / 2^k`; only that floats of 2^24 or more are integers is used.

- C171: components are of any type with any operations, so that nothing is said about rounding. Unary minus of a vector (assignment to a constant, `vector.h:1106`) and `~` (`vector.h:1153`) do not compile if used.
- C172 (partial): a shift count in a register is 64 bits wide for the instruction, so that equal counts in all lanes shift out everything (`sseVec.h:739`).
- C173 (partial): `_sse_array_shuffle2` takes the wrong bits of the code (`sseVec.h:64-71`).
- C174 (partial): the conversion to 32-bit integers limits the range.

### Sectors of circles (`Verif/Geo/{Sector,SectorLine,SectorPair}`, C175 to C179)

Exact arithmetic over the reals; `atan2` is the argument of a complex number.

- C175 (partial): the centre of a sector without inner radius is found only if the angle 0 lies in the range (`Collision.h:562`).
- C176: for all discs, including those around the whole sector.
- C177 (partial): because of C175, and because segments along an edge are not found by the test of the edges (C112), a segment from the centre along an edge is not found.
- C178 (partial): only the border of the polygon counts. A sector inside the polygon is not found.
- C179 (partial): a call has its radii exchanged (`Geometry.h:563`), so that disjoint sectors collide. With the same centre the angles are compared without their period (`Geometry.h:554`). That sectors with
  a common point are found is not proved.

### Strings: conversion, formatting, concatenation (`Verif/Str/{Conv,Build}`, C180 to C183)

The conversions `UTF8toUTF16` and so on are parameters, as they call the operating system (with the arguments of `iconv_open` exchanged on POSIX, `bss_util_c.c:133-161`, which is not modelled).

- C180 (partial): for texts without zeros. A constructor with a count drops the last unit, and a count of 0 or an empty result throws `std::length_error` (`Str.h:304`).
- C181 (partial): a formatted text with a zero is cut there.
- C182 (partial): only text within the characters of the string. Text written into reserved memory is overwritten with zeros by `resize`.
- C183 (partial): all forms of `+`; `s += s.c_str()` appends nothing.

### Keys of hash tables (`Verif/Hash/Keys`, C184, C185)

Comparison without case is that of the "C" locale; `towlower` is not modelled. Types of other sizes are integers.

- C184 (partial): 0.0 and -0.0 are equal but have different hashes, since bits are hashed (`Hash.h:30`). NaN is not equal to itself. In tuples, pointers to text are compared as addresses and strings up to their size, alone as text.
- C185: integers of 64 bits with different upper halves can have the same hash, as they must.

### Matrices of graphs (`Verif/Graph/Matrix`, C186, C187)

The linked lists of edges are lists (their memory is C64). Products of 16-bit numbers must be below 2^31, as `int` arithmetic is undefined beyond (more than 46340 nodes).

- C186 (partial): the data of nodes are written by index and not by position (`Graph.h:144`), which overruns an array of `NumNodes()` after a removal. Of parallel edges the oldest is written.
- C187 (partial): the index is compared with the number of nodes (`Graph.h:85`), so that after a removal nodes are not found and removed ones are.

### JSON of typed objects (`Verif/Json/{Typed,TypedProps}`, C188, C189)

An object carries its type along. The trie that finds a member is the search through the names. A stream on which `>>` fails delivers nothing more. Floating point members, maps, variants and negative
numbers for unsigned types are not modelled.

- C188 (partial): a vector keeps its elements in front of the new ones (`Serializer.h:147`). What is ignored is skipped up to the first comma or bracket (`JSON.h:195`, `:317`), so that after an unknown
  member that is an object the others are lost. After a number in quotes one character too many is eaten (`JSON.h:337-338`). A number out of range sets the failbit, and the rest of the text is lost.
  Blank space before a flag or a string alone is not skipped.
- C189 (partial): characters and 8-bit integers are written as characters, and separators among them are not read back. Names are not escaped (C87).

### Checks of the red-black tree (`Verif/TRB/Check`, C190, C191)

- C190 (partial): a red root is accepted, and the links between duplicates, which are not in the tree, are not looked at (`TRBtree.h:168-187`).
- C191 (partial): a node with duplicates behind it may be changed so that `Validate` accepts it, but then the duplicates' value is no longer in the tree and `Get` does not find it. The node move constructor
  (`TRBtree.h:23-53`) assigns base class pointers to derived ones and cannot be instantiated; it is not modelled.

### Moving containers (`Verif/Own`, C192)

Several objects share one memory; each piece of memory knows the policy it is from. The order of nodes is left out. Reading the sentinel's colour is taken to happen whenever it can happen.

- C192 (partial): `AVLTree`'s move assignment takes over the nodes without the allocator (`AVLTree.h:164`), and so do `LinkedList`'s and `TRBtree`'s; with a policy the nodes go back to the wrong one.
  `LinkedList::Clear` fills the whole object with zeros, the policy included (`LinkedList.h:190`). `TRBtree`'s move constructor takes a new sentinel for the source but initialises its own again
  (`TRBtree.h:405-406`), and with a policy the source cannot give its sentinel back. A moved-from allocator has no policy. Self-assignment empties trees.

### The nearest point of an ellipse (`Verif/Geo/Ellipse`, C193)

- Exact arithmetic over ℝ; `atan2(y, x)` is `Complex.arg (x + iy)`, `cos` and `sin` are Mathlib's. Rounding is not modelled.
- Lean's division by zero gives zero; `C193_divisor_partial` shows that in the cases of the other partial theorems no step divides by zero.
- Off the axes of a proper ellipse the four steps only approximate the nearest point; nothing is proved about the quality.

### Poisson disk samples (`Verif/Spatial/Poisson`, C194)

- Exact arithmetic over ℝ; the random numbers are functions of the round (index in the queue, radius factors in [1, 2), any angles). The first point is any point of the rectangle.
- The grid is a list of optional points, reading outside of it is `none`; the pattern of all bits set is `none` as an element. `s` (1 for `float`, 2 for `double`) is the number of 64 bit words per element.
- The stack allocation of the grid (`VARARRAY`) is assumed to succeed.

### The ziggurat generator (`Verif/Random/Ziggurat`, C195)

- Exact arithmetic over ℝ, the random numbers are lists of arbitrary numbers; `none` is running out of them, or reading outside the tables.
- `Good` says that the logarithms of the table are negative (so that the square roots exist). A table of three strips is given as an example; for the constants in the code it is not proved.

### Fast square roots (`Verif/Num/FastSqrt`, C196)

- The bits of the numbers are natural numbers, `f32` and `f64` their values as rational numbers; the integer arithmetic on the bits is exact (no wrap-around occurs for positive numbers).
- The floating point products and differences are exact. The theorems bound the error of the method, not the rounding.

### Typed objects through XML (`Verif/Xml/Typed`, C197)

- Modelled: `Serializer<XMLEngine>` for bools, integers, strings, vectors, fixed arrays, tuples and structures, on top of the XML reader and writer of C88 (`readFile`, `writeFile`).
- Not modelled: floating point members, maps, variants, the trie that finds the member (a search through the names instead).
- Found: with the default name (null) `Serialize` writes an element without a name, which the parser does not find; elements of arrays of arrays are written without a name and lost; parsing a
  number that is not a member dereferences a null `curvalue`; strings with quotes come back with the entity; an attribute that has the name of a structure member makes that structure read the
  attributes of the outer one.

### Typed objects through UBJSON (`Verif/Ubjson/Typed`, C198)

- Modelled: `Serializer<UBJSONEngine>` on top of the parser and writer of C59, with the expected type, the bulk reads, `FixedAdd`, `Add`, `FindParse`; `std::vector` iterators are class types (libstdc++), so
  `BulkRead` refuses them after `resize`.
- Not modelled: maps, variants, conversions between floating point and other types, raw reads over structures. Fuel stands for the iterations of loops; running out for every fuel is an endless loop.
- Found: `std::vector<uint8_t>` and `std::vector<char>` come back with as many zeros in front; `WriteUBJSONType` has no marker for unsigned integers of more than a byte and takes `std::vector`, fixed arrays
  and tuples for objects; elements of `DynArray<bool>` are not written; `uint64_t` from `2^63` is a `BIGNUM` whose double is used as a pointer; strings end at a zero byte; values of unknown members are
  not skipped; extra elements of an uncounted array are not consumed by a fixed array or tuple, so that the loop does not end; a name makes the output unreadable.

### Random numbers of a range (`Verif/Random/Rand`, C199)

- `rne` is rounding to nearest, ties to even, to 53 bits without bounds on the exponent; scaling by a power of two commutes with it, so numbers are kept as natural numbers over a fixed power of two.
- `std::generate_canonical` is modelled after libstdc++: one draw of 64 bits, converted and divided by `2^64`, one replaced by the number before it. Other types than 64-bit integers and `double` are not modelled.
- Found: `bssRandReal(1, 2)` can return 2; `bssRandInt` overflows for ranges from `2^63`; in a range of `2^53 - 2^26 - 2^22` numbers, `2^52` is never given.

### Variants through a serializer (`Verif/Var/Serial`, C200)

- Modelled: `Variant::Serialize` and `Action<Engine, ActionVariantRef>`, with the object that is in the storage; how values of a type are written and read is a parameter. The members of the text are a list, in
  any order (unordered engines).
- Found: the tag is parsed straight into the variant and an empty variant is constructed over the old one, so the old value is never destroyed; the value before the tag, or a tag alone, leaves a variant with
  the tag of one type and an object of another, on which the wrong destructor is run.

### Values of the registry (`Verif/Sys/RegValue`, C201)

- The system calls are modelled after their documentation (trusted): `RegCreateKeyExW` makes a missing key, `RegOpenKeyExW` sets the handle only if it succeeds, `RegQueryValueExW` reports type and size and
  fills the buffer only if it is large enough.
- Found: `SetRegistryValue` with a string passes `(strlen + 1) * sizeof(wchar_t)` as size of a `char` string; the result of `RegOpenKeyExW` is not checked; a value of another type that fits is copied
  into the variable although the read fails.

### Initial values of an animation (`Verif/Ani/Values`, C202)

- The template recursion is a recursion on the list of arguments, with the same tests; access to an element that the tuple does not have (a compile-time error) is `none`.

### Standard allocator (`Verif/Alloc/Standard`, C203)

- Modelled: `StandardAllocator::allocate/deallocate` in debug and release builds, `aligned_realloc` without Windows, `GreedyPolicy::allocate`.
- The header is one cell with the size and padding; in the code the size takes eight bytes. Cells hold numbers. The system's choice of addresses, fresh contents and usable slack are parameters; allocation failure (null) is not modelled.
- `realloc(p, 0)` is that of glibc (frees, returns null). The Windows branches (`_aligned_realloc`, `_msize` assertions) are not modelled.
- That `AllocT` returns memory apart from earlier blocks is C35; here it is a hypothesis.

### Life of keys in a hash table (`Verif/Hash/Life`, C204)

- Modelled: which calls construct and destroy key objects, on top of the table of C24: `_put`, `_delete`, `Clear`, `_resize` with its local `key`, `_realloc` for both kinds of arrays, the destructor.
- Objects are counted and not told apart; values of maps are handled by the code like keys and are not counted again. Copying, moving and assigning whole tables is not counted.
- Found: `_resize` and `_realloc` never destroy the objects they moved from.

### Bit stream objects (`Verif/BitStream/Objects`, C205)

- Modelled: constructors, destructor, assignments and `Flush` of `BitStream` used for writing, on any number of streams; `Write` is the model of C12.
- Reading and writing through the same object is not modelled, nor are errors of the underlying stream.
- Found: `Flush` leaves `_woffset` and `_buf` as they are; `operator=` takes over only the stream; copies share the unfinished byte.

### Random engine (`Verif/Random/Engine`, C206)

- Modelled: `XorshiftEngine<uint64_t>` (seeding, `discard`, `operator==`, `operator()`) and `XorshiftRand`. `int` overflow in `discard` is the outcome `none`.
- Not modelled: `std::random_device`; draws that are truncated to a smaller type.
- Found: `operator==` compares the index, so engines with the same future may be unequal; `discard` counts in an `int`; `XorshiftRand` returns only zeros until it is seeded.

### Alias table objects (`Verif/Random/AliasObjects`, C207)

- Modelled: constructors, assignments and `Get` of `AliasTable` on arrays of bytes, some of which were never written. How the constructor fills the arrays is C32.
- Not modelled: the copy constructor, which does not compile; `GetProbabilities` and `GetAliases` (the same).
- Found: the assignment copies `sizeof(UINT)` bytes for each probability; self-assignment loses all entries; a table that was moved from keeps its number of entries.

### Pools that are moved (`Verif/Alloc/Moves`, C208)

- Modelled: constructors, destructor, assignment, `Alloc`, `Dealloc`, `Clear` of `BlockAlloc`, and the same of `LocklessBlockPolicy` for one thread. Blocks are pairs of a chunk and a place; sizes are counted in blocks.
- Not modelled here: the free list in memory (C33), other threads (C41), memory running out, debug fills. `GreedyAlloc::operator=` has the same defect as `LocklessBlockPolicy::operator=`; it is not modelled here.
- Found: `LocklessBlockPolicy::operator=` overwrites its chunks without freeing them and does not check for itself; pools that were moved from have no chunk, and `Alloc` reads the size of the newest one. A `LocklessBlockPolicy` with `init` of zero writes behind its first chunk (`BlockAllocMT.h:141`).

### Linked arrays as objects (`Verif/Linked/ArrObjects`, C209)

- Modelled: constructors, copy constructor, both assignments, destructor; operations on one object are the model of C17.
- Not modelled: the move constructor, which does not compile (`LinkedArray.h:32` assigns to `-1`); values with constructors.
- Found: self-assignment replaces the memory before it copies it; `operator=(LinkedArray&&)` leaves length, start, end and free list of the source.

### XML nodes as objects (`Verif/Xml/Objects`, C210)

- Modelled: copy and move constructors, both assignments with the loop over the children, `AddNode(const XMLNode&)`, `Clear`, destructor. Edits and parsing give a node any tree.
- Not modelled: the hash tables of names and the links between children of the same name (C91), numbers in values (C92). A string that was moved from is taken to be empty.
- Found: attributes and children are arrays of type `ARRAY_MOVE`, whose `_copy` copies nothing, so that copies of nodes that have any contain memory that was never written, and destroying them is undefined. `operator=` does not remove the children of the target, and does not end if a node with children is assigned to itself.

### Arrays with elements of run-time size (`Verif/Dyn/Arbitrary`, C211)

- Modelled: all members of `ArbitraryArray` except for `Front`, `Back`, `begin` and `end`, which convert single bytes. Every copy of bytes is checked; bytes that were never written are a value of their own.
- Not modelled: overflow of sizes; setting an array that is a part of the same array.
- Found: `SetElement(array)` keeps a larger capacity that need not be a multiple of the new element size, and `Add` only grows if the memory is entirely used, so that it can write behind the memory. Self-assignment and moves as in C209.

### Moved cache allocators (`Verif/Alloc/CacheMoves`, C212)

- Modelled: the move constructor (`CacheAlloc.h:18`, `GreedyAlloc.h:26-31`), `operator=(&&)` (`CacheAlloc.h:106-113`, `GreedyAlloc.h:125-134`, `Hash.h:319-327`) including an assignment to itself, and which chunks the destructor frees (`GreedyAlloc.h:37-47`), all on the states of C36.
- Simplified: the free lists are a function of the size (as in C36), the asserts on equal configurations of both pools are assumed to hold, one thread.
- Violations found: the move constructor does not move `_cache`; an assignment overwrites `_root` without freeing the chunks of the target; a pool assigned to itself loses its chunks; a pool that was moved from reads through a null pointer at the next request of a cached size.

### Singletons (`Verif/Own/Singleton`, C213)

- Modelled: both constructors, the assignment and the destructor of `Singleton` (`Singleton.h:10-26`) with addresses that may be used again.
- Simplified: `static_cast<T*>` keeps the address; one thread; calls on objects that do not exist are undefined.
- Limit found: there is no stack of instances, so a second object that is destroyed leaves null behind (`C213_second_counterexample`).

### Graph objects (`Verif/Graph/Objects`, C214)

- Modelled: the destructor (`Graph.h:81`) and `operator=(Graph&&)` (`:154-161`) from another object, on the memory of edges of C64.
- Simplified: the order in which the destructor visits the nodes is any list of all nodes (C17 gives the list of the code); the edges of a moved graph keep their addresses; an assignment of a graph to itself is not modelled; neither is the move constructor, which does not compile when it is used (`LinkedArray.h:32`).
- Violations found: the source keeps the index of its first node without any node, so its destructor reads through a null pointer; the edges of the target are never released.

### Moved ring allocators (`Verif/Alloc/RingMoves`, C215)

- Modelled: the move constructor (`RingAlloc.h:32-37`), `operator=(&&)` (`:120-130`) also to itself, and what the destructor releases (`:44`, `:135-152`), on the states of C37.
- Simplified: as in C37 (calls one after the other, release build); a block is given back to the object that has its bucket.
- Limits found: the source keeps `_gc` until `Clear`, and has no bucket; an assignment to itself releases all buckets.

### Memory of compact arrays (`Verif/Compact/Heap`, C216)

- Modelled: the constructors, the destructor, `SetCapacity` and the move assignment of `CompactArray` (`CompactArray.h:23-55`, `:86-109`, `:129-138`) as far as heap memory is concerned, for any number of objects.
- Simplified: other functions are their calls of `SetCapacity`; resizing is a release and an allocation, which may return the same address; allocators without policy; allocation does not fail.

### Priority heap objects (`Verif/Heap/PObjects`, C217)

- Modelled: the copy constructor and both assignments of `PriorityHeap` (`PriorityQueue.h:69`, `:88-99`) with the defaulted functions of its bases, on worlds of objects; the move constructor is `moveCtor` of C66.
- Simplified: arrays are values (C131); assignments of an object to itself are left out (the arrays lose their elements there, C131).
- Violations found: the move constructor moves `_subarray` twice and ends up with the empty one; `_freelist` of the source is not reset by a move.

### Nodes and destructor of the lock-free queue (`Verif/Sync/QueueDestroy`, C218)

- Modelled: the destructor of `LocklessQueue` (`LocklessQueue.h:62-70`) on the executions of C42.
- Simplified: as in C42, steps are sequentially consistent; destructors of items have no effect on the nodes; the destructor runs when both threads have finished their calls.
- Not modelled: the move constructor and move assignment, which copy `std::atomic` members and do not compile when used.

### Nodes, destructor and moves of the queue for many threads (`Verif/Sync/MicroDestroy`, C219)

- Modelled: the destructor, the move constructor and the move assignment of `MicroLockQueue` (`LocklessQueue.h:137-142`, `:158-166`, `:192-201`) on the executions of C43.
- Simplified: as in C43; objects are moved and destroyed when all threads have finished their calls; all queues use one allocator. Calls of `Push` and `Pop` on a queue that was moved from use a null pointer and are not in the executions.
- Violation found: the move assignment overwrites the pointers of the target without giving back its nodes (their items are never destroyed).

### Union-find objects (`Verif/DSet/Objects`, C220)

- Modelled: the move constructor and the move assignment of `DisjointSet` (`DisjointSet.h:27`, `:186-191`) and `Reset` (`:109-113`) on worlds of objects, with the calls of C07 and C08.
- Simplified: arrays are values; an object is not assigned to itself; the copy functions and `AddSets` are left out, as they do not compile when used.
- Violation found: the move assignment does not reset `_numsets` of the source.

### Circular array objects (`Verif/Circ/Objects`, C221)

- Modelled: the copy and move constructors, both assignments and the destructor of `ArrayCircular` (`ArrayCircular.h:25-34`, `:100-129`) on worlds of objects, with the calls of C14; a block is given back only when all its slots are raw.
- Simplified: blocks are values (a move hands over the block); the allocator is stateless.
- Violation found: the assignment of an object to itself clears it first and loses all elements.

### Lives of the values in a queue (`Verif/Circ/QueueLife`, C222)

- Modelled: the calls of `Queue` (C13) and its destructor (`Queue.h:24`), with a check that no living value is left when the block is given back.
- Simplified: moving a value out of the block by `Pop` and destroying the rest is one step.
- Violation found: `Discard` only decrements the length; the value is neither destroyed then nor by the destructor.

## 5. How the theorems were tested

`seeded/LOG.jsonl` records the wrong programs: the definition of the model that was changed in a scratch copy, the change, the
claim it breaks, the theorems that no longer proved, and the theorems that had to be tightened because they still did.

## 6. Axioms of every property theorem

From `#print axioms` on the theorems of `MANIFEST.json`.

**no axioms** (42 theorems): `DSet.C08_addSets_counterexample`, `Linked.C18_insertNoRoot`, `Linked.C18_insertAfterNoLast`, `Linked.C19_noLast_add_counterexample`, `Linked.C19_noLast_copy_counterexample`, `Linked.C19_self_append_counterexample`, `AA.C22_first_remove_counterexample`, `AA.C22_clear_counterexample`, `TRB.C23_insert_retains`, `Alloc.Cache.C36_policy_shrink_counterexample`, `Alloc.Ring.C37_orphan_counterexample`, `Arith.C54_epoch`, `Arith.C55_bssLog2_gcc64_counterexample`, `Arith.C57_compT_LT_GT`, `Arith.C57_component_ord`, `Ubjson.C59_units_counterexample`, `Ubjson.C60_minimal_unsigned_counterexample`, `Stream.C72_lost_counterexample`, `Stream.C72_result_counterexample`, `Stream.C72_begin_counterexample`, `Compact.C73_list_counterexample`, `TRB.C77_near_empty_counterexample`, `Xml.C91_remove_attribute_counterexample`, `Xml.C91_remove_attribute_leaf_counterexample`, `Sys.C145_slant_counterexample`, `Stream.Fn.C151_write_count_counterexample`, `Stream.Fn.C151_flush_counterexample`, `Stream.Fn.C151_read_count_counterexample`, `IniEnt.C156_default_counterexample`, `IniEnt.C157_parent_false`, `Arr.View.C159_const_false`, `Sys.C162_stateless_false`, `Sys.Thr.C165_counterexample`, `Vec.Lanes.C173_swap`, `Vec.Lanes.C173_pd_false`, `StrBuild.C181_zero_counterexample`, `Alloc.Cache.C212_dealloc_counterexample`, `Alloc.Cache.C212_lost_counterexample`, `Alloc.Cache.C212_moved_counterexample`, `Graph.C214_source_counterexample`, `Alloc.Ring.C215_source`, `Alloc.Ring.C215_moved_counterexample`.

**`propext`** (79 theorems): `BitStream.C12_dirty_destination_counterexample`, `Hash.C24_self_assign_counterexample`, `Dyn.C27_insert_own_element_counterexample`, `Dyn.C27_self_assignment_counterexample`, `BoolArr.C28_const_front_back_counterexample`, `Rational.C29_divide_by_zero_counterexample`, `Arith.C31_convert_partial`, `Sync.RWLock.C40_blocking_upgrade_counterexample`, `Ptr.RefCount.C45_self_assign_counterexample`, `Ptr.Owner.C46_move_assign_counterexample`, `Ptr.Owner.C46_double_delete_counterexample`, `Utf.C50_overread_counterexample`, `Arith.C52_negative_divisor_counterexample`, `Arith.C53_sqrt_64_counterexample`, `Arith.C55_bssLog2_p2`, `Arith.C57_compT`, `Arith.C57_compTInv`, `Graph.C65_twice_counterexample`, `Graph.C65_overflow_counterexample`, `Graph.C65_order_counterexample`, `Str.C67_unique`, `Arith.C69_min_counterexample`, `Arith.C69_shift0_counterexample`, `StrTable.C71_empty_counterexample`, `StrTable.C71_stream_counterexample`, `Compact.C73_shrink_counterexample`, `TreeBfs.C82_full_counterexample`, `Arith.C84_overflow_counterexample`, `Arith.C84_tolerance_counterexample`, `Xml.C91_index_counterexample`, `Xml.C91_oldest_counterexample`, `Xml.C91_middle_counterexample`, `Graph.Flow.C95_parallel_counterexample`, `IniDoc.C104_empty_counterexample`, `IniDoc.C104_utf8_counterexample`, `IniDoc.C105_long_name_counterexample`, `IniDoc.C106_missing_counterexample`, `IniDoc.C106_source_counterexample`, `Text.C128_count_length_counterexample`, `Arr.C131_assign_self_counterexample`, `Arr.C131_move_self_counterexample`, `Arr.C131_append_self_counterexample`, `Arr.C131_add_own_element_counterexample`, `Arr.C131_insert_own_element_counterexample`, `Arr.C131_set_own_slice_counterexample`, `Sys.C145_medium_counterexample`, `Sys.C148_msb`, `Sys.C148_bytes_counterexample`, `Sys.C148_limits_counterexample`, `Stream.RO.C150_putback_counterexample`, `Stream.RO.C150_seek_counterexample`, `Toml.C153_other`, `IniEnt.C158_shared_false`, `Sys.C163_copy_counterexample`, `Sys.Thr.C164_wait_false`, `Arith.C168_exponent_counterexample`, `Vec.Lanes.C173_shuffle`, `StrConv.C180_empty_false`, `StrBuild.C183_own_false`, `GraphMatrix.C186_nodes_counterexample`, `TRB.Check.C190_root_counterexample`, `TRB.Check.C190_duplicate_counterexample`, `Own.C192_avl_policy_counterexample`, `Own.C192_list_policy_counterexample`, `Own.C192_trb_policy_counterexample`, `Own.C192_trb_reuse_counterexample`, `Own.C192_kd_reuse_counterexample`, `Own.C192_self_counterexample`, `UbjsonTyped.C198_elements_counterexample`, `UbjsonTyped.C198_big_counterexample`, `Var.Serial.C200_missing_counterexample`, `Sys.RegValue.C201_missing_counterexample`, `Hash.C204_lost_counterexample`, `BitStream.Objects.C205_flush_between_counterexample`, `BitStream.Objects.C205_copy_counterexample`, `Sync.MLQ.C219_assign_counterexample`, `DSet.C220_source_counterexample`, `Circ.C221_self_counterexample`, `Circ.C222_discard_counterexample`.

**`Quot.sound`, `propext`** (196 theorems): `Heap.C03_remove_counterexample`, `Heap.C03_remove_counterexample_observable`, `Heap.C03_remove_invalid`, `DSet.C07_self_union_counterexample`, `Linked.C18_insert`, `Linked.C18_insertAfter`, `Linked.C18_addLast`, `Linked.C18_add`, `Linked.C18_addAfterRoot`, `Linked.C18_addAfter`, `Linked.C18_removeLast`, `Linked.C18_remove`, `Linked.C18_removeNoRoot`, `Linked.C18_traversal`, `Linked.C19_append_in_order`, `Trie.C26_high_bytes_counterexample`, `Trie.C26_empty_word_counterexample`, `Trie.C26_duplicate_counterexample`, `Trie.C26_overflow_counterexample`, `Dyn.C27_add_own_element_counterexample`, `Dyn.C27_move_from_array_counterexample`, `BoolArr.C28_insert_counterexample`, `BoolArr.C28_assign_partial`, `Sync.LQ.C42_fifo`, `Sync.LQ.C42_no_ub`, `Sync.MLQ.C43_pushed`, `Sync.MLQ.C43_spurious_empty_counterexample`, `Sync.TP.C44_dtor`, `Sync.TP.C44_bounded`, `Ptr.Owner.C46_deleted_once_partial`, `Ptr.Owner.C46_drop`, `Utf.C48_encode`, `Utf.C50_utf32to8`, `Utf.C50_utf8to32`, `Utf.C50_utf16to32`, `Utf.C50_query`, `Itoa.C51_min_counterexample`, `Arith.C55_bitCount_signed_counterexample`, `Arith.C55_bssLog2_zero`, `Arith.C55_bssLog2_gcc32`, `Arith.C56_fbnext`, `Arith.C56_fbnext_machine`, `Arith.C57_compT_ord`, `Arith.C57_compTInv_ord`, `Arith.C58_flip`, `Arith.C58_set_partial`, `Arith.C58_set_inside`, `Arith.C58_set_counterexample`, `Ubjson.C60_accepts`, `Spatial.C61_missed_counterexample`, `Random.C62_seed`, `Random.C63_permutation`, `Heap.C66_stale_counterexample`, `Heap.C66_move_counterexample`, `Heap.C68_empty_counterexample`, `Curve.C74_quadratic`, `Curve.C74_cubic`, `Curve.C74_bezier`, `AVL.C76_replace_key_counterexample`, `TRB.C77_near_after_counterexample`, `Curve.C81_newton`, `Spatial.C85_ends`, `Str.C86_null`, `Xml.C91_children_partial`, `Xml.C91_attributes`, `Xml.C92_setvalue`, `Xml.C92_unsigned`, `Xml.C92_hex`, `Graph.Flow.C94_infeasible`, `Graph.Flow.C95_excess_counterexample`, `Vec.C101_scalar`, `Ani.C117_zero_length_counterexample`, `Ani.C120_interval_constructor_counterexample`, `Toml.C125_hang_counterexample`, `Text.C126_blank_counterexample`, `Text.C126_empty_counterexample`, `Text.C126_utf8_counterexample`, `Text.C127_tokens`, `Text.C127_every_text`, `Text.C127_explode_nul`, `Text.C127_chunk`, `Text.C127_char32_counterexample`, `Text.C128_strreplace`, `Text.C128_replace`, `Text.C128_count`, `Text.C128_strip`, `Text.C128_count_length_partial`, `Text.C129_count`, `Text.C129_args_partial`, `Text.C129_quote_counterexample`, `Text.C129_groups`, `Log.C134_setLevel_partial`, `Log.C134_truncates_counterexample`, `Log.C134_out_of_bounds_counterexample`, `Var.C136_variants_partial`, `Var.C136_empty_counterexample`, `Var.C136_inner_counterexample`, `Var.C137_size`, `Var.C137_aligned_partial`, `Var.C137_aligned_counterexample`, `Prof.C138_small`, `Prof.C138_same`, `Sys.C147_empty_counterexample`, `Sys.C148_limits_partial`, `Sys.C149_range_shift_counterexample`, `Sys.C149_range_extend_counterexample`, `Sys.C149_get_counterexample`, `Sys.C149_get_extend_counterexample`, `Stream.Fn.C151_write_count`, `Stream.Fn.C151_read_partial`, `Stream.Fn.C151_read_end`, `IniEnt.C154_decimal_partial`, `IniEnt.C155_int`, `IniEnt.C155_convert`, `IniEnt.C155_equality`, `IniEnt.C156_path`, `IniEnt.C157_construct_partial`, `IniEnt.C157_assign_false`, `IniEnt.C158_missing_partial`, `Arr.View.C159_sub_partial`, `Arr.View.C159_from`, `Arr.View.C159_walk`, `Arr.View.C159_negative_false`, `Arr.View.C161_overflow_counterexample`, `Sys.C162_call_partial`, `Sys.C163_defer_partial`, `Sys.Thr.C164_wait_partial`, `Sys.Thr.C165_notify_partial`, `Sys.Thr.C165_count`, `Arith.C166_tsignzero`, `Sys.C169_64_false`, `Sys.C170_level`, `Sys.C170_flags_partial`, `Sys.C170_sse4a_false`, `Sys.C170_gap_counterexample`, `Vec.Ops.C171_compare`, `Vec.Ops.C171_equal_matrix`, `Vec.Lanes.C172_arith_partial`, `StrBuild.C181_format_partial`, `StrBuild.C182_written_partial`, `StrBuild.C182_reserved_false`, `StrBuild.C183_plus`, `StrBuild.C183_pointer_partial`, `HashKeys.C184_hash_partial`, `HashKeys.C184_zero_counterexample`, `HashKeys.C184_symm`, `HashKeys.C184_trans`, `HashKeys.C184_nan_counterexample`, `HashKeys.C184_pointer_counterexample`, `HashKeys.C184_embedded_counterexample`, `HashKeys.C185_int64`, `HashKeys.C185_int64_counterexample`, `GraphMatrix.C186_matrix_partial`, `GraphMatrix.C187_getNode_partial`, `GraphMatrix.C187_addNode`, `GraphMatrix.C187_removed_counterexample`, `TRB.Check.C191_duplicate_counterexample`, `Own.C192_moves_partial`, `Own.C192_no_leak_partial`, `Var.Serial.C200_roundtrip`, `Var.Serial.C200_empty`, `Var.Serial.C200_valid`, `Var.Serial.C200_lost_counterexample`, `Var.Serial.C200_order_counterexample`, `Sys.RegValue.C201_dword`, `Sys.RegValue.C201_qword`, `Sys.RegValue.C201_frame`, `Sys.RegValue.C201_exact`, `Sys.RegValue.C201_raw`, `Sys.RegValue.C201_overwritten_counterexample`, `Alloc.Standard.C203_resize_empty`, `Alloc.Standard.C203_new`, `Alloc.Standard.C203_free`, `Alloc.Standard.C203_aligned`, `Alloc.Standard.C203_aligned_counterexample`, `BitStream.Objects.C205_flush_counterexample`, `Random.C206_rand`, `Random.C206_rand_counterexample`, `Random.AliasObjects.C207_values_partial`, `Random.AliasObjects.C207_small_counterexample`, `Random.AliasObjects.C207_large_counterexample`, `Random.AliasObjects.C207_self_counterexample`, `Random.AliasObjects.C207_moved_counterexample`, `XmlObj.C210_trees_partial`, `XmlObj.C210_copy_counterexample`, `XmlObj.C210_addNode_counterexample`, `XmlObj.C210_assign_counterexample`, `Arb.C211_add_counterexample`, `Own.Singleton.C213_one`, `Own.Singleton.C213_second_counterexample`, `Compact.Heap.C216_memory`, `Compact.Heap.C216_calls`, `Heap.C217_moveNew_counterexample`, `Heap.C217_push_counterexample`, `Sync.LQ.C218_no_leak`, `Sync.LQ.C218_destroy`.

**`Classical.choice`, `Quot.sound`, `propext`** (636 theorems): `Heap.C01_heap_history`, `Heap.C01_set_replaces_indexed`, `Heap.C02_heapSort_sorts`, `Heap.C02_heapify_heap`, `Heap.C03_remove_partial`, `Sorted.C04_before`, `Sorted.C04_after`, `Sorted.C04_exact`, `Sorted.C04_magnitude_counterexample`, `Sorted.C05_history`, `Sorted.C05_insert_index`, `Sorted.C05_find`, `Sorted.C05_findNear_before`, `Sorted.C05_findNear_after`, `Sorted.C06_map_history`, `DSet.C07_find_iff_connected`, `DSet.C07_find_is_set_name`, `DSet.C07_union_total`, `DSet.C08_numSets`, `DSet.C08_elements`, `DSet.C08_outside`, `DSet.C09_kruskal_minimum_forest`, `Base64.C10_round_trip`, `Base64.C10_encode_length`, `Base64.C10_decode_length`, `Base64.C11_url_safe`, `Base64.C11_injective`, `Base64.C11_bad_length_rejected`, `Base64.C11_alphabet_decodes`, `Base64.C11_whole_groups_onto`, `Base64.C11_decoder_accepts_foreign_counterexample`, `BitStream.C12_round_trip`, `Circ.C13_fifo`, `Circ.C13_drain`, `Circ.C14_newest_elements`, `Circ.C14_full_push_drops_oldest`, `Circ.C14_clear_and_copy`, `Dyn.C15_stack_lifo`, `Dyn.C15_length_is_pushes_minus_pops`, `Dyn.C16_random_queue_multiset`, `Dyn.C16_popped_and_held_are_pushed`, `Linked.Arr.C17_operations_follow_spec`, `Linked.Arr.C17_observations`, `Linked.Arr.C17_handles_stable`, `Linked.C19_list_is_sequence`, `Linked.C19_noLast_partial`, `AVL.C20_map_refinement`, `AVL.C20_rejected_calls_change_nothing`, `AVL.C20_traverse`, `AVL.C21_balance`, `AVL.C21_height`, `AVL.C21_traverse_sorted`, `AA.C22_contents_partial`, `AA.C22_multiset_partial`, `AA.C22_levels_partial`, `AA.C22_get_partial`, `AA.C22_height_partial`, `TRB.C23_history`, `TRB.C23_iteration_sorted`, `TRB.C23_thread_is_inorder`, `TRB.C23_colours`, `TRB.C23_height`, `Hash.C24_history`, `Hash.C24_insert_iterator`, `Hash.C24_remove_iterator`, `Hash.C24_assign`, `Hash.C25_probe_covers`, `Hash.C25_never_used_bucket`, `Hash.C25_terminates`, `Trie.C26_lookup_partial`, `Dyn.C27_dynarray_refines_sequences`, `BoolArr.C28_insert_effect`, `BoolArr.C28_bool_sequence_partial`, `BoolArr.C28_insert_short_partial`, `BoolArr.C28_addConstruct_counterexample`, `BoolArr.C28_assign_counterexample`, `BoolArr.C28_countBits`, `Rational.C29_exact`, `Rational.C29_exact_int`, `Rational.C29_add_defined`, `Rational.C29_mul_defined`, `Rational.C30_constructor`, `Rational.C30_abs`, `Rational.C30_canonical`, `Rational.C30_equality`, `Rational.C30_gcd`, `Arith.C31_add_exact`, `Arith.C31_add_floor`, `Arith.C31_mul`, `Arith.C31_div`, `Arith.C31_div_recip`, `Arith.C31_reciprocal`, `Arith.C31_int`, `Arith.C31_compare`, `Arith.C31_convert_counterexample`, `Alias.C32_in_range`, `Alias.C32_distribution`, `Alloc.Block.C33_blocks_disjoint`, `Alloc.Block.C33_chunks_disjoint`, `Alloc.Block.C33_blocks_aligned`, `Alloc.Block.C33_alloc`, `Alloc.Block.C33_reuse`, `Alloc.Block.C33_no_waste`, `Alloc.Block.C33_clear`, `Alloc.GreedyBlock.C34_disjoint`, `Alloc.GreedyBlock.C34_alloc`, `Alloc.GreedyBlock.C34_clear`, `Alloc.Greedy.C35_disjoint`, `Alloc.Greedy.C35_returns`, `Alloc.Greedy.C35_no_ub`, `Alloc.Cache.C36_disjoint`, `Alloc.Cache.C36_room`, `Alloc.Cache.C36_same_class`, `Alloc.Cache.C36_no_ub`, `Alloc.Cache.C36_reuse`, `Alloc.Ring.C37_disjoint`, `Alloc.Ring.C37_room`, `Alloc.Ring.C37_recycled`, `Alloc.Ring.C37_last`, `Alloc.Ring.C37_no_ub`, `Sync.RWLock.C38_mutual_exclusion`, `Sync.RWLock.C39_word`, `Sync.RWLock.C39_free`, `Sync.RWLock.C39_no_residue`, `Sync.RWLock.C39_free_succeeds`, `Sync.RWLock.C40_no_writer_between`, `Sync.RWLock.C40_attempt`, `Sync.RWLock.C40_at_most_one`, `Sync.RWLock.C40_wait`, `Alloc.Lockless.C41_disjoint`, `Alloc.Lockless.C41_no_loss`, `Alloc.Lockless.C41_safe`, `Sync.LQ.C42_empty`, `Sync.LQ.C42_delivers`, `Sync.MLQ.C43_fifo`, `Sync.MLQ.C43_once`, `Sync.MLQ.C43_no_ub`, `Sync.MLQ.C43_exclusive`, `Sync.MLQ.C43_pop`, `Sync.MLQ.C43_empty`, `Sync.TP.C44_once`, `Sync.TP.C44_wait`, `Sync.TP.C44_progress`, `Sync.TP.C44_completes`, `Sync.TP.C44_shutdown`, `Sync.TP.C44_no_workers_counterexample`, `Ptr.RefCount.C45_history_partial`, `Ptr.RefCount.C45_last_handle_partial`, `Ptr.Owner.C46_all_deleted_partial`, `Utf.C47_legal`, `Utf.C47_sequence`, `Utf.C48_decode`, `Utf.C48_roundtrip`, `Utf.C49_encode`, `Utf.C49_decode`, `Utf.C49_roundtrip`, `Utf.C50_utf32to16`, `Itoa.C51_text_partial`, `Itoa.C51_bounds_partial`, `Arith.C52_intDiv_floor`, `Arith.C52_mod`, `Arith.C53_sqrt_partial`, `Arith.C53_sqrt_8_16_32`, `Arith.C54_next`, `Arith.C54_count`, `Arith.C54_monotone`, `Arith.C55_bitCount_unsigned`, `Arith.C55_nextPow2`, `Arith.C55_nextPow2_wraps`, `Arith.C55_bssLog2`, `Arith.C55_flipEndian`, `Arith.C55_flipEndian_involutive`, `Arith.C56_alignSize`, `Arith.C56_nextMultiple`, `Arith.C57_both_lex`, `Arith.C57_both_ord`, `Arith.C57_both_eq`, `Arith.C57_compStr`, `Arith.C58_assign`, `Arith.C58_get`, `Arith.C58_get_assign`, `Arith.C58_group`, `Arith.C58_add_sub`, `Arith.C58_iter_inc`, `Arith.C58_iter_dec`, `Ubjson.C59_roundtrip_partial`, `Ubjson.C59_big_endian`, `Ubjson.C60_contains`, `Ubjson.C60_contains_all`, `Ubjson.C60_roundtrip`, `Ubjson.C60_rejects`, `Spatial.C61_sound_partial`, `Spatial.C61_exact_partial`, `Spatial.C61_insertions_partial`, `Random.C62_xorshift64`, `Random.C62_xorshift1024`, `Random.C62_seed_zero_counterexample`, `Random.C63_exactly_once`, `Graph.C64_consistent`, `Graph.C65_visits_partial`, `Graph.C65_once_partial`, `Heap.C66_handles`, `Str.C67_tokens`, `Heap.C68_scheduler`, `Arith.C69_unsigned`, `Arith.C69_signed_partial`, `Arith.C69_wide`, `Ini.C70_section_partial`, `Ini.C70_entry_partial`, `Ini.C70_prefix_counterexample`, `Ini.C70_blank_counterexample`, `Ini.C70_utf8_counterexample`, `StrTable.C71_table`, `Stream.C72_stream_partial`, `Compact.C73_sequence`, `Curve.C74_quadratic_trace`, `Curve.C74_cubic_trace`, `Curve.C74_weights`, `Curve.C74_hull`, `Curve.C74_join`, `Curve.C74_fit`, `AVL.C75_near`, `AVL.C75_near_exact`, `AVL.C76_replace_key_partial`, `TRB.C77_near_before_partial`, `TRB.C77_near_after_partial`, `Rational.C78_compare_int`, `Rational.C78_truncate`, `Curve.C79_roots`, `Curve.C79_inflection`, `Curve.C79_cubic_partial`, `Curve.C79_double_counterexample`, `Curve.C80_follows`, `Curve.C80_terminates`, `Curve.C81_bracket`, `Curve.C81_root`, `Curve.C81_slow_counterexample`, `TreeBfs.C82_levels_partial`, `Arith.C83_mean`, `Arith.C83_variance_counterexample`, `Arith.C84_float_partial`, `Arith.C84_double_partial`, `Arith.C84_place`, `Spatial.C85_tiles`, `Str.C86_first`, `Json.C87_grammar_partial`, `Json.C87_roundtrip_partial`, `Json.C87_null_counterexample`, `Json.C87_pretty_bool_counterexample`, `Json.C87_double_counterexample`, `Json.C87_name_counterexample`, `Json.C88_terminates`, `Json.C88_parse_partial`, `Json.C88_blank_counterexample`, `Json.C88_exponent_counterexample`, `Json.C88_surrogate_counterexample`, `Xml.C89_grammar_partial`, `Xml.C89_roundtrip_partial`, `Xml.C89_pretty_partial`, `Xml.C89_quote_counterexample`, `Xml.C89_greater_counterexample`, `Xml.C89_blank_counterexample`, `Xml.C89_nonascii_text_counterexample`, `Xml.C89_nonascii_name_counterexample`, `Xml.C89_file_text_counterexample`, `Xml.C89_pretty_counterexample`, `Xml.C90_terminates`, `Xml.C90_parse_partial`, `Xml.C90_doctype_counterexample`, `Xml.C90_apostrophe_counterexample`, `Xml.C90_attribute_entity_counterexample`, `Xml.C90_no_value_counterexample`, `Xml.C90_max_code_counterexample`, `Xml.C90_comment_counterexample`, `Xml.C92_negative_hex_counterexample`, `Graph.Flow.C93_lower_bounds`, `Graph.Flow.C94_circulation`, `Graph.Flow.C95_preflow_partial`, `Graph.Flow.C95_flow_partial`, `Graph.Flow.C95_maximum_counterexample`, `Graph.Flow.C95_endless_counterexample`, `Dual.C96_derivatives`, `Vec.C97_determinant`, `Vec.C97_inverse`, `Vec.C98_product`, `Vec.C98_transpose`, `Vec.C98_transpose_small`, `Vec.C99_transposed`, `Vec.C99_translation`, `Vec.C99_affine`, `Vec.C99_rotation`, `Vec.C99_axes`, `Vec.C99_rotate`, `Vec.C100_dot`, `Vec.C100_euclidean`, `Vec.C100_normalize`, `Vec.C100_cross`, `Vec.C100_outer`, `Vec.C100_area`, `Vec.C100_area_plane`, `Vec.C100_polar`, `Vec.C101_order`, `Vec.C102_general`, `Vec.C102_sse_counterexample`, `Vec.C102_sse_partial`, `Vec.C103_counterexample`, `Vec.C103_partial`, `IniDoc.C104_read_partial`, `IniDoc.C104_lines_partial`, `IniDoc.C104_echo_counterexample`, `IniDoc.C104_overflow_counterexample`, `IniDoc.C104_long_counterexample`, `IniDoc.C105_history_partial`, `IniDoc.C106_copy_partial`, `IniDoc.C107_history_partial`, `IniDoc.C107_reload_partial`, `IniDoc.C107_prefix_counterexample`, `IniDoc.C107_nameless_counterexample`, `IniDoc.C107_reload_counterexample`, `Geo.C108_point`, `Geo.C108_contains`, `Geo.C108_collide`, `Geo.C108_circle`, `Geo.C108_vector_counterexample`, `Geo.C109_radius_partial`, `Geo.C109_same_counterexample`, `Geo.C109_circles_partial`, `Geo.C109_offset_counterexample`, `Geo.C109_nearest`, `Geo.C109_member_counterexample`, `Geo.C110_points_partial`, `Geo.C110_collide_partial`, `Geo.C110_degenerate_counterexample`, `Geo.C110_inside_counterexample`, `Geo.C110_member_counterexample`, `Geo.C111_nearest_partial`, `Geo.C111_distanceSqr_partial`, `Geo.C111_distance_partial`, `Geo.C111_distance_counterexample`, `Geo.C111_degenerate_counterexample`, `Geo.C112_collide_partial`, `Geo.C112_axis`, `Geo.C112_points_partial`, `Geo.C112_sign_counterexample`, `Geo.C112_parallel_counterexample`, `Geo.C112_collinear_counterexample`, `Geo.C113_decisions`, `Geo.C113_split`, `Geo.C113_intersection`, `Geo.C113_union`, `Geo.C113_canonical`, `Geo.C113_boundingCircle`, `Geo.C113_aabb`, `Geo.C113_circle`, `Geo.C113_ellipse`, `Geo.C114_partial`, `Geo.C114_horizontal_counterexample`, `Geo.C114_vertical_counterexample`, `Geo.C114_touch_counterexample`, `Geo.C115_triangle`, `Geo.C115_three`, `Geo.C115_fan`, `Geo.C115_hull`, `Geo.C115_reverse`, `Geo.C115_convex`, `Geo.C116_area`, `Geo.C116_centroid_partial`, `Geo.C116_center_partial`, `Geo.C116_centroid_counterexample`, `Geo.C116_convex_partial`, `Geo.C116_star_counterexample`, `Geo.C116_contains_false`, `Geo.C116_outside_counterexample`, `Ani.C117_time`, `Ani.C117_discrete_once`, `Ani.C117_discrete_loop_partial`, `Ani.C117_long_step_counterexample`, `Ani.C117_loop_past_end_counterexample`, `Ani.C118_lerp_partial`, `Ani.C118_hold_partial`, `Ani.C118_relative_partial`, `Ani.C118_lerp_curve`, `Ani.C118_one_frame_counterexample`, `Ani.C118_relative_counterexample`, `Ani.C119_handles`, `Ani.C119_all_removed`, `Ani.C119_adds_like_discrete`, `Ani.C119_ends_partial`, `Ani.C119_early_counterexample`, `Ani.C119_late_counterexample`, `Ani.C120_history`, `Ani.C120_add_remove`, `Ani.C121_progress_ends`, `Ani.C121_progress_partial`, `Ani.C121_default_easing_partial`, `Ani.C121_linear`, `Ani.C121_time_monotone`, `Ani.C121_quadratic`, `Ani.C121_cubic_partial`, `Ani.C121_cubic_derivative_counterexample`, `Ani.C121_time_derivative_counterexample`, `Ani.C121_length_counterexample`, `Toml.C122_round_trip`, `Toml.C122_forms_partial`, `Toml.C122_last_code_point_counterexample`, `Toml.C123_document_partial`, `Toml.C123_nested_counterexample`, `Toml.C123_underscore_counterexample`, `Toml.C124_round_trip_partial`, `Toml.C124_nested_counterexample`, `Toml.C124_key_counterexample`, `Toml.C125_terminates_partial`, `Toml.C125_hang_document_counterexample`, `Toml.C125_number_counterexample`, `Toml.C125_header_counterexample`, `Toml.C125_defined_partial`, `Text.C126_strtrim_partial`, `Text.C126_trim_partial`, `Text.C126_every_text`, `Text.C126_ascii_partial`, `Text.C127_explode`, `Text.C130_format`, `Text.C130_every_format`, `Arr.C131_arrays_are_values_partial`, `Arr.C131_no_leak_partial`, `Arr.C131_elements_constructed_once_partial`, `Log.C132_delivery_partial`, `Log.C132_log_delivers_partial`, `Log.C132_target_assimilated_counterexample`, `Log.C132_added_twice_counterexample`, `Log.C133_restored_partial`, `Log.C133_assimilated_twice_counterexample`, `Log.C133_destroyed_in_order_counterexample`, `Log.C133_assignment_counterexample`, `Log.C134_limit_partial`, `Log.C134_limit_counterexample`, `Log.C135_entry_partial`, `Log.C135_null_source_counterexample`, `Log.C135_date_counterexample`, `Prof.C138_measured_partial`, `Prof.C138_shared_counterexample`, `Prof.C139_flat_partial`, `Prof.C139_names_counterexample`, `Prof.C140_tree_partial`, `Prof.C140_indent_counterexample`, `Prof.C141_heat_partial`, `Prof.C141_number_counterexample`, `Num.C142_exact_partial`, `Num.C142_five_points`, `Num.C142_five_points_counterexample`, `Num.C142_sharp`, `Num.C143_modulo`, `Num.C143_modulo_negative`, `Num.C143_distance`, `Num.C143_distance_arccos`, `Num.C143_signed`, `Num.C143_zero`, `Num.C144_bounds`, `Num.C144_scale`, `Num.C144_symmetric`, `Num.C144_sharp`, `Sys.C145_choice_partial`, `Sys.C145_exact`, `Sys.C146_posix`, `Sys.C146_posix_delta`, `Sys.C146_posix_monotone`, `Sys.C146_windows_partial`, `Sys.C146_windows_overflow_counterexample`, `Sys.C146_sum`, `Sys.C146_warp_counterexample`, `Sys.C146_warp_platform_counterexample`, `Sys.C147_delete`, `Sys.C147_delete_all`, `Sys.C149_bit`, `Sys.C149_range_partial`, `Sys.C149_set`, `Sys.C149_get_partial`, `Stream.RO.C150_read_partial`, `Stream.RO.C150_all`, `Stream.Fn.C151_write_partial`, `Toml.C152_roundtrip`, `Toml.C152_exact`, `Toml.C152_text`, `Toml.C153_offset_partial`, `Toml.C153_date_partial`, `Toml.C153_zulu_false`, `Toml.C153_end_false`, `Toml.C153_counterexample`, `IniEnt.C154_hex`, `IniEnt.C154_counterexample`, `Arr.View.C160_bijection`, `Arr.View.C161_lifetime_partial`, `Sys.Thr.C164_once`, `Sys.Thr.C164_windows_false`, `Arith.C166_tsign`, `Arith.C166_fsign`, `Arith.C167_small`, `Arith.C167_negative_false`, `Arith.C167_compare_float_partial`, `Arith.C167_compare_double_partial`, `Arith.C168_wide_partial`, `Arith.C168_sign_false`, `Sys.C169_ascii_partial`, `Sys.C169_other_false`, `Vec.Ops.C171_inplace`, `Vec.Ops.C171_inplace_scalar`, `Vec.Ops.C171_binary`, `Vec.Ops.C171_matrix`, `Vec.Lanes.C172_compare`, `Vec.Lanes.C172_minmax`, `Vec.Lanes.C172_shift_partial`, `Vec.Lanes.C172_register_false`, `Vec.Lanes.C173_sum`, `Vec.Lanes.C174_round_partial`, `Vec.Lanes.C174_range_false`, `Geo.C175_contains_partial`, `Geo.C175_constructed`, `Geo.C175_center_counterexample`, `Geo.C176_circle`, `Geo.C177_segment_partial`, `Geo.C177_center_counterexample`, `Geo.C178_polygon_partial`, `Geo.C178_inside_counterexample`, `Geo.C179_sectors_partial`, `Geo.C179_exchanged_counterexample`, `Geo.C179_period_counterexample`, `StrConv.C180_pointer`, `StrConv.C180_string_partial`, `StrConv.C180_back_partial`, `StrConv.C180_zero_false`, `StrConv.C180_count_partial`, `StrConv.C180_count_false`, `HashKeys.C184_case`, `HashKeys.C184_self_partial`, `HashKeys.C185_int`, `GraphMatrix.C186_history`, `GraphMatrix.C186_construct`, `GraphMatrix.C186_round_trip`, `JsonTyped.C188_terminates`, `JsonTyped.C188_parse_partial`, `JsonTyped.C188_append_counterexample`, `JsonTyped.C188_unknown_counterexample`, `JsonTyped.C188_quoted_counterexample`, `JsonTyped.C188_range_counterexample`, `JsonTyped.C188_blank_counterexample`, `JsonTyped.C189_grammar_partial`, `JsonTyped.C189_roundtrip_partial`, `JsonTyped.C189_char_counterexample`, `TRB.Check.C190_decides_partial`, `TRB.Check.C191_order`, `TRB.Check.C191_find_partial`, `Geo.C193_inside`, `Geo.C193_collide_sound`, `Geo.C193_divisor_partial`, `Geo.C193_nearest_partial`, `Geo.C193_collide_partial`, `Geo.C193_touch_counterexample`, `Geo.C193_member_counterexample`, `Spatial.Poisson.C194_samples_partial`, `Spatial.Poisson.C194_double_counterexample`, `Random.Zig.C195_areas`, `Random.Zig.C195_strip`, `Random.Zig.C195_base`, `Random.Zig.C195_tail`, `Random.Zig.C195_symmetric`, `Random.Zig.C195_size_counterexample`, `Random.Zig.C195_start_counterexample`, `Num.FastSqrt.C196_float_partial`, `Num.FastSqrt.C196_double_partial`, `Num.FastSqrt.C196_denormal_counterexample`, `XmlTyped.C197_roundtrip_partial`, `XmlTyped.C197_unknown_partial`, `XmlTyped.C197_name_counterexample`, `XmlTyped.C197_nested_counterexample`, `XmlTyped.C197_number_counterexample`, `XmlTyped.C197_quote_counterexample`, `XmlTyped.C197_append_counterexample`, `XmlTyped.C197_attribute_counterexample`, `UbjsonTyped.C198_roundtrip_partial`, `UbjsonTyped.C198_convert`, `UbjsonTyped.C198_bytes_counterexample`, `UbjsonTyped.C198_bits_counterexample`, `UbjsonTyped.C198_zero_counterexample`, `UbjsonTyped.C198_name_counterexample`, `UbjsonTyped.C198_unknown_counterexample`, `UbjsonTyped.C198_hang_counterexample`, `Random.C199_unsigned`, `Random.C199_reached`, `Random.C199_int`, `Random.C199_real_partial`, `Random.C199_real_counterexample`, `Random.C199_reached_counterexample`, `Random.C199_monotone`, `Random.C199_shuffle`, `Sys.RegValue.C201_string_counterexample`, `Ani.Values.C202_get`, `Ani.Values.C202_set`, `Ani.Values.C202_roundtrip`, `Alloc.Standard.C203_resize`, `Alloc.Standard.C203_greedy`, `Hash.C204_alive`, `Hash.C204_balanced_partial`, `Hash.C204_rehash_loses`, `BitStream.Objects.C205_moves_partial`, `Random.C206_seed`, `Random.C206_equal_partial`, `Random.C206_equal_counterexample`, `Random.C206_discard_partial`, `Random.C206_discard_counterexample`, `Alloc.Moves.C208_pools_partial`, `Alloc.Moves.C208_assign_counterexample`, `Alloc.Moves.C208_self_counterexample`, `Alloc.Moves.C208_moved_counterexample`, `Linked.Arr.C209_objects_partial`, `Linked.Arr.C209_self_counterexample`, `Linked.Arr.C209_moved_counterexample`, `XmlObj.C210_self_counterexample`, `Arb.C211_elements_partial`, `Arb.C211_self_counterexample`, `Arb.C211_moved_counterexample`, `Alloc.Cache.C212_pools_partial`, `Alloc.Cache.C212_source_counterexample`, `Own.Singleton.C213_exists`, `Own.Singleton.C213_calls`, `Graph.C214_destroy_partial`, `Graph.C214_assign_partial`, `Graph.C214_lost_counterexample`, `Alloc.Ring.C215_blocks`, `Alloc.Ring.C215_self_counterexample`, `Heap.C217_objects_partial`, `Sync.MLQ.C219_no_leak`, `Sync.MLQ.C219_destroy`, `Sync.MLQ.C219_move_partial`, `DSet.C220_moves_partial`, `Circ.C221_objects_partial`, `Circ.C222_destroyed_partial`.
