{
 "claims": [
  {
   "property": "C01",
   "status": "proved",
   "theorems": [
    "Verif.Heap.C01_heap_history",
    "Verif.Heap.C01_set_replaces_indexed"
   ],
   "note": "Refinement of every operation history to a multiset with maximum; SetKey replaces the indexed element."
  },
  {
   "property": "C02",
   "status": "proved",
   "theorems": [
    "Verif.Heap.C02_heapSort_sorts",
    "Verif.Heap.C02_heapify_heap"
   ],
   "note": "Any array and comparison; Heapify and HeapSort, in-range accesses included."
  },
  {
   "property": "C03",
   "status": "partial",
   "theorems": [
    "Verif.Heap.C03_remove_counterexample",
    "Verif.Heap.C03_remove_counterexample_observable",
    "Verif.Heap.C03_remove_partial",
    "Verif.Heap.C03_remove_invalid"
   ],
   "note": "The claim is false of the code (counterexample theorems): Remove(i) only percolates down. Partial: holds when the moved last element does not exceed the parent of the removed slot."
  },
  {
   "property": "C04",
   "status": "proved",
   "theorems": [
    "Verif.Sorted.C04_before",
    "Verif.Sorted.C04_after",
    "Verif.Sorted.C04_exact",
    "Verif.Sorted.C04_magnitude_counterexample"
   ],
   "note": "For comparisons returning -1/0/1 (the library's); counterexample theorem shows other magnitudes break the approximate searches."
  },
  {
   "property": "C05",
   "status": "proved",
   "theorems": [
    "Verif.Sorted.C05_history",
    "Verif.Sorted.C05_insert_index",
    "Verif.Sorted.C05_find",
    "Verif.Sorted.C05_findNear_before",
    "Verif.Sorted.C05_findNear_after"
   ],
   "note": "All histories; Find and FindNear characterised."
  },
  {
   "property": "C06",
   "status": "proved",
   "theorems": [
    "Verif.Sorted.C06_map_history"
   ],
   "note": "Refinement to a finite map for histories that insert absent keys only (Insert does not check)."
  },
  {
   "property": "C07",
   "status": "proved",
   "theorems": [
    "Verif.DSet.C07_find_iff_connected",
    "Verif.DSet.C07_find_is_set_name",
    "Verif.DSet.C07_union_total",
    "Verif.DSet.C07_self_union_counterexample"
   ],
   "note": "Every history of Union/Find/NumElements/GetElements/AddSets from a freshly reset object, any size; Find proved to terminate. Union(s,s) excluded as in the quantifier; C07_self_union_counterexample shows it corrupts the structure."
  },
  {
   "property": "C08",
   "status": "proved",
   "theorems": [
    "Verif.DSet.C08_numSets",
    "Verif.DSet.C08_elements",
    "Verif.DSet.C08_outside",
    "Verif.DSet.C08_addSets_counterexample"
   ],
   "note": "NumSets is exact for Union/Find histories; AddSets does not update it (C08_addSets_counterexample), so the theorem counts added elements separately."
  },
  {
   "property": "C09",
   "status": "proved",
   "theorems": [
    "Verif.DSet.C09_kruskal_minimum_forest"
   ],
   "note": "Minimality against every acyclic selection with the same connectivity, integer weights (negative allowed), any edge list."
  },
  {
   "property": "C10",
   "status": "proved",
   "theorems": [
    "Verif.Base64.C10_round_trip",
    "Verif.Base64.C10_encode_length",
    "Verif.Base64.C10_decode_length"
   ],
   "note": "All byte strings; lengths for every input."
  },
  {
   "property": "C11",
   "status": "proved",
   "theorems": [
    "Verif.Base64.C11_url_safe",
    "Verif.Base64.C11_injective",
    "Verif.Base64.C11_bad_length_rejected",
    "Verif.Base64.C11_alphabet_decodes",
    "Verif.Base64.C11_whole_groups_onto",
    "Verif.Base64.C11_decoder_accepts_foreign_counterexample"
   ],
   "note": "Also: every alphabet text decodes in bounds and whole-group texts are exactly the encoder's image. The decoder does not reject characters outside the alphabet that fall inside its table (C11_decoder_accepts_foreign_counterexample); outside the table it reads out of bounds."
  },
  {
   "property": "C12",
   "status": "proved",
   "theorems": [
    "Verif.BitStream.C12_round_trip",
    "Verif.BitStream.C12_dirty_destination_counterexample"
   ],
   "note": "Every sequence of requests with bit counts within the variable; also the exact stream length. Stream error flags not modelled. A dirty destination is OR-ed into (C12_dirty_destination_counterexample)."
  },
  {
   "property": "C13",
   "status": "proved",
   "theorems": [
    "Verif.Circ.C13_fifo",
    "Verif.Circ.C13_drain"
   ],
   "note": "All histories incl. growth; CType overflow not modelled."
  },
  {
   "property": "C14",
   "status": "proved",
   "theorems": [
    "Verif.Circ.C14_newest_elements",
    "Verif.Circ.C14_full_push_drops_oldest",
    "Verif.Circ.C14_clear_and_copy"
   ],
   "note": "All capacities and histories of Push/Pop/PopBack/Clear/SetCapacity; also construction/destruction of slots and copying."
  },
  {
   "property": "C15",
   "status": "proved",
   "theorems": [
    "Verif.Dyn.C15_stack_lifo",
    "Verif.Dyn.C15_length_is_pushes_minus_pops"
   ],
   "note": "Stack over the slot-level DynArray model, both array families, every history."
  },
  {
   "property": "C16",
   "status": "proved",
   "theorems": [
    "Verif.Dyn.C16_random_queue_multiset",
    "Verif.Dyn.C16_popped_and_held_are_pushed"
   ],
   "note": "Random draws are arbitrary in-range inputs; also pushed = popped + held as multisets."
  },
  {
   "property": "C17",
   "status": "proved",
   "theorems": [
    "Verif.Linked.Arr.C17_operations_follow_spec",
    "Verif.Linked.Arr.C17_observations",
    "Verif.Linked.Arr.C17_handles_stable"
   ],
   "note": "Over every history of legal operations from every initial capacity: operations succeed (with growth), hand out unused indices, and the observed sequence, traversals and length are those of the specification."
  },
  {
   "property": "C18",
   "status": "proved",
   "theorems": [
    "Verif.Linked.C18_insert",
    "Verif.Linked.C18_insertNoRoot",
    "Verif.Linked.C18_insertAfter",
    "Verif.Linked.C18_insertAfterNoLast",
    "Verif.Linked.C18_addLast",
    "Verif.Linked.C18_add",
    "Verif.Linked.C18_addAfterRoot",
    "Verif.Linked.C18_addAfter",
    "Verif.Linked.C18_removeLast",
    "Verif.Linked.C18_remove",
    "Verif.Linked.C18_removeNoRoot",
    "Verif.Linked.C18_traversal"
   ],
   "note": "Every LLBase function on every well-formed chain: place, root/last, and the frame (no other node written); the overloads without root/last perform the same writes."
  },
  {
   "property": "C19",
   "status": "partial",
   "theorems": [
    "Verif.Linked.C19_list_is_sequence",
    "Verif.Linked.C19_append_in_order",
    "Verif.Linked.C19_noLast_partial",
    "Verif.Linked.C19_noLast_add_counterexample",
    "Verif.Linked.C19_noLast_copy_counterexample",
    "Verif.Linked.C19_self_append_counterexample"
   ],
   "note": "Proved in full for lists tracking their last node, over histories on any number of lists sharing a heap, including absence of leaks. For the default variant (last not tracked) Add prepends: counterexamples for Add and for copying, and C19_noLast_partial states what holds. a += a never ends: counterexample."
  },
  {
   "property": "C20",
   "status": "proved",
   "theorems": [
    "Verif.AVL.C20_map_refinement",
    "Verif.AVL.C20_rejected_calls_change_nothing",
    "Verif.AVL.C20_traverse"
   ],
   "note": "All histories of Insert/Remove/Get/ReplaceKey/Clear over any comparison that is a total preorder with results in {-1,0,1}; no null dereference."
  },
  {
   "property": "C21",
   "status": "proved",
   "theorems": [
    "Verif.AVL.C21_balance",
    "Verif.AVL.C21_height",
    "Verif.AVL.C21_traverse_sorted"
   ],
   "note": "Balance, height (fib(h+2) <= n+1 and 2^h <= (n+1)^2) and strictly descending traversal for every reached tree."
  },
  {
   "property": "C22",
   "status": "partial",
   "theorems": [
    "Verif.AA.C22_contents_partial",
    "Verif.AA.C22_multiset_partial",
    "Verif.AA.C22_levels_partial",
    "Verif.AA.C22_get_partial",
    "Verif.AA.C22_height_partial",
    "Verif.AA.C22_first_remove_counterexample",
    "Verif.AA.C22_clear_counterexample"
   ],
   "note": "Proved for every history except those the code breaks: a first Remove below every element reads the uninitialised _deleted (C22_first_remove_counterexample), and Clear leaves _root pointing at freed nodes (C22_clear_counterexample)."
  },
  {
   "property": "C23",
   "status": "proved",
   "theorems": [
    "Verif.TRB.C23_history",
    "Verif.TRB.C23_insert_retains",
    "Verif.TRB.C23_iteration_sorted",
    "Verif.TRB.C23_thread_is_inorder",
    "Verif.TRB.C23_colours",
    "Verif.TRB.C23_height"
   ],
   "note": "Full refinement of Insert/Remove(value)/Remove(node)/Get/Clear histories to the iteration list, plus colour rules, thread and height. Node addresses are abstract identities; intrusive list calls taken as proved in C18; comparison returns -1, 0 or 1 as the switch requires."
  },
  {
   "property": "C24",
   "status": "proved",
   "theorems": [
    "Verif.Hash.C24_history",
    "Verif.Hash.C24_insert_iterator",
    "Verif.Hash.C24_remove_iterator",
    "Verif.Hash.C24_assign",
    "Verif.Hash.C24_self_assign_counterexample"
   ],
   "note": "All histories of Insert/Set/Remove/Get/Exists/Length/Clear/SetCapacity, every hash function consistent with the key equality, below 2^29 entries; also iterators, copy assignment. Self-assignment empties the table (counterexample)."
  },
  {
   "property": "C25",
   "status": "proved",
   "theorems": [
    "Verif.Hash.C25_probe_covers",
    "Verif.Hash.C25_never_used_bucket",
    "Verif.Hash.C25_terminates"
   ],
   "note": "Probe sequence covers every bucket of a power-of-two table; a never-used bucket always exists; every loop ends within its bound."
  },
  {
   "property": "C26",
   "status": "partial",
   "theorems": [
    "Verif.Trie.C26_lookup_partial",
    "Verif.Trie.C26_high_bytes_counterexample",
    "Verif.Trie.C26_empty_word_counterexample",
    "Verif.Trie.C26_duplicate_counterexample",
    "Verif.Trie.C26_overflow_counterexample"
   ],
   "note": "Proved for words of bytes 1..127 with total size at most half the range of T, with and without IGNORECASE. Bytes above 127, the empty word and overflowing capacity fail in the code: counterexamples."
  },
  {
   "property": "C27",
   "status": "proved",
   "theorems": [
    "Verif.Dyn.C27_dynarray_refines_sequences",
    "Verif.Dyn.C27_add_own_element_counterexample",
    "Verif.Dyn.C27_insert_own_element_counterexample",
    "Verif.Dyn.C27_self_assignment_counterexample",
    "Verif.Dyn.C27_move_from_array_counterexample"
   ],
   "note": "Programs over any number of arrays, both memmove and move-based array types; counterexamples for self-referencing arguments, self-assignment and move from Array."
  },
  {
   "property": "C28",
   "status": "partial",
   "theorems": [
    "Verif.BoolArr.C28_insert_effect",
    "Verif.BoolArr.C28_bool_sequence_partial",
    "Verif.BoolArr.C28_insert_counterexample",
    "Verif.BoolArr.C28_insert_short_partial",
    "Verif.BoolArr.C28_addConstruct_counterexample",
    "Verif.BoolArr.C28_const_front_back_counterexample",
    "Verif.BoolArr.C28_assign_counterexample",
    "Verif.BoolArr.C28_assign_partial",
    "Verif.BoolArr.C28_countBits"
   ],
   "note": "Insert is wrong two bytes after the insertion point (C28_insert_counterexample); its exact effect is proved, everything else in general."
  },
  {
   "property": "C29",
   "status": "proved",
   "theorems": [
    "Verif.Rational.C29_exact",
    "Verif.Rational.C29_exact_int",
    "Verif.Rational.C29_add_defined",
    "Verif.Rational.C29_mul_defined",
    "Verif.Rational.C29_divide_by_zero_counterexample"
   ],
   "note": "Exact in Mathlib's rationals for +,-,*,/ with rational or integer operand on either side, ++ and --; definedness when the textbook formula fits; division by zero gives denominator 0 (counterexample)."
  },
  {
   "property": "C30",
   "status": "proved",
   "theorems": [
    "Verif.Rational.C30_constructor",
    "Verif.Rational.C30_abs",
    "Verif.Rational.C30_canonical",
    "Verif.Rational.C30_equality",
    "Verif.Rational.C30_gcd"
   ],
   "note": "Constructor, all arithmetic, Abs; == is numeric equality; GCD is the gcd."
  },
  {
   "property": "C31",
   "status": "partial",
   "theorems": [
    "Verif.Arith.C31_add_exact",
    "Verif.Arith.C31_add_floor",
    "Verif.Arith.C31_mul",
    "Verif.Arith.C31_div",
    "Verif.Arith.C31_div_recip",
    "Verif.Arith.C31_reciprocal",
    "Verif.Arith.C31_int",
    "Verif.Arith.C31_compare",
    "Verif.Arith.C31_convert_partial",
    "Verif.Arith.C31_convert_counterexample"
   ],
   "note": "Addition, subtraction by negation, multiplication, division (both versions), reciprocal, integer conversion and comparison proved; conversion between precisions shifts the wrong way (C31_convert_counterexample), so only equal precisions convert correctly."
  },
  {
   "property": "C32",
   "status": "proved",
   "theorems": [
    "Verif.Alias.C32_in_range",
    "Verif.Alias.C32_distribution"
   ],
   "note": "Exact arithmetic (ordered field); distribution as Lebesgue measure over the reals; no unwritten alias is read; construction ends within n pairings. Floating-point rounding is outside the model."
  },
  {
   "property": "C33",
   "status": "proved",
   "theorems": [
    "Verif.Alloc.Block.C33_blocks_disjoint",
    "Verif.Alloc.Block.C33_chunks_disjoint",
    "Verif.Alloc.Block.C33_blocks_aligned",
    "Verif.Alloc.Block.C33_alloc",
    "Verif.Alloc.Block.C33_reuse",
    "Verif.Alloc.Block.C33_no_waste",
    "Verif.Alloc.Block.C33_clear"
   ],
   "note": "All histories of Alloc, Dealloc, Clear and client writes; the system allocator is assumed to return fresh aligned memory, and may fail in Alloc but not in the constructor or Clear."
  },
  {
   "property": "C34",
   "status": "proved",
   "theorems": [
    "Verif.Alloc.GreedyBlock.C34_disjoint",
    "Verif.Alloc.GreedyBlock.C34_alloc",
    "Verif.Alloc.GreedyBlock.C34_clear"
   ],
   "note": "Every history; the system allocator is assumed to return fresh aligned memory and not to fail."
  },
  {
   "property": "C35",
   "status": "proved",
   "theorems": [
    "Verif.Alloc.Greedy.C35_disjoint",
    "Verif.Alloc.Greedy.C35_returns",
    "Verif.Alloc.Greedy.C35_no_ub"
   ],
   "note": "Sequentially consistent interleavings of any number (< 2^63) of threads; unbounded sizes; the system allocator is an oracle that does not fail."
  },
  {
   "property": "C36",
   "status": "proved",
   "theorems": [
    "Verif.Alloc.Cache.C36_disjoint",
    "Verif.Alloc.Cache.C36_room",
    "Verif.Alloc.Cache.C36_same_class",
    "Verif.Alloc.Cache.C36_no_ub",
    "Verif.Alloc.Cache.C36_reuse",
    "Verif.Alloc.Cache.C36_policy_shrink_counterexample"
   ],
   "note": "Calls one after the other, client writes in between; malloc does not fail. The cache hash is a function. CachePolicy::allocate violates the size contract when it shrinks (counterexample)."
  },
  {
   "property": "C37",
   "status": "proved",
   "theorems": [
    "Verif.Alloc.Ring.C37_disjoint",
    "Verif.Alloc.Ring.C37_room",
    "Verif.Alloc.Ring.C37_recycled",
    "Verif.Alloc.Ring.C37_last",
    "Verif.Alloc.Ring.C37_no_ub",
    "Verif.Alloc.Ring.C37_orphan_counterexample"
   ],
   "note": "Calls one after the other, client writes in between; calloc does not fail. An empty bucket that is too small is lost until Clear (counterexample about reuse)."
  },
  {
   "property": "C38",
   "status": "proved",
   "theorems": [
    "Verif.Sync.RWLock.C38_mutual_exclusion"
   ],
   "note": "Sequentially consistent interleavings of any number (< 2^63) of agents, an agent being a thread between a call that acquires and the release; memory orders weaker than that are not modelled."
  },
  {
   "property": "C39",
   "status": "proved",
   "theorems": [
    "Verif.Sync.RWLock.C39_word",
    "Verif.Sync.RWLock.C39_free",
    "Verif.Sync.RWLock.C39_no_residue",
    "Verif.Sync.RWLock.C39_free_succeeds"
   ],
   "note": "Sequentially consistent interleavings of any number (< 2^63) of agents, an agent being a thread between a call that acquires and the release; memory orders weaker than that are not modelled."
  },
  {
   "property": "C40",
   "status": "proved",
   "theorems": [
    "Verif.Sync.RWLock.C40_no_writer_between",
    "Verif.Sync.RWLock.C40_attempt",
    "Verif.Sync.RWLock.C40_at_most_one",
    "Verif.Sync.RWLock.C40_wait",
    "Verif.Sync.RWLock.C40_blocking_upgrade_counterexample"
   ],
   "note": "Sequentially consistent interleavings of any number (< 2^63) of agents, an agent being a thread between a call that acquires and the release; memory orders weaker than that are not modelled."
  },
  {
   "property": "C41",
   "status": "proved",
   "theorems": [
    "Verif.Alloc.Lockless.C41_disjoint",
    "Verif.Alloc.Lockless.C41_no_loss",
    "Verif.Alloc.Lockless.C41_safe"
   ],
   "note": "Sequentially consistent interleavings, any number of threads, unbounded tags, malloc does not fail; memory per block. The constructor needs init >= 1."
  },
  {
   "property": "C42",
   "status": "proved",
   "theorems": [
    "Verif.Sync.LQ.C42_fifo",
    "Verif.Sync.LQ.C42_empty",
    "Verif.Sync.LQ.C42_no_ub",
    "Verif.Sync.LQ.C42_delivers"
   ],
   "note": "One producer, one consumer, sequentially consistent interleavings; addresses are reused; moved-out items are gone. Length counter not modelled."
  },
  {
   "property": "C43",
   "status": "proved",
   "theorems": [
    "Verif.Sync.MLQ.C43_fifo",
    "Verif.Sync.MLQ.C43_pushed",
    "Verif.Sync.MLQ.C43_once",
    "Verif.Sync.MLQ.C43_no_ub",
    "Verif.Sync.MLQ.C43_exclusive",
    "Verif.Sync.MLQ.C43_pop",
    "Verif.Sync.MLQ.C43_empty",
    "Verif.Sync.MLQ.C43_spurious_empty_counterexample"
   ],
   "note": "Any number of threads, any interleaving of single accesses to shared memory (sequentially consistent); the node allocator reuses addresses. Counterexample: the unguarded first test of Pop can read a recycled node and report empty although a value is waiting."
  },
  {
   "property": "C44",
   "status": "proved",
   "theorems": [
    "Verif.Sync.TP.C44_once",
    "Verif.Sync.TP.C44_wait",
    "Verif.Sync.TP.C44_dtor",
    "Verif.Sync.TP.C44_progress",
    "Verif.Sync.TP.C44_bounded",
    "Verif.Sync.TP.C44_completes",
    "Verif.Sync.TP.C44_shutdown",
    "Verif.Sync.TP.C44_no_workers_counterexample"
   ],
   "note": "Safety (each instance begun at most once; Wait leaves only when all added instances have returned; destructor leaves only when all workers have) and progress (no lost wake-up: with at least one worker the outstanding tasks take a bounded number of non-waiting steps), for any number of users and workers and any interleaving, with the queue behaving as C43 proves. Counterexample: a pool without workers never runs anything and Wait never returns. Wait called from inside a task is not modelled."
  },
  {
   "property": "C45",
   "status": "partial",
   "theorems": [
    "Verif.Ptr.RefCount.C45_history_partial",
    "Verif.Ptr.RefCount.C45_last_handle_partial",
    "Verif.Ptr.RefCount.C45_self_assign_counterexample"
   ],
   "note": "For every history without assigning a handle the object of which it is the only handle (counterexample: self-assignment destroys and then uses the object): exactly the objects that lose their last handle are destroyed, once."
  },
  {
   "property": "C46",
   "status": "partial",
   "theorems": [
    "Verif.Ptr.Owner.C46_deleted_once_partial",
    "Verif.Ptr.Owner.C46_all_deleted_partial",
    "Verif.Ptr.Owner.C46_drop",
    "Verif.Ptr.Owner.C46_move_assign_counterexample",
    "Verif.Ptr.Owner.C46_double_delete_counterexample"
   ],
   "note": "For every history in which no merely referring handle is move-assigned (counterexamples: move assignment always takes ownership, so unowned objects are deleted and owned ones twice)."
  },
  {
   "property": "C47",
   "status": "proved",
   "theorems": [
    "Verif.Utf.C47_legal",
    "Verif.Utf.C47_sequence"
   ],
   "note": ""
  },
  {
   "property": "C48",
   "status": "proved",
   "theorems": [
    "Verif.Utf.C48_encode",
    "Verif.Utf.C48_decode",
    "Verif.Utf.C48_roundtrip"
   ],
   "note": ""
  },
  {
   "property": "C49",
   "status": "proved",
   "theorems": [
    "Verif.Utf.C49_encode",
    "Verif.Utf.C49_decode",
    "Verif.Utf.C49_roundtrip"
   ],
   "note": ""
  },
  {
   "property": "C50",
   "status": "proved",
   "theorems": [
    "Verif.Utf.C50_utf32to8",
    "Verif.Utf.C50_utf32to16",
    "Verif.Utf.C50_utf8to32",
    "Verif.Utf.C50_utf16to32",
    "Verif.Utf.C50_query",
    "Verif.Utf.C50_overread_counterexample"
   ],
   "note": "Writes and sufficiency for every input; the counting loops of three converters read one unit past srclen when there is no terminator (C50_overread_counterexample), so the statements assume that the length query itself is defined."
  },
  {
   "property": "C51",
   "status": "partial",
   "theorems": [
    "Verif.Itoa.C51_text_partial",
    "Verif.Itoa.C51_bounds_partial",
    "Verif.Itoa.C51_min_counterexample"
   ],
   "note": "Every 32-bit integer except INT_MIN; for INT_MIN the code negates it, which is signed overflow (C51_min_counterexample)."
  },
  {
   "property": "C52",
   "status": "proved",
   "theorems": [
    "Verif.Arith.C52_intDiv_floor",
    "Verif.Arith.C52_negative_divisor_counterexample",
    "Verif.Arith.C52_mod"
   ],
   "note": "Positive divisors; IntDiv with a negative divisor rounds toward zero in some cases (C52_negative_divisor_counterexample)."
  },
  {
   "property": "C53",
   "status": "partial",
   "theorems": [
    "Verif.Arith.C53_sqrt_partial",
    "Verif.Arith.C53_sqrt_8_16_32",
    "Verif.Arith.C53_sqrt_64_counterexample"
   ],
   "note": "Exact for every argument of 8, 16 and 32 bit types and for 64 bit arguments below 2^60; false from 2^60 on because 2<<i is an int (C53_sqrt_64_counterexample)."
  },
  {
   "property": "C54",
   "status": "proved",
   "theorems": [
    "Verif.Arith.C54_next",
    "Verif.Arith.C54_epoch",
    "Verif.Arith.C54_count",
    "Verif.Arith.C54_monotone"
   ],
   "note": "All valid proleptic Gregorian dates, years in Int (overflow of the integer type not modelled)."
  },
  {
   "property": "C55",
   "status": "partial",
   "theorems": [
    "Verif.Arith.C55_bitCount_unsigned",
    "Verif.Arith.C55_bitCount_signed_counterexample",
    "Verif.Arith.C55_nextPow2",
    "Verif.Arith.C55_nextPow2_wraps",
    "Verif.Arith.C55_bssLog2",
    "Verif.Arith.C55_bssLog2_zero",
    "Verif.Arith.C55_bssLog2_gcc32",
    "Verif.Arith.C55_bssLog2_gcc64_counterexample",
    "Verif.Arith.C55_bssLog2_p2",
    "Verif.Arith.C55_flipEndian",
    "Verif.Arith.C55_flipEndian_involutive"
   ],
   "note": "BitCount for unsigned types, NextPow2, portable bssLog2, bssLog2_p2 and FlipEndian proved for every value. False for BitCount of signed types and for the 64-bit GCC bssLog2 (counterexample theorems)."
  },
  {
   "property": "C56",
   "status": "proved",
   "theorems": [
    "Verif.Arith.C56_fbnext",
    "Verif.Arith.C56_fbnext_machine",
    "Verif.Arith.C56_alignSize",
    "Verif.Arith.C56_nextMultiple"
   ],
   "note": ""
  },
  {
   "property": "C57",
   "status": "proved",
   "theorems": [
    "Verif.Arith.C57_compT",
    "Verif.Arith.C57_compT_ord",
    "Verif.Arith.C57_compTInv",
    "Verif.Arith.C57_compTInv_ord",
    "Verif.Arith.C57_compT_LT_GT",
    "Verif.Arith.C57_component_ord",
    "Verif.Arith.C57_both_lex",
    "Verif.Arith.C57_both_ord",
    "Verif.Arith.C57_both_eq",
    "Verif.Arith.C57_compStr"
   ],
   "note": ""
  },
  {
   "property": "C58",
   "status": "partial",
   "theorems": [
    "Verif.Arith.C58_assign",
    "Verif.Arith.C58_get",
    "Verif.Arith.C58_get_assign",
    "Verif.Arith.C58_flip",
    "Verif.Arith.C58_group",
    "Verif.Arith.C58_add_sub",
    "Verif.Arith.C58_set_partial",
    "Verif.Arith.C58_set_inside",
    "Verif.Arith.C58_set_counterexample",
    "Verif.Arith.C58_iter_inc",
    "Verif.Arith.C58_iter_dec"
   ],
   "note": "Everything holds except Set(bits,mask) with bits outside mask, which toggles them (C58_set_counterexample)."
  },
  {
   "property": "C59",
   "status": "partial",
   "theorems": [
    "Verif.Ubjson.C59_roundtrip_partial",
    "Verif.Ubjson.C59_units_counterexample",
    "Verif.Ubjson.C59_big_endian"
   ],
   "note": "Full for every value followed by more data, or not ending in an array of equal nulls/booleans; for those at the end of a stream the parser loses the elements (C59_units_counterexample)."
  },
  {
   "property": "C60",
   "status": "proved",
   "theorems": [
    "Verif.Ubjson.C60_contains",
    "Verif.Ubjson.C60_contains_all",
    "Verif.Ubjson.C60_roundtrip",
    "Verif.Ubjson.C60_accepts",
    "Verif.Ubjson.C60_rejects",
    "Verif.Ubjson.C60_minimal_unsigned_counterexample"
   ],
   "note": ""
  },
  {
   "property": "C61",
   "status": "partial",
   "theorems": [
    "Verif.Spatial.C61_sound_partial",
    "Verif.Spatial.C61_exact_partial",
    "Verif.Spatial.C61_insertions_partial",
    "Verif.Spatial.C61_missed_counterexample"
   ],
   "note": "Exact for histories in which no rebalancing is due (in particular insertions with a threshold of at least 100); sound and lossless for all histories. Missing: completeness after a rebalancing, which the code does not give (C61_missed_counterexample): _rebalance only moves items that violate the bottom edge."
  },
  {
   "property": "C62",
   "status": "proved",
   "theorems": [
    "Verif.Random.C62_xorshift64",
    "Verif.Random.C62_xorshift1024",
    "Verif.Random.C62_seed",
    "Verif.Random.C62_seed_zero_counterexample"
   ],
   "note": "A seed of zero (and an unseeded XorshiftRand) starts in the all-zero state: C62_seed_zero_counterexample. discard with 2^31 or more is not modelled."
  },
  {
   "property": "C63",
   "status": "proved",
   "theorems": [
    "Verif.Random.C63_permutation",
    "Verif.Random.C63_exactly_once"
   ],
   "note": "The draws are the input; bssrand's floating point arithmetic is not modelled."
  },
  {
   "property": "C64",
   "status": "proved",
   "theorems": [
    "Verif.Graph.C64_consistent"
   ],
   "note": "AddNode/AddEdge/RemoveEdge/RemoveNode over every allowed history; the node array is a partial map"
  },
  {
   "property": "C65",
   "status": "partial",
   "theorems": [
    "Verif.Graph.C65_visits_partial",
    "Verif.Graph.C65_once_partial",
    "Verif.Graph.C65_twice_counterexample",
    "Verif.Graph.C65_overflow_counterexample",
    "Verif.Graph.C65_order_counterexample"
   ],
   "note": "soundness, completeness, order of first visits and stopping whenever it returns; exactly once and no queue overflow for graphs without two early edges into a node; counterexamples: diamonds are visited twice, queue overflow, order broken by repeated visits (nodes are marked when dequeued)"
  },
  {
   "property": "C66",
   "status": "proved",
   "theorems": [
    "Verif.Heap.C66_handles",
    "Verif.Heap.C66_stale_counterexample",
    "Verif.Heap.C66_move_counterexample"
   ],
   "note": "forward simulation over all allowed calls; Pop/Peek maximal while no element was removed by handle (C03); also shown: stale handles hit other elements, the move constructor loses the handle table"
  },
  {
   "property": "C67",
   "status": "proved",
   "theorems": [
    "Verif.Str.C67_tokens",
    "Verif.Str.C67_unique"
   ],
   "note": "repeated calls over any string and delimiter set; spec shown unique"
  },
  {
   "property": "C68",
   "status": "proved",
   "theorems": [
    "Verif.Heap.C68_scheduler",
    "Verif.Heap.C68_empty_counterexample"
   ],
   "note": "Times are integers (rounding of doubles not modelled); callbacks answer 0 or a positive delay and do not use the scheduler themselves. When the last event leaves, the code looks at the top of an empty heap (C68_empty_counterexample)."
  },
  {
   "property": "C69",
   "status": "partial",
   "theorems": [
    "Verif.Arith.C69_unsigned",
    "Verif.Arith.C69_signed_partial",
    "Verif.Arith.C69_wide",
    "Verif.Arith.C69_min_counterexample",
    "Verif.Arith.C69_shift0_counterexample"
   ],
   "note": "Unsigned: every operand pair and shift; double-width version: every pair; signed fallback: every pair without the most negative value, which is undefined (C69_min_counterexample). shift = 0 in the fallback relies on an oversized shift yielding some value (C69_shift0_counterexample)."
  },
  {
   "property": "C70",
   "status": "partial",
   "theorems": [
    "Verif.Ini.C70_section_partial",
    "Verif.Ini.C70_entry_partial",
    "Verif.Ini.C70_prefix_counterexample",
    "Verif.Ini.C70_blank_counterexample",
    "Verif.Ini.C70_utf8_counterexample"
   ],
   "note": "The code compares only the common length of the two names, so names one of which begins with the other are confused, blank section names match everything and non-ASCII bytes at the end of a name are cut off (counterexamples). Proved for texts without such names, including which chunk of the text is returned. Text free of NUL and NUL-terminated; C locale."
  },
  {
   "property": "C71",
   "status": "proved",
   "theorems": [
    "Verif.StrTable.C71_table",
    "Verif.StrTable.C71_empty_counterexample",
    "Verif.StrTable.C71_stream_counterexample"
   ],
   "note": "Covers the array and stream constructors, AppendString and operator+= / operator+ of distinct tables. Strings cannot be appended to an empty table (undefined behaviour) and a stream beginning with an empty string gives an empty table: counterexamples. Self-append, short reads and overflow of the size type are not modelled."
  },
  {
   "property": "C72",
   "status": "partial",
   "theorems": [
    "Verif.Stream.C72_stream_partial",
    "Verif.Stream.C72_lost_counterexample",
    "Verif.Stream.C72_result_counterexample",
    "Verif.Stream.C72_begin_counterexample"
   ],
   "note": "Single bytes written while there is room are not counted in the array's length, and growing then overwrites them (C72_lost_counterexample); a block write across the capacity returns less than its length; a nonzero begin gives a wrong length. Proved: everything else, that is all histories in which the buffer does not grow while single bytes are uncounted. Elements of one byte."
  },
  {
   "property": "C73",
   "status": "proved",
   "theorems": [
    "Verif.Compact.C73_sequence",
    "Verif.Compact.C73_shrink_counterexample",
    "Verif.Compact.C73_list_counterexample"
   ],
   "note": "Every history of Add, Insert, Remove, SetLength, Clear, Set, SetCapacity (not below the length), copy, assignment and move. SetCapacity below the length and the constructor from a short list break it (counterexamples). Self-move and lengths of 2^63 are not modelled."
  },
  {
   "property": "C74",
   "status": "proved",
   "theorems": [
    "Verif.Curve.C74_quadratic",
    "Verif.Curve.C74_cubic",
    "Verif.Curve.C74_quadratic_trace",
    "Verif.Curve.C74_cubic_trace",
    "Verif.Curve.C74_bezier",
    "Verif.Curve.C74_weights",
    "Verif.Curve.C74_hull",
    "Verif.Curve.C74_join",
    "Verif.Curve.C74_fit"
   ],
   "note": "exact arithmetic over a field; both halves as curves, point sets, hull, joins, weights"
  },
  {
   "property": "C75",
   "status": "proved",
   "theorems": [
    "Verif.AVL.C75_near",
    "Verif.AVL.C75_near_exact"
   ],
   "note": "Every reached non-empty tree and every key."
  },
  {
   "property": "C76",
   "status": "partial",
   "theorems": [
    "Verif.AVL.C76_replace_key_partial",
    "Verif.AVL.C76_replace_key_counterexample"
   ],
   "note": "Success case proved; the failure cases violate the claim (C76_replace_key_counterexample: the old entry is lost when the new key exists, and an entry with default data is created when the old key is absent)."
  },
  {
   "property": "C77",
   "status": "partial",
   "theorems": [
    "Verif.TRB.C77_near_before_partial",
    "Verif.TRB.C77_near_after_partial",
    "Verif.TRB.C77_near_after_counterexample",
    "Verif.TRB.C77_near_empty_counterexample"
   ],
   "note": "before=true fully proved on non-empty trees; before=false proved without duplicates, counterexample with duplicates (returns an element below v); on an empty tree the NIL sentinel is returned (counterexample)."
  },
  {
   "property": "C78",
   "status": "proved",
   "theorems": [
    "Verif.Rational.C78_compare_int",
    "Verif.Rational.C78_truncate"
   ],
   "note": "All six comparisons with an integer and Truncate."
  },
  {
   "property": "C79",
   "status": "partial",
   "theorems": [
    "Verif.Curve.C79_roots",
    "Verif.Curve.C79_inflection",
    "Verif.Curve.C79_cubic_partial",
    "Verif.Curve.C79_double_counterexample"
   ],
   "note": "exact arithmetic with exact library functions; solveCubic misses double roots (counterexample)"
  },
  {
   "property": "C80",
   "status": "proved",
   "theorems": [
    "Verif.Curve.C80_follows",
    "Verif.Curve.C80_terminates"
   ],
   "note": "exact arithmetic, exact square root; termination in archimedean ordered fields"
  },
  {
   "property": "C81",
   "status": "proved",
   "theorems": [
    "Verif.Curve.C81_bracket",
    "Verif.Curve.C81_root",
    "Verif.Curve.C81_newton",
    "Verif.Curve.C81_slow_counterexample"
   ],
   "note": "exact arithmetic; the comment that the result is at least as close as by bisection is refuted by C81_slow_counterexample"
  },
  {
   "property": "C82",
   "status": "partial",
   "theorems": [
    "Verif.TreeBfs.C82_levels_partial",
    "Verif.TreeBfs.C82_full_counterexample"
   ],
   "note": "Proved when the given count is even, exceeds the number of nodes, or some node has exactly one child. Counterexample: an odd count equal to the size of a tree whose leaves all wait at once overflows the queue."
  },
  {
   "property": "C83",
   "status": "partial",
   "theorems": [
    "Verif.Arith.C83_mean",
    "Verif.Arith.C83_variance_counterexample"
   ],
   "note": "Mean proved. bssVariance divides by the value instead of the count (counterexample)."
  },
  {
   "property": "C84",
   "status": "partial",
   "theorems": [
    "Verif.Arith.C84_float_partial",
    "Verif.Arith.C84_double_partial",
    "Verif.Arith.C84_place",
    "Verif.Arith.C84_overflow_counterexample",
    "Verif.Arith.C84_tolerance_counterexample"
   ],
   "note": "Proved for non-NaN patterns and tolerances below 2^24 (float) or 2^53 (double), with signed integers that wrap around; by the rules of the language some comparisons across zero overflow (counterexample). C84_place shows that places follow the numeric order."
  },
  {
   "property": "C85",
   "status": "proved",
   "theorems": [
    "Verif.Spatial.C85_tiles",
    "Verif.Spatial.C85_ends"
   ],
   "note": "Exact arithmetic; recursion bounded by fuel, termination under a depth bound in C85_ends."
  },
  {
   "property": "C86",
   "status": "proved",
   "theorems": [
    "Verif.Str.C86_first",
    "Verif.Str.C86_null"
   ],
   "note": ""
  },
  {
   "property": "C87",
   "status": "partial",
   "theorems": [
    "Verif.Json.C87_grammar_partial",
    "Verif.Json.C87_roundtrip_partial",
    "Verif.Json.C87_null_counterexample",
    "Verif.Json.C87_pretty_bool_counterexample",
    "Verif.Json.C87_double_counterexample",
    "Verif.Json.C87_name_counterexample"
   ],
   "note": "Proved for values without null, with names that need no escape, doubles whose text has a point, and, in the pretty form, no boolean before a line break. Missing, because the code does not do it: null is dropped, names are not escaped, doubles without a point become integers, and booleans before a line break become strings."
  },
  {
   "property": "C88",
   "status": "partial",
   "theorems": [
    "Verif.Json.C88_terminates",
    "Verif.Json.C88_parse_partial",
    "Verif.Json.C88_blank_counterexample",
    "Verif.Json.C88_exponent_counterexample",
    "Verif.Json.C88_surrogate_counterexample"
   ],
   "note": "Termination is proved for every text. Agreement with the grammar is proved for texts without blank space after a word, whose doubles have a point, and whose \\u escapes stand for one code below the surrogates or above them. Missing, because the code does not do it: the three counterexamples."
  },
  {
   "property": "C89",
   "status": "partial",
   "theorems": [
    "Verif.Xml.C89_grammar_partial",
    "Verif.Xml.C89_roundtrip_partial",
    "Verif.Xml.C89_pretty_partial",
    "Verif.Xml.C89_quote_counterexample",
    "Verif.Xml.C89_greater_counterexample",
    "Verif.Xml.C89_blank_counterexample",
    "Verif.Xml.C89_nonascii_text_counterexample",
    "Verif.Xml.C89_nonascii_name_counterexample",
    "Verif.Xml.C89_file_text_counterexample",
    "Verif.Xml.C89_pretty_counterexample"
   ],
   "note": "Proved for trees that the writer can express: names of visible characters, attribute values without quotation mark and >, texts empty or with a visible ASCII character. The other trees are refuted by counterexamples. The pretty form is proved up to blanks in texts of nodes with children."
  },
  {
   "property": "C90",
   "status": "partial",
   "theorems": [
    "Verif.Xml.C90_terminates",
    "Verif.Xml.C90_parse_partial",
    "Verif.Xml.C90_doctype_counterexample",
    "Verif.Xml.C90_apostrophe_counterexample",
    "Verif.Xml.C90_attribute_entity_counterexample",
    "Verif.Xml.C90_no_value_counterexample",
    "Verif.Xml.C90_max_code_counterexample",
    "Verif.Xml.C90_comment_counterexample"
   ],
   "note": "Proved for the grammar of Verif/Xml/Spec.lean, and termination for all inputs. Document types, CDATA, processing instructions, attributes between apostrophes and entities in attributes are refuted by counterexamples."
  },
  {
   "property": "C91",
   "status": "partial",
   "theorems": [
    "Verif.Xml.C91_children_partial",
    "Verif.Xml.C91_index_counterexample",
    "Verif.Xml.C91_oldest_counterexample",
    "Verif.Xml.C91_middle_counterexample",
    "Verif.Xml.C91_attributes",
    "Verif.Xml.C91_remove_attribute_counterexample",
    "Verif.Xml.C91_remove_attribute_leaf_counterexample"
   ],
   "note": "Children proved for histories of additions and removals of the newest child; other removals are refuted by counterexamples, as is RemoveAttribute. AddAttribute is proved for all histories."
  },
  {
   "property": "C92",
   "status": "proved",
   "theorems": [
    "Verif.Xml.C92_setvalue",
    "Verif.Xml.C92_unsigned",
    "Verif.Xml.C92_hex",
    "Verif.Xml.C92_negative_hex_counterexample"
   ],
   "note": "Integers; the floating point part of the value is not modelled."
  },
  {
   "property": "C93",
   "status": "proved",
   "theorems": [
    "Verif.Graph.Flow.C93_lower_bounds"
   ],
   "note": "Numbers are unbounded integers; overflow of int is not modelled."
  },
  {
   "property": "C94",
   "status": "proved",
   "theorems": [
    "Verif.Graph.Flow.C94_infeasible",
    "Verif.Graph.Flow.C94_circulation"
   ],
   "note": "Numbers are unbounded integers; overflow of int is not modelled."
  },
  {
   "property": "C95",
   "status": "partial",
   "theorems": [
    "Verif.Graph.Flow.C95_preflow_partial",
    "Verif.Graph.Flow.C95_flow_partial",
    "Verif.Graph.Flow.C95_maximum_counterexample",
    "Verif.Graph.Flow.C95_excess_counterexample",
    "Verif.Graph.Flow.C95_parallel_counterexample",
    "Verif.Graph.Flow.C95_endless_counterexample"
   ],
   "note": "Proved: whenever it ends the edges are within their bounds and no node but the source sends more than it gets; if no excess is left it is a flow from source to sink. The rest is false for the code: it never ends on a dead end (C95_endless_counterexample), may leave flow at a node (C95_excess_counterexample, C95_parallel_counterexample) and may miss the maximum (C95_maximum_counterexample)."
  },
  {
   "property": "C96",
   "status": "proved",
   "theorems": [
    "Verif.Dual.C96_derivatives"
   ],
   "note": "Dual numbers of any order over the reals; expressions with +,-,*,/,powers,sin,cos,exp,log,log10,abs where they are differentiable. Rounding is not modelled."
  },
  {
   "property": "C97",
   "status": "proved",
   "theorems": [
    "Verif.Vec.C97_determinant",
    "Verif.Vec.C97_inverse"
   ],
   "note": "All sizes and both forms, over any field. Rounding is not modelled."
  },
  {
   "property": "C98",
   "status": "proved",
   "theorems": [
    "Verif.Vec.C98_product",
    "Verif.Vec.C98_transpose",
    "Verif.Vec.C98_transpose_small"
   ],
   "note": "General and SSE forms, all sizes, also in place. Rounding is not modelled."
  },
  {
   "property": "C99",
   "status": "proved",
   "theorems": [
    "Verif.Vec.C99_transposed",
    "Verif.Vec.C99_translation",
    "Verif.Vec.C99_affine",
    "Verif.Vec.C99_rotation",
    "Verif.Vec.C99_axes",
    "Verif.Vec.C99_rotate"
   ],
   "note": "Over the reals. Rounding is not modelled."
  },
  {
   "property": "C100",
   "status": "proved",
   "theorems": [
    "Verif.Vec.C100_dot",
    "Verif.Vec.C100_euclidean",
    "Verif.Vec.C100_normalize",
    "Verif.Vec.C100_cross",
    "Verif.Vec.C100_outer",
    "Verif.Vec.C100_area",
    "Verif.Vec.C100_area_plane",
    "Verif.Vec.C100_polar"
   ],
   "note": "Over the reals, all dimensions, with the exact square root."
  },
  {
   "property": "C101",
   "status": "proved",
   "theorems": [
    "Verif.Vec.C101_order",
    "Verif.Vec.C101_scalar"
   ],
   "note": "Elements of a linear order (no NaN)."
  },
  {
   "property": "C102",
   "status": "partial",
   "theorems": [
    "Verif.Vec.C102_general",
    "Verif.Vec.C102_sse_counterexample",
    "Verif.Vec.C102_sse_partial"
   ],
   "note": "False for the SSE form: it omits the factor 2 and the subtraction from 1. Proved: the general form (which does not compile as written) is the rotation; what the SSE form computes."
  },
  {
   "property": "C103",
   "status": "partial",
   "theorems": [
    "Verif.Vec.C103_counterexample",
    "Verif.Vec.C103_partial"
   ],
   "note": "False: the results of the shuffles are discarded. Proved: the function returns three times the contribution of the first control point, and exactly when that is the value of the spline."
  },
  {
   "property": "C104",
   "status": "partial",
   "theorems": [
    "Verif.IniDoc.C104_read_partial",
    "Verif.IniDoc.C104_lines_partial",
    "Verif.IniDoc.C104_echo_counterexample",
    "Verif.IniDoc.C104_overflow_counterexample",
    "Verif.IniDoc.C104_empty_counterexample",
    "Verif.IniDoc.C104_utf8_counterexample",
    "Verif.IniDoc.C104_long_counterexample"
   ],
   "note": "Exact for all ASCII files with lines below 1023 characters whose first value is not empty, including the end of the file; the code reads a last section header twice, overflows by one byte on an empty first value, reads an uninitialised buffer for an empty file, cuts non-ASCII ends and splits long lines (counterexamples)."
  },
  {
   "property": "C105",
   "status": "partial",
   "theorems": [
    "Verif.IniDoc.C105_history_partial",
    "Verif.IniDoc.C105_long_name_counterexample"
   ],
   "note": "For all histories with names of at most 15 characters; for longer repeated names removing the first instance leaves a dangling key (counterexample)."
  },
  {
   "property": "C106",
   "status": "partial",
   "theorems": [
    "Verif.IniDoc.C106_copy_partial",
    "Verif.IniDoc.C106_missing_counterexample",
    "Verif.IniDoc.C106_source_counterexample"
   ],
   "note": "For storages in which every name occurs once; with repeated names the copy is incomplete and the source is damaged (counterexamples)."
  },
  {
   "property": "C107",
   "status": "partial",
   "theorems": [
    "Verif.IniDoc.C107_history_partial",
    "Verif.IniDoc.C107_reload_partial",
    "Verif.IniDoc.C107_prefix_counterexample",
    "Verif.IniDoc.C107_nameless_counterexample",
    "Verif.IniDoc.C107_reload_counterexample"
   ],
   "note": "For all histories of edits on readable files with names and keys of which none begins with another, of at most 15 characters where removed; counterexamples for prefixes, the nameless section and reading back a file that ends with a header."
  },
  {
   "property": "C108",
   "status": "partial",
   "theorems": [
    "Verif.Geo.C108_point",
    "Verif.Geo.C108_contains",
    "Verif.Geo.C108_collide",
    "Verif.Geo.C108_circle",
    "Verif.Geo.C108_vector_counterexample"
   ],
   "note": "Exact for all dimensions and radii; the overload Circle::CircleCollide(Vector, R) uses the abscissa twice (counterexample)."
  },
  {
   "property": "C109",
   "status": "partial",
   "theorems": [
    "Verif.Geo.C109_radius_partial",
    "Verif.Geo.C109_same_counterexample",
    "Verif.Geo.C109_circles_partial",
    "Verif.Geo.C109_offset_counterexample",
    "Verif.Geo.C109_nearest",
    "Verif.Geo.C109_member_counterexample"
   ],
   "note": "Exact relative to the first centre; equal circles divide by zero, CircleCircleIntersect and the members return points relative to the centre (counterexamples)."
  },
  {
   "property": "C110",
   "status": "partial",
   "theorems": [
    "Verif.Geo.C110_points_partial",
    "Verif.Geo.C110_collide_partial",
    "Verif.Geo.C110_degenerate_counterexample",
    "Verif.Geo.C110_inside_counterexample",
    "Verif.Geo.C110_member_counterexample"
   ],
   "note": "Exact for lines and rays given by two distinct points; the segment test looks for points on the circle only, degenerate segments give NaN, the member functions return points relative to the centre (counterexamples)."
  },
  {
   "property": "C111",
   "status": "partial",
   "theorems": [
    "Verif.Geo.C111_nearest_partial",
    "Verif.Geo.C111_distanceSqr_partial",
    "Verif.Geo.C111_distance_partial",
    "Verif.Geo.C111_distance_counterexample",
    "Verif.Geo.C111_degenerate_counterexample"
   ],
   "note": "Nearest points and squared distances exact for distinct end points; the distance functions do not return the distance (counterexamples)."
  },
  {
   "property": "C112",
   "status": "partial",
   "theorems": [
    "Verif.Geo.C112_collide_partial",
    "Verif.Geo.C112_axis",
    "Verif.Geo.C112_points_partial",
    "Verif.Geo.C112_sign_counterexample",
    "Verif.Geo.C112_parallel_counterexample",
    "Verif.Geo.C112_collinear_counterexample"
   ],
   "note": "The Collide functions are exact for segments not on one line; the Intersect functions have a wrong sign and treat small cross products as parallel (counterexamples). What they return is characterised."
  },
  {
   "property": "C113",
   "status": "proved",
   "theorems": [
    "Verif.Geo.C113_decisions",
    "Verif.Geo.C113_split",
    "Verif.Geo.C113_intersection",
    "Verif.Geo.C113_union",
    "Verif.Geo.C113_canonical",
    "Verif.Geo.C113_boundingCircle",
    "Verif.Geo.C113_aabb",
    "Verif.Geo.C113_circle",
    "Verif.Geo.C113_ellipse"
   ],
   "note": "Real arithmetic; abs is taken for the floating point one."
  },
  {
   "property": "C114",
   "status": "partial",
   "theorems": [
    "Verif.Geo.C114_partial",
    "Verif.Geo.C114_horizontal_counterexample",
    "Verif.Geo.C114_vertical_counterexample",
    "Verif.Geo.C114_touch_counterexample"
   ],
   "note": "Exact for slanted segments not touching the sides from outside and vertical ones not starting below; counterexamples for the others."
  },
  {
   "property": "C115",
   "status": "proved",
   "theorems": [
    "Verif.Geo.C115_triangle",
    "Verif.Geo.C115_three",
    "Verif.Geo.C115_fan",
    "Verif.Geo.C115_hull",
    "Verif.Geo.C115_reverse",
    "Verif.Geo.C115_convex"
   ],
   "note": "Real arithmetic; TriangleContainsPoint compiles only while unused."
  },
  {
   "property": "C116",
   "status": "partial",
   "theorems": [
    "Verif.Geo.C116_area",
    "Verif.Geo.C116_centroid_partial",
    "Verif.Geo.C116_center_partial",
    "Verif.Geo.C116_centroid_counterexample",
    "Verif.Geo.C116_convex_partial",
    "Verif.Geo.C116_star_counterexample",
    "Verif.Geo.C116_contains_false",
    "Verif.Geo.C116_outside_counterexample"
   ],
   "note": "Area fully; the centroid only if the uninitialised sum is zero; IsConvex characterised, stars are accepted; ConvexContainsPoint rejects all inner points (counterexamples)."
  },
  {
   "property": "C117",
   "status": "partial",
   "theorems": [
    "Verif.Ani.C117_time",
    "Verif.Ani.C117_discrete_once",
    "Verif.Ani.C117_discrete_loop_partial",
    "Verif.Ani.C117_long_step_counterexample",
    "Verif.Ani.C117_zero_length_counterexample",
    "Verif.Ani.C117_loop_past_end_counterexample"
   ],
   "note": "Proved: time (any tracks), discrete frames without a loop (length > 0), discrete frames with a loop for steps no longer than the looped part. Counterexamples: a longer step skips whole passes, an animation of length 0 never calls its frame, a loop point at or past the end recurses for ever."
  },
  {
   "property": "C118",
   "status": "partial",
   "theorems": [
    "Verif.Ani.C118_lerp_partial",
    "Verif.Ani.C118_hold_partial",
    "Verif.Ani.C118_relative_partial",
    "Verif.Ani.C118_lerp_curve",
    "Verif.Ani.C118_one_frame_counterexample",
    "Verif.Ani.C118_relative_counterexample"
   ],
   "note": "Proved for at least two frames, and for the relative kinds if the first frame is at time 0. Counterexamples: a single frame is never set at its end; the relative kinds read in front of the array before the first frame."
  },
  {
   "property": "C119",
   "status": "partial",
   "theorems": [
    "Verif.Ani.C119_handles",
    "Verif.Ani.C119_all_removed",
    "Verif.Ani.C119_adds_like_discrete",
    "Verif.Ani.C119_ends_partial",
    "Verif.Ani.C119_early_counterexample",
    "Verif.Ani.C119_late_counterexample"
   ],
   "note": "Handles, pairing, Reset and the starts are proved in full. For the ends only that all are removed once the time reaches every data value; counterexamples: an interval is ended in the call that starts it (its length is compared with the time), or stays while a longer one runs (the queue is a max heap)."
  },
  {
   "property": "C120",
   "status": "proved",
   "theorems": [
    "Verif.Ani.C120_history",
    "Verif.Ani.C120_add_remove",
    "Verif.Ani.C120_interval_constructor_counterexample"
   ],
   "note": "For Add, Remove, SetLength and SetLoop of Animation and frames with times that are not negative. Counterexample outside of these calls: AniDataInterval(src, len) leaves the end uninitialised. Animation::Set does not compile and is not modelled."
  },
  {
   "property": "C121",
   "status": "partial",
   "theorems": [
    "Verif.Ani.C121_progress_ends",
    "Verif.Ani.C121_progress_partial",
    "Verif.Ani.C121_default_easing_partial",
    "Verif.Ani.C121_linear",
    "Verif.Ani.C121_time_monotone",
    "Verif.Ani.C121_quadratic",
    "Verif.Ani.C121_cubic_partial",
    "Verif.Ani.C121_cubic_derivative_counterexample",
    "Verif.Ani.C121_time_derivative_counterexample",
    "Verif.Ani.C121_length_counterexample"
   ],
   "note": "Proved: ends, bounds and the point on the curve (within the tolerance or the bracket that is left), monotone time, quadratic derivative, ends of the cubic curve. Counterexamples: the derivatives of the time curve and of the cubic curve are wrong, Length returns the square root of the last component."
  },
  {
   "property": "C122",
   "status": "partial",
   "theorems": [
    "Verif.Toml.C122_round_trip",
    "Verif.Toml.C122_forms_partial",
    "Verif.Toml.C122_last_code_point_counterexample"
   ],
   "note": "Writing and reading is proved for all byte strings. The four forms are proved with all escapes except U+10FFFF, which the code drops (C122_last_code_point_counterexample)."
  },
  {
   "property": "C123",
   "status": "partial",
   "theorems": [
    "Verif.Toml.C123_document_partial",
    "Verif.Toml.C123_nested_counterexample",
    "Verif.Toml.C123_underscore_counterexample"
   ],
   "note": "Proved for the grammar in Toml/Grammar.lean. False for arrays of arrays with more than one element (C123_nested_counterexample) and for digits separated by underscores (C123_underscore_counterexample). Not in the grammar: dates, tuples, maps, blanks inside headers, dotted keys."
  },
  {
   "property": "C124",
   "status": "partial",
   "theorems": [
    "Verif.Toml.C124_round_trip_partial",
    "Verif.Toml.C124_nested_counterexample",
    "Verif.Toml.C124_key_counterexample"
   ],
   "note": "Proved for bare, distinct field names, objects with at least one field, integers in range, numbers whose text the extraction reads back, and arrays of arrays with at most one element. False for longer arrays of arrays (C124_nested_counterexample) and for names that need quotes (C124_key_counterexample)."
  },
  {
   "property": "C125",
   "status": "partial",
   "theorems": [
    "Verif.Toml.C125_terminates_partial",
    "Verif.Toml.C125_hang_counterexample",
    "Verif.Toml.C125_hang_document_counterexample",
    "Verif.Toml.C125_number_counterexample",
    "Verif.Toml.C125_header_counterexample",
    "Verif.Toml.C125_defined_partial"
   ],
   "note": "Termination is proved for all texts without NUL, definedness for objects of strings, booleans and such objects. False with a NUL at a name (endless loop), for a number missing at the end (uninitialised read) and for a header through an empty array (*--end)."
  },
  {
   "property": "C126",
   "status": "partial",
   "theorems": [
    "Verif.Text.C126_strtrim_partial",
    "Verif.Text.C126_trim_partial",
    "Verif.Text.C126_every_text",
    "Verif.Text.C126_ascii_partial",
    "Verif.Text.C126_blank_counterexample",
    "Verif.Text.C126_empty_counterexample",
    "Verif.Text.C126_utf8_counterexample"
   ],
   "note": "strtrim for strings with a character that is no blank, Trim for non-empty strings, the last such character being positive. Counterexamples: blank and empty strings (write past the end), UTF-8 at the end."
  },
  {
   "property": "C127",
   "status": "partial",
   "theorems": [
    "Verif.Text.C127_tokens",
    "Verif.Text.C127_every_text",
    "Verif.Text.C127_explode",
    "Verif.Text.C127_explode_nul",
    "Verif.Text.C127_chunk",
    "Verif.Text.C127_char32_counterexample"
   ],
   "note": "Proved for char and wchar_t; for char32_t splitting never ends (counterexample)."
  },
  {
   "property": "C128",
   "status": "partial",
   "theorems": [
    "Verif.Text.C128_strreplace",
    "Verif.Text.C128_replace",
    "Verif.Text.C128_count",
    "Verif.Text.C128_strip",
    "Verif.Text.C128_count_length_partial",
    "Verif.Text.C128_count_length_counterexample"
   ],
   "note": "strccount with a length is proved for lengths within the string; beyond it reads past the terminator (counterexample). The rest is proved."
  },
  {
   "property": "C129",
   "status": "partial",
   "theorems": [
    "Verif.Text.C129_count",
    "Verif.Text.C129_args_partial",
    "Verif.Text.C129_quote_counterexample",
    "Verif.Text.C129_groups"
   ],
   "note": "Memory safety, agreement of both passes and groups are proved for every line; the arguments for lines whose quotes are closed. Counterexample: an open quote loses a character."
  },
  {
   "property": "C130",
   "status": "proved",
   "theorems": [
    "Verif.Text.C130_format",
    "Verif.Text.C130_every_format"
   ],
   "note": "For every format and number of arguments."
  },
  {
   "property": "C131",
   "status": "partial",
   "theorems": [
    "Verif.Arr.C131_arrays_are_values_partial",
    "Verif.Arr.C131_no_leak_partial",
    "Verif.Arr.C131_elements_constructed_once_partial",
    "Verif.Arr.C131_assign_self_counterexample",
    "Verif.Arr.C131_move_self_counterexample",
    "Verif.Arr.C131_append_self_counterexample",
    "Verif.Arr.C131_add_own_element_counterexample",
    "Verif.Arr.C131_insert_own_element_counterexample",
    "Verif.Arr.C131_set_own_slice_counterexample"
   ],
   "note": "Proved for all programs in which no array (or an element or slice of it) is an argument of a call on itself. Missing because the code is wrong there: self-assignment destroys before it reads, Array += itself overruns, Add/Insert of an own element and Set of an own slice read freed or moved memory (counterexamples proved)."
  },
  {
   "property": "C132",
   "status": "partial",
   "theorems": [
    "Verif.Log.C132_delivery_partial",
    "Verif.Log.C132_log_delivers_partial",
    "Verif.Log.C132_target_assimilated_counterexample",
    "Verif.Log.C132_added_twice_counterexample"
   ],
   "note": "Wrong if a target is also redirected (endless recursion) or added twice; assignment of loggers not covered"
  },
  {
   "property": "C133",
   "status": "partial",
   "theorems": [
    "Verif.Log.C133_restored_partial",
    "Verif.Log.C133_assimilated_twice_counterexample",
    "Verif.Log.C133_destroyed_in_order_counterexample",
    "Verif.Log.C133_assignment_counterexample"
   ],
   "note": "Wrong if a stream is redirected twice, if two loggers are not destroyed in opposite order, and for assignment"
  },
  {
   "property": "C134",
   "status": "partial",
   "theorems": [
    "Verif.Log.C134_setLevel_partial",
    "Verif.Log.C134_truncates_counterexample",
    "Verif.Log.C134_out_of_bounds_counterexample",
    "Verif.Log.C134_limit_partial",
    "Verif.Log.C134_limit_counterexample"
   ],
   "note": "Proved for the last and the next level and limits below 128; the code is wrong for all others"
  },
  {
   "property": "C135",
   "status": "partial",
   "theorems": [
    "Verif.Log.C135_entry_partial",
    "Verif.Log.C135_null_source_counterexample",
    "Verif.Log.C135_date_counterexample"
   ],
   "note": "Wrong for a missing source that the format mentions and for dates when the local day differs from UTC"
  },
  {
   "property": "C136",
   "status": "partial",
   "theorems": [
    "Verif.Var.C136_variants_partial",
    "Verif.Var.C136_empty_counterexample",
    "Verif.Var.C136_inner_counterexample"
   ],
   "note": "Wrong for the assignment of an empty to an empty variant and of a part of the own value"
  },
  {
   "property": "C137",
   "status": "partial",
   "theorems": [
    "Verif.Var.C137_size",
    "Verif.Var.C137_aligned_partial",
    "Verif.Var.C137_aligned_counterexample"
   ],
   "note": "Sizes proved; alignment proved for one type or alignments up to 4, wrong for larger ones"
  },
  {
   "property": "C138",
   "status": "partial",
   "theorems": [
    "Verif.Prof.C138_measured_partial",
    "Verif.Prof.C138_small",
    "Verif.Prof.C138_same",
    "Verif.Prof.C138_shared_counterexample"
   ],
   "note": "Proved for prefix-free sets of region numbers (1 to 15, or all numbers with the same number of digits) with exact averages. False in general: 17 shares its node with 1 in 1 (C138_shared_counterexample)."
  },
  {
   "property": "C139",
   "status": "partial",
   "theorems": [
    "Verif.Prof.C139_flat_partial",
    "Verif.Prof.C139_names_counterexample"
   ],
   "note": "Numbers and means proved for prefix-free sets of numbers. The text is wrong: averages are sorted, names are not (C139_names_counterexample)."
  },
  {
   "property": "C140",
   "status": "partial",
   "theorems": [
    "Verif.Prof.C140_tree_partial",
    "Verif.Prof.C140_indent_counterexample"
   ],
   "note": "Proved for prefix-free sets of numbers none of which 16 divides; a number that 16 divides is indented once too often (C140_indent_counterexample). The order is that of the places in the trie."
  },
  {
   "property": "C141",
   "status": "partial",
   "theorems": [
    "Verif.Prof.C141_heat_partial",
    "Verif.Prof.C141_number_counterexample"
   ],
   "note": "Proved for regions 1 to 15; larger numbers below another region are put together wrongly (C141_number_counterexample). The order of the nodes is not modelled."
  },
  {
   "property": "C142",
   "status": "partial",
   "theorems": [
    "Verif.Num.C142_exact_partial",
    "Verif.Num.C142_five_points",
    "Verif.Num.C142_five_points_counterexample",
    "Verif.Num.C142_sharp"
   ],
   "note": "One to four points for all polynomials and intervals; with five points the exact error is proved and a counterexample given, since 128 / 225 is an integer division."
  },
  {
   "property": "C143",
   "status": "proved",
   "theorems": [
    "Verif.Num.C143_modulo",
    "Verif.Num.C143_modulo_negative",
    "Verif.Num.C143_distance",
    "Verif.Num.C143_distance_arccos",
    "Verif.Num.C143_signed",
    "Verif.Num.C143_zero"
   ],
   "note": "In exact real arithmetic."
  },
  {
   "property": "C144",
   "status": "proved",
   "theorems": [
    "Verif.Num.C144_bounds",
    "Verif.Num.C144_scale",
    "Verif.Num.C144_symmetric",
    "Verif.Num.C144_sharp"
   ],
   "note": "In exact real arithmetic."
  },
  {
   "property": "C145",
   "status": "partial",
   "theorems": [
    "Verif.Sys.C145_choice_partial",
    "Verif.Sys.C145_exact",
    "Verif.Sys.C145_slant_counterexample",
    "Verif.Sys.C145_medium_counterexample"
   ],
   "note": "The slant, the exact match and the ranking of weights are proved; counterexamples when no font has the slant and for 500 with weights between 400 and 500."
  },
  {
   "property": "C146",
   "status": "partial",
   "theorems": [
    "Verif.Sys.C146_posix",
    "Verif.Sys.C146_posix_delta",
    "Verif.Sys.C146_posix_monotone",
    "Verif.Sys.C146_windows_partial",
    "Verif.Sys.C146_windows_overflow_counterexample",
    "Verif.Sys.C146_sum",
    "Verif.Sys.C146_warp_counterexample",
    "Verif.Sys.C146_warp_platform_counterexample"
   ],
   "note": "POSIX time and deltas and the sum of deltas are proved in full; on Windows up to 2^64 / 10^9 ticks between updates. Counterexamples for overflow and time warp."
  },
  {
   "property": "C147",
   "status": "proved",
   "theorems": [
    "Verif.Sys.C147_delete",
    "Verif.Sys.C147_delete_all",
    "Verif.Sys.C147_empty_counterexample"
   ],
   "note": "For nonempty names; an empty name reads before the start of the string (counterexample)."
  },
  {
   "property": "C148",
   "status": "partial",
   "theorems": [
    "Verif.Sys.C148_msb",
    "Verif.Sys.C148_limits_partial",
    "Verif.Sys.C148_bytes_counterexample",
    "Verif.Sys.C148_limits_counterexample"
   ],
   "note": "All numbers of bits but 24, 40, 48 and 56, for which the type is too short (counterexample)."
  },
  {
   "property": "C149",
   "status": "partial",
   "theorems": [
    "Verif.Sys.C149_bit",
    "Verif.Sys.C149_range_partial",
    "Verif.Sys.C149_range_shift_counterexample",
    "Verif.Sys.C149_range_extend_counterexample",
    "Verif.Sys.C149_set",
    "Verif.Sys.C149_get_partial",
    "Verif.Sys.C149_get_counterexample",
    "Verif.Sys.C149_get_extend_counterexample"
   ],
   "note": "Single bits and bssSetBit for all widths; ranges and bssGetBit up to 32 bits, with counterexamples for 64."
  },
  {
   "property": "C150",
   "status": "partial",
   "theorems": [
    "Verif.Stream.RO.C150_read_partial",
    "Verif.Stream.RO.C150_all",
    "Verif.Stream.RO.C150_putback_counterexample",
    "Verif.Stream.RO.C150_seek_counterexample"
   ],
   "note": "All calls but seeks outside of the array and putting back bytes above 127 (counterexamples)."
  },
  {
   "property": "C151",
   "status": "partial",
   "theorems": [
    "Verif.Stream.Fn.C151_write_partial",
    "Verif.Stream.Fn.C151_write_count",
    "Verif.Stream.Fn.C151_write_count_counterexample",
    "Verif.Stream.Fn.C151_flush_counterexample",
    "Verif.Stream.Fn.C151_read_partial",
    "Verif.Stream.Fn.C151_read_end",
    "Verif.Stream.Fn.C151_read_count_counterexample"
   ],
   "note": "Order and completeness of the data; counterexamples for the returned counts and for flush."
  },
  {
   "property": "C152",
   "status": "proved",
   "theorems": [
    "Verif.Toml.C152_roundtrip",
    "Verif.Toml.C152_exact",
    "Verif.Toml.C152_text"
   ],
   "note": "Round trip for every 64-bit count of nanoseconds, down to the second."
  },
  {
   "property": "C153",
   "status": "partial",
   "theorems": [
    "Verif.Toml.C153_offset_partial",
    "Verif.Toml.C153_date_partial",
    "Verif.Toml.C153_other",
    "Verif.Toml.C153_zulu_false",
    "Verif.Toml.C153_end_false",
    "Verif.Toml.C153_counterexample"
   ],
   "note": "Explicit offsets and dates alone, when followed by anything. Z, fractions and local times lose the time of day, dates and offsets at the end of the input are ignored (counterexamples)."
  },
  {
   "property": "C154",
   "status": "partial",
   "theorems": [
    "Verif.IniEnt.C154_decimal_partial",
    "Verif.IniEnt.C154_hex",
    "Verif.IniEnt.C154_counterexample"
   ],
   "note": "Decimal and hexadecimal numerals. Exponents without a period, negative hexadecimal numbers and large numbers with a period fail (counterexample)."
  },
  {
   "property": "C155",
   "status": "proved",
   "theorems": [
    "Verif.IniEnt.C155_int",
    "Verif.IniEnt.C155_convert",
    "Verif.IniEnt.C155_equality"
   ],
   "note": "SetInt, conversions and equality."
  },
  {
   "property": "C156",
   "status": "proved",
   "theorems": [
    "Verif.IniEnt.C156_path",
    "Verif.IniEnt.C156_default_counterexample"
   ],
   "note": "For every file name; the default null pointer is undefined behaviour (counterexample)."
  },
  {
   "property": "C157",
   "status": "partial",
   "theorems": [
    "Verif.IniEnt.C157_construct_partial",
    "Verif.IniEnt.C157_assign_false",
    "Verif.IniEnt.C157_parent_false"
   ],
   "note": "Move construction, as far as reading goes. Move assignment frees what it takes, and sections keep editing the old document (both shown for all documents)."
  },
  {
   "property": "C158",
   "status": "partial",
   "theorems": [
    "Verif.IniEnt.C158_missing_partial",
    "Verif.IniEnt.C158_shared_false"
   ],
   "note": "Entries that are there; missing ones as long as none is assigned to. An assignment to a missing entry is seen through all others (shown in general)."
  },
  {
   "property": "C159",
   "status": "partial",
   "theorems": [
    "Verif.Arr.View.C159_sub_partial",
    "Verif.Arr.View.C159_from",
    "Verif.Arr.View.C159_walk",
    "Verif.Arr.View.C159_negative_false",
    "Verif.Arr.View.C159_const_false"
   ],
   "note": "Proved for ends that are not negative. A negative end extends the part beyond the slice (C159_negative_false); the constant operator never returns (C159_const_false)."
  },
  {
   "property": "C160",
   "status": "proved",
   "theorems": [
    "Verif.Arr.View.C160_bijection"
   ],
   "note": "For two and more dimensions; the code does not compile for one."
  },
  {
   "property": "C161",
   "status": "partial",
   "theorems": [
    "Verif.Arr.View.C161_lifetime_partial",
    "Verif.Arr.View.C161_overflow_counterexample"
   ],
   "note": "Proved if the size in bytes fits 64 bits; otherwise too little memory is taken (counterexample)."
  },
  {
   "property": "C162",
   "status": "partial",
   "theorems": [
    "Verif.Sys.C162_call_partial",
    "Verif.Sys.C162_stateless_false"
   ],
   "note": "Calls proved for all assignments. A delegate of a function without an object says it is empty (C162_stateless_false)."
  },
  {
   "property": "C163",
   "status": "partial",
   "theorems": [
    "Verif.Sys.C163_defer_partial",
    "Verif.Sys.C163_copy_counterexample"
   ],
   "note": "Proved without copies of the returned objects; a copy makes the call again (counterexample)."
  },
  {
   "property": "C164",
   "status": "partial",
   "theorems": [
    "Verif.Sys.Thr.C164_wait_partial",
    "Verif.Sys.Thr.C164_wait_false",
    "Verif.Sys.Thr.C164_once",
    "Verif.Sys.Thr.C164_windows_false"
   ],
   "note": "Proved on POSIX if the milliseconds do not carry into the next second; otherwise the call returns at once (C164_wait_false). On Windows the upper half of the result is never set (C164_windows_false)."
  },
  {
   "property": "C165",
   "status": "partial",
   "theorems": [
    "Verif.Sys.Thr.C165_notify_partial",
    "Verif.Sys.Thr.C165_count",
    "Verif.Sys.Thr.C165_counterexample"
   ],
   "note": "Proved for successful calls with counts below 2^31; a failing call may let waits pass, and counts are cut to 32 bits on Windows (counterexample)."
  },
  {
   "property": "C166",
   "status": "proved",
   "theorems": [
    "Verif.Arith.C166_tsign",
    "Verif.Arith.C166_tsignzero",
    "Verif.Arith.C166_fsign"
   ],
   "note": "For all sizes of integers, and all patterns of float and double including NaN and zeros."
  },
  {
   "property": "C167",
   "status": "partial",
   "theorems": [
    "Verif.Arith.C167_small",
    "Verif.Arith.C167_negative_false",
    "Verif.Arith.C167_compare_float_partial",
    "Verif.Arith.C167_compare_double_partial"
   ],
   "note": "fSmall proved for all patterns and eps from 0 to infinity; fCompareSmall for numbers that are not NaN, with tolerances below 2^24 and 2^53, with signed integers that wrap around as in C84."
  },
  {
   "property": "C168",
   "status": "partial",
   "theorems": [
    "Verif.Arith.C168_wide_partial",
    "Verif.Arith.C168_sign_false",
    "Verif.Arith.C168_exponent_counterexample"
   ],
   "note": "Proved for numbers of the same sign and exponent, and for exponents that differ by more than one. The sign is ignored (C168_sign_false), and neighbouring exponents may compare as equal though the numbers differ by a factor of almost four (counterexample)."
  },
  {
   "property": "C169",
   "status": "partial",
   "theorems": [
    "Verif.Sys.C169_ascii_partial",
    "Verif.Sys.C169_other_false",
    "Verif.Sys.C169_64_false"
   ],
   "note": "32 bits proved for ASCII. Wrong for a text that ends with another character (C169_other_false); the 64-bit hash is always below 2^32 (C169_64_false)."
  },
  {
   "property": "C170",
   "status": "partial",
   "theorems": [
    "Verif.Sys.C170_level",
    "Verif.Sys.C170_flags_partial",
    "Verif.Sys.C170_sse4a_false",
    "Verif.Sys.C170_gap_counterexample"
   ],
   "note": "Levels proved for processors without gaps, flags for all but SSE4a, which is read from the wrong leaf (C170_sse4a_false)."
  },
  {
   "property": "C171",
   "status": "proved",
   "theorems": [
    "Verif.Vec.Ops.C171_inplace",
    "Verif.Vec.Ops.C171_inplace_scalar",
    "Verif.Vec.Ops.C171_binary",
    "Verif.Vec.Ops.C171_matrix",
    "Verif.Vec.Ops.C171_compare",
    "Verif.Vec.Ops.C171_equal_matrix"
   ],
   "note": "Unary minus of a vector and ~ of a matrix do not compile if used, so they are not modelled; the SSE specialisations for four floats are lanes by documentation."
  },
  {
   "property": "C172",
   "status": "partial",
   "theorems": [
    "Verif.Vec.Lanes.C172_arith_partial",
    "Verif.Vec.Lanes.C172_compare",
    "Verif.Vec.Lanes.C172_minmax",
    "Verif.Vec.Lanes.C172_shift_partial",
    "Verif.Vec.Lanes.C172_register_false"
   ],
   "note": "Where the portable code is defined the two builds agree; overflow and counts outside 0 to 31 are undefined in one build only, and a count in a register shifts out all bits with SSE (C172_register_false)."
  },
  {
   "property": "C173",
   "status": "partial",
   "theorems": [
    "Verif.Vec.Lanes.C173_shuffle",
    "Verif.Vec.Lanes.C173_sum",
    "Verif.Vec.Lanes.C173_swap",
    "Verif.Vec.Lanes.C173_pd_false"
   ],
   "note": "Shuffle and Sum agree; the portable exchange of doubles is wrong for two of the four codes (C173_pd_false)."
  },
  {
   "property": "C174",
   "status": "partial",
   "theorems": [
    "Verif.Vec.Lanes.C174_round_partial",
    "Verif.Vec.Lanes.C174_range_false"
   ],
   "note": "Correct for numbers that fit 32 bit integers; all greater numbers are rounded to -2^31 (C174_range_false)."
  },
  {
   "property": "C175",
   "status": "partial",
   "theorems": [
    "Verif.Geo.C175_contains_partial",
    "Verif.Geo.C175_constructed",
    "Verif.Geo.C175_center_counterexample"
   ],
   "note": "All points other than the centre of a sector without inner radius, for which the code is wrong (counterexample)."
  },
  {
   "property": "C176",
   "status": "proved",
   "theorems": [
    "Verif.Geo.C176_circle"
   ],
   "note": "Full equivalence for sectors with 0 <= inner < outer and a nonnegative range."
  },
  {
   "property": "C177",
   "status": "partial",
   "theorems": [
    "Verif.Geo.C177_segment_partial",
    "Verif.Geo.C177_center_counterexample"
   ],
   "note": "Equivalence for segments that do not start in the centre of a sector without inner radius (counterexample) and for a positive range."
  },
  {
   "property": "C178",
   "status": "partial",
   "theorems": [
    "Verif.Geo.C178_polygon_partial",
    "Verif.Geo.C178_inside_counterexample"
   ],
   "note": "Equivalence for the border of the polygon with any number of vertices; sectors inside the polygon are not found (counterexample)."
  },
  {
   "property": "C179",
   "status": "partial",
   "theorems": [
    "Verif.Geo.C179_sectors_partial",
    "Verif.Geo.C179_exchanged_counterexample",
    "Verif.Geo.C179_period_counterexample"
   ],
   "note": "Soundness if the other sector has no inner radius; the code is wrong otherwise (two counterexamples). Completeness is not proved."
  },
  {
   "property": "C180",
   "status": "partial",
   "theorems": [
    "Verif.StrConv.C180_pointer",
    "Verif.StrConv.C180_string_partial",
    "Verif.StrConv.C180_back_partial",
    "Verif.StrConv.C180_zero_false",
    "Verif.StrConv.C180_count_partial",
    "Verif.StrConv.C180_count_false",
    "Verif.StrConv.C180_empty_false"
   ],
   "note": "From pointers in full; strings without zeros. A count loses its last unit and a zero count throws: counterexamples."
  },
  {
   "property": "C181",
   "status": "partial",
   "theorems": [
    "Verif.StrBuild.C181_format_partial",
    "Verif.StrBuild.C181_zero_counterexample"
   ],
   "note": "For texts without zeros; counterexample with one."
  },
  {
   "property": "C182",
   "status": "partial",
   "theorems": [
    "Verif.StrBuild.C182_written_partial",
    "Verif.StrBuild.C182_reserved_false"
   ],
   "note": "For text within the characters; text written into reserved memory becomes zeros, shown false."
  },
  {
   "property": "C183",
   "status": "partial",
   "theorems": [
    "Verif.StrBuild.C183_plus",
    "Verif.StrBuild.C183_pointer_partial",
    "Verif.StrBuild.C183_own_false"
   ],
   "note": "All forms of + in full; appending the string's own pointer appends nothing, shown false."
  },
  {
   "property": "C184",
   "status": "partial",
   "theorems": [
    "Verif.HashKeys.C184_hash_partial",
    "Verif.HashKeys.C184_case",
    "Verif.HashKeys.C184_zero_counterexample",
    "Verif.HashKeys.C184_self_partial",
    "Verif.HashKeys.C184_symm",
    "Verif.HashKeys.C184_trans",
    "Verif.HashKeys.C184_nan_counterexample",
    "Verif.HashKeys.C184_pointer_counterexample",
    "Verif.HashKeys.C184_embedded_counterexample"
   ],
   "note": "Equal keys hash equal except floating point zeros (counterexample); symmetric and transitive in full, reflexive except NaN (counterexample). Pointers and strings with zeros inside tuples compare differently from those alone (counterexamples)."
  },
  {
   "property": "C185",
   "status": "proved",
   "theorems": [
    "Verif.HashKeys.C185_int",
    "Verif.HashKeys.C185_int64",
    "Verif.HashKeys.C185_int64_counterexample"
   ],
   "note": "32-bit integers in full; 64-bit integers with equal upper halves, and a counterexample for the others, which the claim excludes."
  },
  {
   "property": "C186",
   "status": "partial",
   "theorems": [
    "Verif.GraphMatrix.C186_history",
    "Verif.GraphMatrix.C186_matrix_partial",
    "Verif.GraphMatrix.C186_nodes_counterexample",
    "Verif.GraphMatrix.C186_construct",
    "Verif.GraphMatrix.C186_round_trip"
   ],
   "note": "Matrix entries, construction, round trip and histories in full; data of nodes are written by index, so room is needed beyond the number of nodes after removals (counterexample)."
  },
  {
   "property": "C187",
   "status": "partial",
   "theorems": [
    "Verif.GraphMatrix.C187_getNode_partial",
    "Verif.GraphMatrix.C187_addNode",
    "Verif.GraphMatrix.C187_removed_counterexample"
   ],
   "note": "For graphs without removals; counterexample after a removal."
  },
  {
   "property": "C188",
   "status": "partial",
   "theorems": [
    "Verif.JsonTyped.C188_terminates",
    "Verif.JsonTyped.C188_parse_partial",
    "Verif.JsonTyped.C188_append_counterexample",
    "Verif.JsonTyped.C188_unknown_counterexample",
    "Verif.JsonTyped.C188_quoted_counterexample",
    "Verif.JsonTyped.C188_range_counterexample",
    "Verif.JsonTyped.C188_blank_counterexample"
   ],
   "note": "For texts in which what is ignored has no commas or brackets; counterexamples for vectors with elements, unknown objects, numbers in quotes, numbers out of range and leading blank space."
  },
  {
   "property": "C189",
   "status": "partial",
   "theorems": [
    "Verif.JsonTyped.C189_grammar_partial",
    "Verif.JsonTyped.C189_roundtrip_partial",
    "Verif.JsonTyped.C189_char_counterexample"
   ],
   "note": "Characters and 8-bit integers must not be separators (counterexample); member names need no escapes; floating point members, maps and variants are not modelled."
  },
  {
   "property": "C190",
   "status": "partial",
   "theorems": [
    "Verif.TRB.Check.C190_decides_partial",
    "Verif.TRB.Check.C190_root_counterexample",
    "Verif.TRB.Check.C190_duplicate_counterexample"
   ],
   "note": "Exact for the nodes of the tree; the colour of the root and the links between duplicates are not checked (counterexamples)."
  },
  {
   "property": "C191",
   "status": "partial",
   "theorems": [
    "Verif.TRB.Check.C191_order",
    "Verif.TRB.Check.C191_find_partial",
    "Verif.TRB.Check.C191_duplicate_counterexample"
   ],
   "note": "The order claim is proved in full; Get is right afterwards only without equal elements (counterexample)."
  },
  {
   "property": "C192",
   "status": "partial",
   "theorems": [
    "Verif.Own.C192_moves_partial",
    "Verif.Own.C192_no_leak_partial",
    "Verif.Own.C192_avl_policy_counterexample",
    "Verif.Own.C192_list_policy_counterexample",
    "Verif.Own.C192_trb_policy_counterexample",
    "Verif.Own.C192_trb_reuse_counterexample",
    "Verif.Own.C192_kd_reuse_counterexample",
    "Verif.Own.C192_self_counterexample"
   ],
   "note": "Proved for stateless allocators, except that a moved-from TRBtree must not be filled again, and for KDTree with a policy if a moved-from one is not used; counterexamples for AVLTree, LinkedList and TRBtree with a policy and for self-assignment."
  },
  {
   "property": "C193",
   "status": "partial",
   "theorems": [
    "Verif.Geo.C193_inside",
    "Verif.Geo.C193_collide_sound",
    "Verif.Geo.C193_divisor_partial",
    "Verif.Geo.C193_nearest_partial",
    "Verif.Geo.C193_collide_partial",
    "Verif.Geo.C193_touch_counterexample",
    "Verif.Geo.C193_member_counterexample"
   ],
   "note": "Away from the axes of a proper ellipse only that the result is on the ellipse is proved: four steps of Newton's method give an approximation (C193_nearest_partial, C193_divisor_partial, C193_collide_partial treat circles and points on an axis). C193_touch_counterexample: touching is not colliding; C193_member_counterexample: Ellipse::NearestPoint does not shift the result back."
  },
  {
   "property": "C194",
   "status": "partial",
   "theorems": [
    "Verif.Spatial.Poisson.C194_samples_partial",
    "Verif.Spatial.Poisson.C194_double_counterexample"
   ],
   "note": "Holds for float (C194_samples_partial); C194_double_counterexample: for double the array of 64 bit words over the grid is indexed with the index of the grid, so close points are accepted. Rounding is not modelled."
  },
  {
   "property": "C195",
   "status": "partial",
   "theorems": [
    "Verif.Random.Zig.C195_areas",
    "Verif.Random.Zig.C195_strip",
    "Verif.Random.Zig.C195_base",
    "Verif.Random.Zig.C195_tail",
    "Verif.Random.Zig.C195_symmetric",
    "Verif.Random.Zig.C195_size_counterexample",
    "Verif.Random.Zig.C195_start_counterexample"
   ],
   "note": "C195_areas, C195_strip, C195_base, C195_tail and C195_symmetric hold for all tables that can be computed (that the default constants give such a table is a numerical fact that is not proved); C195_size_counterexample and C195_start_counterexample show the fixed 0x7F and ZIGNOR_R. The distribution of the results (as a measure) is not formalized."
  },
  {
   "property": "C196",
   "status": "partial",
   "theorems": [
    "Verif.Num.FastSqrt.C196_float_partial",
    "Verif.Num.FastSqrt.C196_double_partial",
    "Verif.Num.FastSqrt.C196_denormal_counterexample"
   ],
   "note": "The multiplications and subtractions of the Newton steps are exact rational arithmetic, so the rounding of float and double is missing; denormal numbers are a counterexample."
  },
  {
   "property": "C197",
   "status": "partial",
   "theorems": [
    "Verif.XmlTyped.C197_roundtrip_partial",
    "Verif.XmlTyped.C197_unknown_partial",
    "Verif.XmlTyped.C197_name_counterexample",
    "Verif.XmlTyped.C197_nested_counterexample",
    "Verif.XmlTyped.C197_number_counterexample",
    "Verif.XmlTyped.C197_quote_counterexample",
    "Verif.XmlTyped.C197_append_counterexample",
    "Verif.XmlTyped.C197_attribute_counterexample"
   ],
   "note": "The round trip is proved for types without arrays of arrays, floats, maps and variants, under a name; the counterexamples show that arrays of arrays, missing names, top-level numbers and quoted strings fail in the code."
  },
  {
   "property": "C198",
   "status": "partial",
   "theorems": [
    "Verif.UbjsonTyped.C198_roundtrip_partial",
    "Verif.UbjsonTyped.C198_convert",
    "Verif.UbjsonTyped.C198_bytes_counterexample",
    "Verif.UbjsonTyped.C198_elements_counterexample",
    "Verif.UbjsonTyped.C198_bits_counterexample",
    "Verif.UbjsonTyped.C198_big_counterexample",
    "Verif.UbjsonTyped.C198_zero_counterexample",
    "Verif.UbjsonTyped.C198_name_counterexample",
    "Verif.UbjsonTyped.C198_unknown_counterexample",
    "Verif.UbjsonTyped.C198_hang_counterexample"
   ],
   "note": "Round trip proved for the element types the writer has markers for, without maps, variants and float conversions; the counterexamples show that the other combinations, names, unknown members and long uncounted arrays fail in the code."
  },
  {
   "property": "C199",
   "status": "partial",
   "theorems": [
    "Verif.Random.C199_unsigned",
    "Verif.Random.C199_reached",
    "Verif.Random.C199_int",
    "Verif.Random.C199_real_partial",
    "Verif.Random.C199_real_counterexample",
    "Verif.Random.C199_reached_counterexample",
    "Verif.Random.C199_monotone",
    "Verif.Random.C199_shuffle"
   ],
   "note": "Integers are proved without restriction. C199_real_partial: for bssRandReal the closed range only (C199_real_counterexample: max can be returned) and non-negative bounds, without subnormal results; C199_reached_counterexample: beyond 2^52 numbers not each one is given."
  },
  {
   "property": "C200",
   "status": "partial",
   "theorems": [
    "Verif.Var.Serial.C200_roundtrip",
    "Verif.Var.Serial.C200_empty",
    "Verif.Var.Serial.C200_valid",
    "Verif.Var.Serial.C200_lost_counterexample",
    "Verif.Var.Serial.C200_order_counterexample",
    "Verif.Var.Serial.C200_missing_counterexample"
   ],
   "note": "Proved for texts with the value after the tag and as far as objects are not leaked: C200_lost_counterexample (old value never destroyed), C200_order_counterexample, C200_missing_counterexample."
  },
  {
   "property": "C201",
   "status": "partial",
   "theorems": [
    "Verif.Sys.RegValue.C201_dword",
    "Verif.Sys.RegValue.C201_qword",
    "Verif.Sys.RegValue.C201_frame",
    "Verif.Sys.RegValue.C201_exact",
    "Verif.Sys.RegValue.C201_raw",
    "Verif.Sys.RegValue.C201_string_counterexample",
    "Verif.Sys.RegValue.C201_missing_counterexample",
    "Verif.Sys.RegValue.C201_overwritten_counterexample"
   ],
   "note": "Numbers are proved without restriction. Strings: C201_string_counterexample; missing keys: C201_missing_counterexample; C201_overwritten_counterexample."
  },
  {
   "property": "C202",
   "status": "proved",
   "theorems": [
    "Verif.Ani.Values.C202_get",
    "Verif.Ani.Values.C202_set",
    "Verif.Ani.Values.C202_roundtrip"
   ],
   "note": "Complete for lists of states with distinct types, which the code requires to compile."
  },
  {
   "property": "C203",
   "status": "proved",
   "theorems": [
    "Verif.Alloc.Standard.C203_resize",
    "Verif.Alloc.Standard.C203_resize_empty",
    "Verif.Alloc.Standard.C203_new",
    "Verif.Alloc.Standard.C203_free",
    "Verif.Alloc.Standard.C203_aligned",
    "Verif.Alloc.Standard.C203_aligned_counterexample",
    "Verif.Alloc.Standard.C203_greedy"
   ],
   "note": "Theorems for a heap of blocks with any addresses and contents. Found: in debug builds without ALIGN the header of 8 bytes makes memory of the system that is aligned to 16 never aligned to 16 (C203_aligned_counterexample), so AlignedAllocator is needed for such types; in release builds a resize to nothing frees the block and returns null (C203_resize_empty)."
  },
  {
   "property": "C204",
   "status": "partial",
   "theorems": [
    "Verif.Hash.C204_alive",
    "Verif.Hash.C204_balanced_partial",
    "Verif.Hash.C204_rehash_loses",
    "Verif.Hash.C204_lost_counterexample"
   ],
   "note": "C204_alive holds for every history. That all keys are destroyed in the end is proved for tables whose capacity is set first and suffices (C204_balanced_partial). It is false otherwise: every rehash of a table with entries leaves moved-from keys without destruction (C204_rehash_loses in general, C204_lost_counterexample), with ARRAY_SAFE also all keys in the memory that is replaced; for key types without a move constructor these are copies, which leak. Keys are counted, not told apart."
  },
  {
   "property": "C205",
   "status": "partial",
   "theorems": [
    "Verif.BitStream.Objects.C205_moves_partial",
    "Verif.BitStream.Objects.C205_flush_counterexample",
    "Verif.BitStream.Objects.C205_flush_between_counterexample",
    "Verif.BitStream.Objects.C205_copy_counterexample"
   ],
   "note": "Proved for histories of constructions, writes, moves (by construction) and destructions. The code is wrong for the rest: Flush does not forget the unfinished byte, so it is put again by the destructor (C205_flush_counterexample, in general) and by later writes (C205_flush_between_counterexample); copies put it too, and assignments take over the stream without the unfinished bits (C205_copy_counterexample)."
  },
  {
   "property": "C206",
   "status": "partial",
   "theorems": [
    "Verif.Random.C206_seed",
    "Verif.Random.C206_equal_partial",
    "Verif.Random.C206_equal_counterexample",
    "Verif.Random.C206_discard_partial",
    "Verif.Random.C206_discard_counterexample",
    "Verif.Random.C206_rand",
    "Verif.Random.C206_rand_counterexample"
   ],
   "note": "Seeding, determination by 16 numbers and XorshiftRand are proved in full. Equality is proved for engines whose numbers of draws are congruent modulo 16 (C206_equal_partial); in general it is too fine, because the index is compared as well (C206_equal_counterexample). discard is right below 2^31 (C206_discard_partial) and overflows an int from there on (C206_discard_counterexample). XorshiftRand that was never seeded returns zeros forever (C206_rand_counterexample)."
  },
  {
   "property": "C207",
   "status": "partial",
   "theorems": [
    "Verif.Random.AliasObjects.C207_values_partial",
    "Verif.Random.AliasObjects.C207_small_counterexample",
    "Verif.Random.AliasObjects.C207_large_counterexample",
    "Verif.Random.AliasObjects.C207_self_counterexample",
    "Verif.Random.AliasObjects.C207_moved_counterexample"
   ],
   "note": "Proved for histories without self-assignment and without copies of tables that were moved from, where tables are only copied if both types have the same size (the default). The code is wrong otherwise: C207_small_counterexample, C207_large_counterexample (the probabilities are copied with sizeof(UINT)), C207_self_counterexample, C207_moved_counterexample."
  },
  {
   "property": "C208",
   "status": "partial",
   "theorems": [
    "Verif.Alloc.Moves.C208_pools_partial",
    "Verif.Alloc.Moves.C208_assign_counterexample",
    "Verif.Alloc.Moves.C208_self_counterexample",
    "Verif.Alloc.Moves.C208_moved_counterexample"
   ],
   "note": "Proved for BlockAlloc with all operations, and for LocklessBlockPolicy (one thread) without assignments. Assigning to a LocklessBlockPolicy leaks its chunks (C208_assign_counterexample), assigning it to itself loses everything (C208_self_counterexample), and allocating from a pool that was moved from reads through a null pointer (C208_moved_counterexample)."
  },
  {
   "property": "C209",
   "status": "partial",
   "theorems": [
    "Verif.Linked.Arr.C209_objects_partial",
    "Verif.Linked.Arr.C209_self_counterexample",
    "Verif.Linked.Arr.C209_moved_counterexample"
   ],
   "note": "Proved for histories without self-assignment in which moved-from arrays are only cleared, assigned to or destroyed; counterexamples show that self-assignment loses all values and that a moved-from array keeps its length and start. The move constructor does not compile."
  },
  {
   "property": "C210",
   "status": "partial",
   "theorems": [
    "Verif.XmlObj.C210_trees_partial",
    "Verif.XmlObj.C210_copy_counterexample",
    "Verif.XmlObj.C210_addNode_counterexample",
    "Verif.XmlObj.C210_assign_counterexample",
    "Verif.XmlObj.C210_self_counterexample"
   ],
   "note": "Proved for copies of leaves, assignments of flat trees without attributes to other nodes without children, and moves of any trees between different nodes; counterexamples for all trees show that copies of other nodes have elements that were never written, that assignment keeps the old children, and that self-assignment of a node with children never ends."
  },
  {
   "property": "C211",
   "status": "partial",
   "theorems": [
    "Verif.Arb.C211_elements_partial",
    "Verif.Arb.C211_add_counterexample",
    "Verif.Arb.C211_self_counterexample",
    "Verif.Arb.C211_moved_counterexample"
   ],
   "note": "Proved for histories in which an array of another element size is only set while the object is fresh or if the new size divides the old one (SetElement(size) may be called before), and objects are not assigned to themselves or used after a move; counterexamples show that Add writes behind the memory otherwise, that self-assignment loses all bytes and that a moved-from array keeps its length. Front, Back, begin and end are not modelled."
  },
  {
   "property": "C212",
   "status": "partial",
   "theorems": [
    "Verif.Alloc.Cache.C212_pools_partial",
    "Verif.Alloc.Cache.C212_dealloc_counterexample",
    "Verif.Alloc.Cache.C212_source_counterexample",
    "Verif.Alloc.Cache.C212_lost_counterexample",
    "Verif.Alloc.Cache.C212_moved_counterexample"
   ],
   "note": "Proved for histories in which the move constructor is only used before the first block of a cached size was taken, and assignments to any other pool. The code violates the rest: the move constructor leaves the free lists in the source (C212_dealloc_counterexample: old blocks cannot be given back to the new object; C212_source_counterexample: the source would hand out blocks of the new one), an assignment loses the chunks of the target (C212_lost_counterexample), and a pool that was moved from or assigned to itself fails at the next request of a cached size (C212_moved_counterexample)."
  },
  {
   "property": "C213",
   "status": "proved",
   "theorems": [
    "Verif.Own.Singleton.C213_exists",
    "Verif.Own.Singleton.C213_calls",
    "Verif.Own.Singleton.C213_one",
    "Verif.Own.Singleton.C213_second_counterexample"
   ],
   "note": "C213_second_counterexample shows a limit that the statement does not claim: if a second object is made and destroyed, nothing is registered although the first one still exists."
  },
  {
   "property": "C214",
   "status": "partial",
   "theorems": [
    "Verif.Graph.C214_destroy_partial",
    "Verif.Graph.C214_assign_partial",
    "Verif.Graph.C214_source_counterexample",
    "Verif.Graph.C214_lost_counterexample"
   ],
   "note": "The destructor is proved for all histories, the assignment for targets without edges and the destruction of the source for sources without nodes. The code violates the rest: after an assignment from a graph with a node the destructor of the source reads through a null pointer (C214_source_counterexample), and an assignment loses all edges of the target (C214_lost_counterexample). The move constructor does not compile when it is used."
  },
  {
   "property": "C215",
   "status": "proved",
   "theorems": [
    "Verif.Alloc.Ring.C215_blocks",
    "Verif.Alloc.Ring.C215_source",
    "Verif.Alloc.Ring.C215_moved_counterexample",
    "Verif.Alloc.Ring.C215_self_counterexample"
   ],
   "note": "Limits that the statement does not claim: a request to a source without Clear reads through a null pointer (C215_moved_counterexample), an assignment to itself releases the buckets of blocks in use (C215_self_counterexample)."
  },
  {
   "property": "C216",
   "status": "proved",
   "theorems": [
    "Verif.Compact.Heap.C216_memory",
    "Verif.Compact.Heap.C216_calls"
   ],
   "note": "The elements themselves are C73."
  },
  {
   "property": "C217",
   "status": "partial",
   "theorems": [
    "Verif.Heap.C217_objects_partial",
    "Verif.Heap.C217_moveNew_counterexample",
    "Verif.Heap.C217_push_counterexample"
   ],
   "note": "Proved for copies, copy assignments and move assignments between different objects, where an object that was moved from is only assigned to or destroyed. The code violates the rest: the move constructor assigns the already empty table again and loses all handles (C217_moveNew_counterexample), and an object that was moved from keeps the head of its free list without a table (C217_push_counterexample). An assignment of a heap to itself is not covered."
  },
  {
   "property": "C218",
   "status": "proved",
   "theorems": [
    "Verif.Sync.LQ.C218_no_leak",
    "Verif.Sync.LQ.C218_destroy"
   ],
   "note": "On the executions of C42 (sequentially consistent steps). C218_no_leak: at any time all nodes form one list from the first node, but for the one being given back. C218_destroy: with both threads idle the destructor ends, touches only nodes that are there and leaves none. The move functions do not compile when used and are not modelled."
  },
  {
   "property": "C219",
   "status": "partial",
   "theorems": [
    "Verif.Sync.MLQ.C219_no_leak",
    "Verif.Sync.MLQ.C219_destroy",
    "Verif.Sync.MLQ.C219_move_partial",
    "Verif.Sync.MLQ.C219_assign_counterexample"
   ],
   "note": "On the executions of C43. C219_no_leak: at any time every node is in the queue or held by a running call. C219_destroy: with all threads idle the destructor ends, touches only nodes that are there and leaves none. C219_move_partial: so do the destructors of a queue made by the move constructor and of the source. False for the move assignment: the nodes of the target are lost (C219_assign_counterexample)."
  },
  {
   "property": "C220",
   "status": "partial",
   "theorems": [
    "Verif.DSet.C220_moves_partial",
    "Verif.DSet.C220_source_counterexample"
   ],
   "note": "C220_moves_partial: for all histories with any number of objects, every object has the elements it stands for, Find tells the classes of the pairs united, and NumSets counts them. False for the source of a move assignment, whose NumSets is not reset (C220_source_counterexample). The copy functions and AddSets do not compile when used."
  },
  {
   "property": "C221",
   "status": "partial",
   "theorems": [
    "Verif.Circ.C221_objects_partial",
    "Verif.Circ.C221_self_counterexample"
   ],
   "note": "C221_objects_partial: refinement of worlds of arrays to values, for all histories of calls, copies, moves and destructions, with a check that no block with a living element is given back. False for the assignment of an array to itself, which loses all elements (C221_self_counterexample)."
  },
  {
   "property": "C222",
   "status": "partial",
   "theorems": [
    "Verif.Circ.C222_destroyed_partial",
    "Verif.Circ.C222_discard_counterexample"
   ],
   "note": "C222_destroyed_partial: for all histories without Discard, Clear and the destructor leave no living value in the block. False with Discard, which takes a value out of the queue without destroying it (C222_discard_counterexample)."
  }
 ]
}