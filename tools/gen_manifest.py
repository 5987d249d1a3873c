#!/usr/bin/env python3
"""Writes ../MANIFEST.json and checks that every named theorem occurs in the Lean sources."""
import json, os, re, sys
here = os.path.dirname(os.path.abspath(__file__))
C = []
def c(prop, status, theorems, note=""):
    C.append(dict(property=prop, status=status, theorems=["KTL." + t for t in theorems.split()], note=note))

c("C01", "proved", "C01_no_undefined_behaviour", "All compositions (AllocTy.WF), all histories of non-empty non-wrapping requests, all malloc behaviours. oom only after a failed malloc.")
c("C02", "proved", "C02_live_blocks_disjoint")
c("C03", "proved", "C03_blocks_aligned")
c("C04", "proved", "C04_contents_preserved")
c("C05", "proved", "C05_destruction_returns_everything")
c("C06", "proved", "C06_owns_exact C06_owns_null C06_null_allocator_owns_null")
c("C07", "partial", "C07_allocate_inside_buffer_partial C07_huge_request_succeeds C07_huge_request_succeeds'", "False for sizes near 2^64 (witnesses); proved for n + 15 + Size < 2^64 in every reachable state.")
c("C08", "proved", "C08_succeeds_iff_fits C08_linear_is_ideal", "Sizes with n + 15 + Size < 2^64; empty requests included.")
c("C09", "proved", "C09_lifo_restores_state C09_reset_when_empty C09_out_of_order_not_reclaimed", "The third theorem shows the limit: frees that are not LIFO are not reclaimed while another block is live.")
c("C18", "proved", "C18_max_size_upper_bound")
c("C19", "partial", "C19_max_size_served_partial C19_max_size_refused C19_overflow_refused", "False when Size is not a multiple of 16 (witness Size = 20), proved otherwise. False for overflow over a linear_allocator of any size.")
c("C20", "proved", "C20_corruption_report_exact C20_guards_written C20_report_iff_changed")
c("C21", "proved", "C21_no_false_alarm")
c("C22", "partial", "C22_leak_accounting_partial C22_false_leak_report", "The code counts refused requests as leaked bytes (witness); proved: the report is exactly live bytes plus refused bytes.")
c("C23", "proved", "C23_construct_accounting")
c("C10", "proved", "C10_stack_handles_share")
c("C29", "partial", "C29_ne_is_not_eq_partial C29_global_inconsistent C29_shared_null_undefined C29_eq_symm C29_eq_same C29_eq_refl", "False for global (both == and != hold) and for moved-from shared handles (null dereference); proved for everything else, at any nesting.")
c("C30", "proved", "C30_reference_transparent C30_reference_single C30_global_transparent")
c("C31", "partial", "C31_type_allocator_scales_partial C31_wraps C31_max_size", "False when n * sizeof(T) wraps (witness); proved for all histories in which it does not.")
c("C32", "proved", "C32_align_least C32_align_64 C32_align_small")
c("C33", "proved", "C33_log2_floor C33_log2_highest_bit")
c("C34", "proved", "C34_pow2_least")
c("C35", "proved", "C35_packed_ptr_returns_last")
c("C36", "proved", "C36_packed_ptr_truncates")
c("C37", "proved", "C37_builder_keeps_order C37_served_by_first C37_freed_by_owner C37_builder_well_formed")
c("C38", "proved", "C38_builder_routes C38_even_rejected C38_alloc_in_bucket C38_dealloc_in_bucket")
c("C39", "proved", "C39_fallback_depth C39_segragator_depth")
c("C11", "proved", "C11_freelist_is_lifo C11_reuses_last_freed C12_never_returns_early")
c("C12", "proved", "C12_never_returns_early C12_bounded_by_peak")
c("C13", "proved", "C13_primary_first C13_frees_reach_their_owner", "Requests of at least one byte; for empty requests see C58.")
c("C14", "proved", "C14_routes_by_size C14_blocks_return_where_they_came_from")
c("C15", "proved", "C15_frees_reach_their_instance C15_deallocate", "Requests of at least one byte; for empty requests see C58.")
c("C16", "partial", "C16_instances_partial C16_hopeless_adds C16_instances_bounded_partial C16_false", "For every underlying allocator: at most live blocks + 1 + the number of hopeless requests so far (requests within max_size that even a new instance refuses). False with hopeless requests: each one adds an instance for good, after any history (C16_hopeless_adds; witness linear_allocator<20>).")
c("C17", "partial", "C17_after_allocate_partial C17_false", "False on a new object (null dereference); proved after the first allocate.")
c("C57", "proved", "C57_exactly_one_object C57_routed_by_ownership")
c("C58", "partial", "C58_empty_requests_safe_partial C58_false_fallback C58_false_cascading", "False for fallback and cascading over an exactly full linear_allocator (witnesses); proved for compositions without these two.")
c("C59", "partial", "C59_nested_without_max_size_partial C59_false C59_crashes", "False for every inner allocator with max_size (null dereference on the first allocate); proved for inner allocators without max_size.")

c("C24", "proved", "C24_reference_counts_exact", "For every history without self copy-assignment; that case is C25.")
c("C25", "partial", "C25_self_assign_shared_partial C25_false", "False for the only handle of a block (use after delete); proved when another handle shares the block, or the handle is null.")
c("C26", "proved", "C26_atomic_shared_safe C26_use_finds_block", "Interleavings of atomic steps; no thread assigns a handle to itself.")
c("C27", "proved", "C27_threaded_is_atomic C27_no_deadlock")
c("C28", "partial", "C28_exclusive_construct_partial C28_false", "False: construct/destroy do not take the lock (lost update witness); proved if the program itself keeps them from overlapping with other calls.")

c("C40", "proved", "C40_portable_aligned_malloc C40_portable_aligned_free C40_portable_free_null")
c("C41", "partial", "C41_sixteen_bytes_partial C41_false C41_overrun", "False: posix_memalign is called with size and alignment exchanged (witnesses); proved for requests of exactly 16 bytes.")

c("C42", "proved", "C42_vector_is_sequence")
c("C43", "proved", "C43_storage_disjoint C43_no_leak_right_sizes")

c("C44", "proved", "C44_geometric_growth C44_copies_linear C44_reserve C44_no_allocation_within_capacity C44_capacity_monotone")
c("C45", "partial", "C45_room_partial C45_false", "False if the vector is full (use after free witness); proved if there is room.")
c("C46", "partial", "C46_empty_vector_partial C46_false_vector C46_false C46_empty_array_partial C46_false_array C46_empty_heap_partial C46_false_heap C46_false_heap_program", "False for every nonempty container; proved for empty ones.")
c("C47", "partial", "C47_single_bytes_partial C47_false C47_false_overflow C47_single_bytes_array_partial C47_false_array C47_false_array_overflow C47_single_bytes_heap_partial C47_false_heap C47_false_heap_overflow", "False for every element size above one; proved for elements of one byte (trivial ones for binary_heap).")
c("C49", "proved", "C49_array_is_sequence C49_no_leak_right_sizes C49_assign_from_itself_false", "assign from a range inside the array itself is excluded (undefined behaviour, witness).")

c("C48", "proved", "C42_vector_is_sequence C48_copy_to_other_allocator C49_array_is_sequence C48_copy_array_to_other_allocator C52_heap_is_bag C48_copy_heap_to_other_allocator", "Copying over the same allocator and moving are operations of the programs of C42, C49 and C52.")
c("C51", "proved", "C51_root_extremal", "In the state after any history that ends. A history does not end if memory runs out or if it pops the last element of a heap of a non-trivial type, which is undefined behaviour (C56_exact).")
c("C52", "proved", "C52_heap_is_bag", "In the state after any history that ends, as C51; the theorem says when a history does not end. Holds for any comparator.")
c("C53", "partial", "C53_popping_sorts_partial", "For trivial types down to the empty heap, for others down to one element: popping that one is undefined behaviour (C56_false).")
c("C54", "proved", "C54_insert_iterator", "In the state after any history that ends, as C51.")
c("C55", "proved", "C55_find", "In the state after any history that ends, as C51.")
c("C56", "partial", "C56_lifetimes_partial C56_exact C56_false C56_false_program", "False: pop on a heap with one element of a non-trivial type destroys it and then reads and assigns it (for every state and comparator). Proved for all other histories; C56_exact: it is the only way to violate a lifetime.")
c("C61", "partial", "C61_room_partial C61_false C61_false_program", "False if the heap is full (for every state and allocator); proved if there is room.")
c("C62", "partial", "C56_lifetimes_partial C62_false", "False for move construction with another allocator (elements of the source are never destroyed). Proved for all histories of the other operations, except those excluded in C56.")

c("C50", "proved", "C50_buffer_is_ring C50_same_element C50_self_assignment_false C50_overlong_list_false", "Excluded: self assignment (memcpy onto itself) and initializer lists longer than the buffer; the assertion against the latter is off by default (witnesses).")

c("C60", "partial", "C60_moves_partial C60_owns_partial C60_linear_target_fresh_partial C60_linear_false C60_freelist_false C60_overflow_false_report", "All programs with any number of objects of a composed type that are created, used, moved and destroyed, if the client holds no blocks of assignment targets; also move assignment of an object to itself (C87). False otherwise: move assignment to a linear allocator keeps the counter of allocated bytes; a moved freelist over memory inside the object hands out memory of the source (only an assertion); a moved-from overflow reports leaks that do not exist.")

c("C63", "proved", "C63_requests_served C63_first_request_served C63_freelist_asks_inner C63_overflow_refuses_iff C63_live_sizes C63_emptied_serves", "Which requests a composition serves is a small recursive specification (AllocTy.serves, freshServes).")

c("C64", "proved", "C64_threads_get_disjoint_blocks", "Bodies of the calls: any sequence of accesses that amounts to the call of the underlying allocator when run alone. The threads' own accesses to their blocks are not part of the machine.")

c("C65", "proved", "C65_copies_are_one C65_copies_safe C65_overflow_reports C65_uncopyable", "What the destructors of overflow copies print is excluded: each copy keeps counters of its own (witness). C65_uncopyable shows that the hypothesis copyable is needed.")

c("C66", "proved", "C66_delete_happens_last C66_create_happens_first C66_records_are_complete C66_weaker_order_fails", "Happens-before is defined from program order, the release/acquire counter operations and handing handles over. C66_weaker_order_fails: with anything weaker than acq_rel for fetch_sub the property is false.")

c("C67", "partial", "C67_null_ignored_partial C67_stack_false C67_linear_false C67_overflow_false_report", "False for linear_allocator and stack_allocator (a live block is handed out again) and for the destructor report of overflow (witnesses). Proved for all compositions in which the null pointer does not reach a linear or stack allocator. Added because a freelist without its null check survived all earlier theorems.")

c("C68", "proved", "C68_no_allocation_within_capacity C68_geometric_growth C68_reserve C68_capacity_monotone", "Bound: 4 n elements requested in total.")

c("C69", "proved", "C69_insert_logarithmic C69_pop_logarithmic", "Query complexity: the number of distinct questions to the comparator that determine the outcome; asking the same question twice counts once.")

c("C70", "proved", "C70_equal_interchangeable C70_copies_equal C70_overflow_false_report C70_unequal_overlap", "What the destructors of overflow print is excluded: its counters are not compared and do not follow the block (witness). C70_unequal_overlap: without the comparison the property is false.")

c("C71", "proved", "C71_vectors_over_shared", "Self assignment (see C25, C46) and the move constructor with an allocator (see C47) are not among the operations.")
c("C72", "partial", "C72_served_partial C72_push_false C72_reserve_false C72_resize_false C72_construct_false C72_array_resize_false C72_heap_insert_false C72_program_false", "The property is false: no container looks at the result of the allocator. Proved for every allocator and container state: a refused request makes push_back, insert, resize and reserve write through the null pointer, or leaves a container with the requested size or capacity and no memory. Without refusals the functions as they are agree with the models of the other properties.")
c("C73", "partial", "C73_owned_fixed C73_owns_while_others_allocate_partial C73_linear C73_cascading_false", "False with cascading: owns walks the list of nodes while another thread deletes one (C73_cascading_false). Missing from the partial theorem: compositions with cascading inside, construct and destroy calls in between (see C28), and answers given after a malloc failed. Its hypothesis OwnsReads is met for every composition without cascading (atomicThreaded_meets) and by the field by field accesses of linear_allocator (fineLinear_ownsReads; C73_linear is the result for these).")
c("C74", "proved", "C74_stable_within_capacity C74_growth_exact", "")
c("C75", "partial", "C75_no_assertion_fires_partial C75_only_stops C75_hopeless_stops C75_false", "false after a request that a cascade answers with an unused instance (C75_hopeless_stops, C75_false): the assertion in the destructor takes the unused instance for a leak. Proved for all other histories, with the equality of the two builds. The assertions in the move operations and in the containers are preconditions and not part of the property.")
c("C76", "partial", "C76_vector_elements_aligned_partial C76_array_elements_aligned_partial C76_heap_elements_aligned_partial C76_overaligned_false C76_buffer_false", "proved for types whose alignment divides 16 in vectors, arrays and heaps. False for types with a larger alignment (C76_overaligned_false: blocks are aligned to 16 whatever the type) and for trivial_buffer (C76_buffer_false: its storage is an array of bytes, so the class has alignment 1).")
c("C77", "partial", "C77_allocators_partial C77_global_set_partial C77_containers_partial C77_containers_unlocked C77_exceptions_get_out C77_freelist_false C77_freelist_any_false C77_overflow_false C77_owns_false C77_not_equal_false C77_overflow_construct_false C77_type_allocator_false C77_global_set_false C77_containers_allocate_false C77_containers_deallocate_false C77_heap_copies_false C77_heap_assign_false C77_heap_compare_false", "proved for allocators composed with care (C77_allocators_partial; the definition Careful lists what is asked) and for containers over allocators and elements that never throw, in particular all compositions of the library without threaded (C77_containers_unlocked). Constructors of the arrays and vectors with a size, and resize and assign of the arrays, let exceptions out (C77_exceptions_get_out). False otherwise, the library then ends the program: freelist over threaded, overflow with a throwing stream, throwing owns under fallback, != (the trait looks at ==), type_allocator's constructor, global::set_allocator, overflow::construct; containers with an allocator that throws; binary_heap with elements that throw when copied or compared.")
c("C78", "proved", "C78_threads_share_one_allocator C78_destructor_runs_alone",
  "One reference counted block; handles and calls in one interleaving machine. Assigning a handle to itself is excluded (C25). Sequentially consistent interleavings; the memory order of the counter is C66.")
c("C79", "proved", "C79_rebound_are_one C79_moved_from_stays",
  "Every step of the typed program is a step of a client of a single untyped allocator (sizes multiplied), up to the counters of overflow. Assignment of typed allocators is not modelled; requests whose size in bytes wraps are excluded (C31_wraps).")

c("C80", "proved", "C80_vectors_not_reported C80_arrays_not_reported C80_leaked_vectors_reported C80_move_with_reported",
  "overflow<u> for every composition u without another overflow inside. The three theorems are about containers of one allocator; C80_move_with_reported is a witness that a move construction with another allocator (C47) is reported although the program is in order. A program stopped because a request was refused says nothing. binary_heap: C83.")
c("C81", "proved", "C81_threads_are_isolated C81_no_leak_right_sizes C81_no_thread_is_stuck",
  "The containers are modelled once more access by access (Conc/ProgVector.lean, Conc/ProgArray.lean, Conc/ProgHeap.lean; proved equal to the sequential model when alone). A call of allocate or deallocate is one step, which C27 justifies for threaded; malloc and free are assumed thread-safe. Copies and moves of containers between threads are not included. A thread does not pop the last element of a heap of a non-trivial type (C56_false).")
c("C82", "proved", "C82_vector_loops C82_array_loops C82_heap_loops C82_buffer_loops",
  "In the state after any program that ends. The iterators are pointers; a loop that misses the end goes on. data() is begin(). trivial_buffer: for bytes, its begin and end do not compile for other types.")
c("C83", "proved", "C83_heaps_not_reported C83_leaked_heaps_reported C83_calls_change_nothing C83_move_with_reported",
  "Containers/BinaryHeapCalls.lean is binary_heap once more with construct and destroy going through the allocator. C83_calls_change_nothing relates it to the model of C51-C56 (compositions with no overflow below a cascading). C83_heaps_not_reported says ub exactly for the programs of C56_false. C83_move_with_reported is a witness that a move construction with another allocator (C47, C62) is reported although the program is in order. m_Constructs is an unbounded integer in the model.")

c("C84", "proved", "C84_threads_inside_calls C84_no_leak C84_no_deadlock C84_same_calls",
  "Conc/Body.lean gives the calls of every allocator as trees of accesses (load, store, malloc, free, print); C84_same_calls shows that a call made without interruption is the call of the model of C01-C20. Conc/Gang.lean is the machine with the mutex. The fields of the allocator objects (not the memory they point to) are read at the beginning of a call and written at its end; they are only accessed under the mutex (C27). malloc and free are single steps. Compositions with a freelist below a cascading are left out, because the destructor of the freelist, which deallocate of cascading may run, is a loop without a bound in the text.")
c("C85", "partial", "C85_pointers_in_range_partial C85_overflow_out_of_range",
  "Alloc/Pointers.lean puts the rule for pointers before every step that computes one. Proved for all compositions of linear_allocator, stack_allocator and the other classes. overflow breaks the rule: the first loop of every deallocate ends with a pointer one byte in front of the block (C85_overflow_out_of_range, for every allocator below, state, block and memory). This is the only place: with that one byte allowed (slack > 0) the theorem holds for compositions with overflow too. Pointer arithmetic of the containers: C91.")
c("C86", "proved", "C86_contents_do_not_matter",
  "All compositions, both platforms. On the portable platform aligned_free reads the pointer in front of the block; there the theorem assumes that the malloc blocks existing in the beginning do not overlap (hp).")

c("C87", "partial", "C87_self_move_partial C87_linear_false C87_linear_false_program C87_cascading_false C87_shared_false C87_vector_false C87_array_false C87_heap_false C87_shared_vector_false", "Allocators: proved when the client holds no blocks, and always for types without memory inside the object or in nodes; C60_moves_partial covers programs in which this happens any number of times. False otherwise: linear_allocator hands out its memory a second time, cascading frees the nodes under the blocks, a shared handle becomes null, containers lose their elements, and a vector over the only handle of a shared allocator runs into the defect of C25.")

c("C88", "partial", "C88_global_partial C88_exit_partial C88_linear_false C88_cascading_false", "Proved when set_allocator is called while no block of the previous global allocator is in use, with the restrictions of C60 for moving from an object. Otherwise false: linear_allocator hands out live memory again, cascading frees it.")

c("C89", "partial", "C89_survivors_partial C89_lost_partial C89_copy_false C89_list_false C89_assign_false C89_assign_alloc_false", "Proved for interrupted constructors: all heaps of the program are as if they had not been called, and what is lost is at most one array of elements for each exception. False: the array and the copied elements are lost (C89_copy_false, C89_list_false); after an interrupted copy assignment the heap assigned to is unusable (C89_assign_false, C89_assign_alloc_false). Popping the last element of a heap of a non-trivial type is excluded (C56_false). Exceptions of insert, pop and the noexcept functions end the program (C77).")
c("C90", "proved", "C90_local_allocators_are_isolated C90_no_leak_right_sizes C90_no_thread_is_stuck",
  "Conc/Local.lean gives the calls of freelist, fallback, segragator, stack_allocator, linear_allocator, null_allocator and reference, and the destructors, access by access; run without interruption they are the calls of the model (freelistL_toA and the like). The fields of a local allocator are private to the thread and not memory. A call of the shared allocator is one step, as in C81. The local allocator object lies in a block of the shared allocator. Left out: overflow, cascading and shared as local allocators, owns of the shared allocator, and requests for 0 bytes that reach it. The loop of the destructor of freelist is cut off after 2^64 rounds, which is proved not to happen.")

c("C91", "partial", "C91_vector_pointers_in_range C91_array_pointers_in_range C91_heap_pointers_in_range C91_heap_check_rejects C91_vector_no_null_partial C91_array_no_null_partial C91_copy_assign_false C91_array_copy_assign_false C91_erase_false C91_push_false",
  "Ranges: proved for vectors, arrays and heaps. Null pointers: FALSE; assigning a vector or an array that has never held anything passes the null pointer to memcpy (trivial_vector.h:187, trivial_array.h:174), as do erase(begin(), end()) and push_back of an empty range on such a vector. _partial: no other call does. Of calls in the list VOp.mayPassNull some pass null only if the allocator returns null for a request of 0 bytes. binary_heap does not use memcpy.")

c("C92", "partial", "C92_narrow_safe_partial C92_narrow_blocks_partial C92_narrow_returns_partial C92_narrow_owns_partial C92_narrow_vector_partial C92_narrow_vector_returns_partial C92_narrow_array_partial C92_narrow_array_returns_partial C92_narrow_heap_partial C92_narrow_heap_returns_partial C92_truncates C92_truncated_false C92_vector_false C92_overflow_wraps_false C92_counter_false",
  "Proved for requests that fit, with headers and guards, in the smallest size_type of the composition, for cascading over allocators with fewer blocks than size_type can count, and for programs without empty requests. FALSE otherwise: sizes are converted silently, so a larger request gets less memory (C92_truncates for every allocator and state; C92_truncated_false, C92_vector_false); overflow wraps in n + 128 (C92_overflow_wraps_false); the counter of cascading wraps and a node in use is deleted (C92_counter_false). The counter of shared, which also is a size_type, is not covered: there is one handle.")

c("C93", "partial", "C93_thrown_safe_partial C93_thrown_blocks_partial C93_thrown_returns_partial C93_thrown_owns_partial C93_thrown_reports_partial C93_cascading_constructor_false C93_shared_constructor_false C93_fallback_false C93_cascading_full_false C93_overflow_report_false",
  "holds for every composition over user allocators that throw from allocate and from constructors, if those below cascading and shared have constructors that do not throw; otherwise the memory of the node is lost (negations proved). overflow counts requests and constructor calls that throw (exact law and negation proved). fallback does not fall back and cascading does not grow if an allocator reports failure with an exception (proved)")

c("C94", "proved", "C94_doors_safe C94_doors_blocks C94_doors_no_alarm C94_doors_returns C94_doors_owns C94_inner_block_to_freelist C94_freelist_block_to_inner C94_overflow_wrong_way",
  "for every composition and every program on an allocator and the allocators get_allocator() gives access to, one thread; the last three theorems show that the rule about where a block goes back to is needed for freelist and overflow")

c("C95", "proved", "C95_no_data_race C95_every_step C95_records_honest C95_order",
  "Same machine and same compositions as C84. The order used is the happens-before of C++ restricted to what the code provides: the order within a thread and the mutex of threaded; malloc and free add nothing (in C++ they synchronize as well). Two reads count as a conflict too. The fields of the allocator objects are read when the mutex is taken and written when it is given back, as in C84. C95_every_step and C95_records_honest show that the records are complete for all turns and for all bytes that change; loads are in the records by definition.")

c("C96", "proved", "C96_around_safe C96_around_all_blocks C96_around_blocks C96_around_no_alarm C96_around_owns C96_around_returns C96_around_report C96_segragator_wrong_part C96_arena_in_use",
  "Arguments are objects of any composition that can be moved from in the state they are in (Make.Permitted; the conditions of C60: an arena must be empty, blocks of a cascading, mallocator etc. move along), or nothing (default construction of that part). Constructors that copy an argument are the same code with a copy in place of a move; arguments that are numbers are not modelled (linear and stack have none). The last two theorems show why the conditions are needed.")

c("C97", "partial", "C97_vector_swap C97_array_swap C97_heap_swap C97_shared_swap C97_allocator_swap_partial C97_linear_false", "Containers completely. Allocators: those whose blocks move along; false for linear_allocator with blocks in use (its documentation forbids moving then), witness.")

c("C98", "proved", "C98_vector_known C98_array_known C98_vectors_same C98_arrays_same C98_shared_vectors_same C98_heaps_same",
  "vknown/aknown: a function of the program alone that says which bytes are known; every run over every composition agrees with it. Programs that give all elements a value: two runs are equal. Heaps: the percolations as functions on lists, hence equal order.")

c("C99", "proved", "C99_own_comparator C99_popping_sorts C99_no_leak C99_one_comparator C99_moved_from_false",
  "KHeaps: each heap with its m_Comp; specification KBags: a comparator and a bag for each heap. C99_moved_from_false is a finding: a heap assigned from loses its comparator, a heap constructed from keeps it.")
c("C100", "proved", "C100_stops_only_when_malloc_fails C100_threads_stop_only_when_malloc_fails C100_linear_stops_only_when_full C100_stack_stops_only_when_full C100_room_known_beforehand C100_threads_room_known_beforehand",
  "The sizes a program may request and the number of its requests are computed from the program (Job.requests, Job.asks, Job.largest); which sizes an allocator serves is AllocTy.serves of C63.")
c("C101", "proved", "C101_heap_stable_within_capacity C101_heap_growth_exact", "")
c("C102", "proved", "C102_footprint_bounded_by_peak C102_any_number_of_rounds C102_vectors C102_vectors_any_number_of_rounds C102_arrays C102_heaps C102_threads C102_threads_any_number_of_rounds", "The proviso about hopeless requests is part of the property; C16_hopeless_adds shows that it is needed.")
c("C103", "proved", "C103_calls_are_short C103_mutex_is_held_briefly C103_everyone_finishes",
  "The bounds are computed from the type (AllocTy.allocCost, AllocTy.freeCost). Below a cascading, a freelist has a destructor that runs through its list, and another cascading can have piled up empty instances; deallocate has no such bound there, which is why the property excludes them.")
c("C104", "proved", "C104_deallocate_needs_no_memory C104_vectors C104_arrays C104_heaps C104_thread_ends C104_threads C104_threads_finish",
  "World.tick counts the calls of malloc. C104_heaps excludes popping the last element of a heap of a non-trivial type, which is undefined (C56). C104_threads: access by access, for allocators with AllocTy.stepwise.")

c("C105", "proved", "C105_array_exceptions C105_array_no_leak C105_vector_uncaught C105_vector_uncaught_returns C105_heap_uncaught C105_heap_uncaught_returns",
  "Programs (ArrOp of C49) over XTy (C93: compositions with any users' allocators that throw), each call with a catch: the calls that returned (did) and those that threw (threw) are an exact division of the program, with the former in order, and results and contents are those of the former alone on sequences (Seqs.ARun, C49). No leak with a ledger that turns a wrong or double deallocate, or a destructor before all is back, into undefined behaviour. Programs do not ask for empty arrays (a copy might be one). Vectors and heaps: the same programs as C42 and C52 over the allocator with std::terminate in place of the exception; that their growing functions are noexcept is C77.")

c("C106", "proved", "C106_calls C106_buffers C106_histories C106_vectors C106_arrays C106_heaps C106_no_malloc C106_threads C106_threads_no_malloc",
  "Mallocs k: at most k calls of malloc (World.tick), whether the run ends normally or for want of memory. The numbers atStart and perRequest are computed from the type. The constructor of a heap from a list counts as one request per element and one more. Threads: access by access (denoteB, which is the code for the compositions of C84_same_calls).")

json.dump({"claims": C}, open(os.path.join(here, "..", "MANIFEST.json"), "w"), indent=1)
src = ""
for d, _, fs in os.walk(os.path.join(here, "..", "lean", "Verif")):
    for f in fs:
        if f.endswith(".lean"): src += open(os.path.join(d, f)).read()
names = set(re.findall(r"^(?:theorem|def|lemma) (\S+)", src, re.M))
bad = [t for x in C for t in x["theorems"] if t.split(".", 1)[1] not in names and t.split(".")[-1] not in names]
print(len(C), "claims; missing theorems:", bad)

# Audit.lean: the build checks the axioms of every theorem of the manifest
thms = sorted({t for x in C for t in x["theorems"]})
with open(os.path.join(here, "..", "lean", "Verif", "Audit.lean"), "w") as f:
    mods = sorted("Verif.Props." + m[:-5] for m in os.listdir(os.path.join(here, "..", "lean", "Verif", "Props")) if m.endswith(".lean"))
    f.write("import Lean.Util.CollectAxioms\nimport Lean.Elab.Command\n" + "".join("import %s\n" % m for m in mods))
    f.write("\n/- Generated by tools/gen_manifest.py: the build fails if a theorem of MANIFEST.json depends on an axiom other\nthan `propext`, `Classical.choice`, `Quot.sound`. -/\n")
    f.write("open Lean Elab Command in\nrun_cmd do\n  for n in [\n" + ",\n".join("    ``" + t for t in thms) + "] do\n")
    f.write("    for a in ← collectAxioms n do\n      unless a == ``propext || a == ``Classical.choice || a == ``Quot.sound do\n        throwError m!\"{n} depends on {a}\"\n")
