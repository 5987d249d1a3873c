{
 "claims": [
  {
   "property": "C01",
   "status": "proved",
   "theorems": [
    "KTL.C01_no_undefined_behaviour"
   ],
   "note": "All compositions (AllocTy.WF), all histories of non-empty non-wrapping requests, all malloc behaviours. oom only after a failed malloc."
  },
  {
   "property": "C02",
   "status": "proved",
   "theorems": [
    "KTL.C02_live_blocks_disjoint"
   ],
   "note": ""
  },
  {
   "property": "C03",
   "status": "proved",
   "theorems": [
    "KTL.C03_blocks_aligned"
   ],
   "note": ""
  },
  {
   "property": "C04",
   "status": "proved",
   "theorems": [
    "KTL.C04_contents_preserved"
   ],
   "note": ""
  },
  {
   "property": "C05",
   "status": "proved",
   "theorems": [
    "KTL.C05_destruction_returns_everything"
   ],
   "note": ""
  },
  {
   "property": "C06",
   "status": "proved",
   "theorems": [
    "KTL.C06_owns_exact",
    "KTL.C06_owns_null",
    "KTL.C06_null_allocator_owns_null"
   ],
   "note": ""
  },
  {
   "property": "C07",
   "status": "partial",
   "theorems": [
    "KTL.C07_allocate_inside_buffer_partial",
    "KTL.C07_huge_request_succeeds",
    "KTL.C07_huge_request_succeeds'"
   ],
   "note": "False for sizes near 2^64 (witnesses); proved for n + 15 + Size < 2^64 in every reachable state."
  },
  {
   "property": "C08",
   "status": "proved",
   "theorems": [
    "KTL.C08_succeeds_iff_fits",
    "KTL.C08_linear_is_ideal"
   ],
   "note": "Sizes with n + 15 + Size < 2^64; empty requests included."
  },
  {
   "property": "C09",
   "status": "proved",
   "theorems": [
    "KTL.C09_lifo_restores_state",
    "KTL.C09_reset_when_empty",
    "KTL.C09_out_of_order_not_reclaimed"
   ],
   "note": "The third theorem shows the limit: frees that are not LIFO are not reclaimed while another block is live."
  },
  {
   "property": "C18",
   "status": "proved",
   "theorems": [
    "KTL.C18_max_size_upper_bound"
   ],
   "note": ""
  },
  {
   "property": "C19",
   "status": "partial",
   "theorems": [
    "KTL.C19_max_size_served_partial",
    "KTL.C19_max_size_refused",
    "KTL.C19_overflow_refused"
   ],
   "note": "False when Size is not a multiple of 16 (witness Size = 20), proved otherwise. False for overflow over a linear_allocator of any size."
  },
  {
   "property": "C20",
   "status": "proved",
   "theorems": [
    "KTL.C20_corruption_report_exact",
    "KTL.C20_guards_written",
    "KTL.C20_report_iff_changed"
   ],
   "note": ""
  },
  {
   "property": "C21",
   "status": "proved",
   "theorems": [
    "KTL.C21_no_false_alarm"
   ],
   "note": ""
  },
  {
   "property": "C22",
   "status": "partial",
   "theorems": [
    "KTL.C22_leak_accounting_partial",
    "KTL.C22_false_leak_report"
   ],
   "note": "The code counts refused requests as leaked bytes (witness); proved: the report is exactly live bytes plus refused bytes."
  },
  {
   "property": "C23",
   "status": "proved",
   "theorems": [
    "KTL.C23_construct_accounting"
   ],
   "note": ""
  },
  {
   "property": "C10",
   "status": "proved",
   "theorems": [
    "KTL.C10_stack_handles_share"
   ],
   "note": ""
  },
  {
   "property": "C29",
   "status": "partial",
   "theorems": [
    "KTL.C29_ne_is_not_eq_partial",
    "KTL.C29_global_inconsistent",
    "KTL.C29_shared_null_undefined",
    "KTL.C29_eq_symm",
    "KTL.C29_eq_same",
    "KTL.C29_eq_refl"
   ],
   "note": "False for global (both == and != hold) and for moved-from shared handles (null dereference); proved for everything else, at any nesting."
  },
  {
   "property": "C30",
   "status": "proved",
   "theorems": [
    "KTL.C30_reference_transparent",
    "KTL.C30_reference_single",
    "KTL.C30_global_transparent"
   ],
   "note": ""
  },
  {
   "property": "C31",
   "status": "partial",
   "theorems": [
    "KTL.C31_type_allocator_scales_partial",
    "KTL.C31_wraps",
    "KTL.C31_max_size"
   ],
   "note": "False when n * sizeof(T) wraps (witness); proved for all histories in which it does not."
  },
  {
   "property": "C32",
   "status": "proved",
   "theorems": [
    "KTL.C32_align_least",
    "KTL.C32_align_64",
    "KTL.C32_align_small"
   ],
   "note": ""
  },
  {
   "property": "C33",
   "status": "proved",
   "theorems": [
    "KTL.C33_log2_floor",
    "KTL.C33_log2_highest_bit"
   ],
   "note": ""
  },
  {
   "property": "C34",
   "status": "proved",
   "theorems": [
    "KTL.C34_pow2_least"
   ],
   "note": ""
  },
  {
   "property": "C35",
   "status": "proved",
   "theorems": [
    "KTL.C35_packed_ptr_returns_last"
   ],
   "note": ""
  },
  {
   "property": "C36",
   "status": "proved",
   "theorems": [
    "KTL.C36_packed_ptr_truncates"
   ],
   "note": ""
  },
  {
   "property": "C37",
   "status": "proved",
   "theorems": [
    "KTL.C37_builder_keeps_order",
    "KTL.C37_served_by_first",
    "KTL.C37_freed_by_owner",
    "KTL.C37_builder_well_formed"
   ],
   "note": ""
  },
  {
   "property": "C38",
   "status": "proved",
   "theorems": [
    "KTL.C38_builder_routes",
    "KTL.C38_even_rejected",
    "KTL.C38_alloc_in_bucket",
    "KTL.C38_dealloc_in_bucket"
   ],
   "note": ""
  },
  {
   "property": "C39",
   "status": "proved",
   "theorems": [
    "KTL.C39_fallback_depth",
    "KTL.C39_segragator_depth"
   ],
   "note": ""
  },
  {
   "property": "C11",
   "status": "proved",
   "theorems": [
    "KTL.C11_freelist_is_lifo",
    "KTL.C11_reuses_last_freed",
    "KTL.C12_never_returns_early"
   ],
   "note": ""
  },
  {
   "property": "C12",
   "status": "proved",
   "theorems": [
    "KTL.C12_never_returns_early",
    "KTL.C12_bounded_by_peak"
   ],
   "note": ""
  },
  {
   "property": "C13",
   "status": "proved",
   "theorems": [
    "KTL.C13_primary_first",
    "KTL.C13_frees_reach_their_owner"
   ],
   "note": "Requests of at least one byte; for empty requests see C58."
  },
  {
   "property": "C14",
   "status": "proved",
   "theorems": [
    "KTL.C14_routes_by_size",
    "KTL.C14_blocks_return_where_they_came_from"
   ],
   "note": ""
  },
  {
   "property": "C15",
   "status": "proved",
   "theorems": [
    "KTL.C15_frees_reach_their_instance",
    "KTL.C15_deallocate"
   ],
   "note": "Requests of at least one byte; for empty requests see C58."
  },
  {
   "property": "C16",
   "status": "partial",
   "theorems": [
    "KTL.C16_instances_partial",
    "KTL.C16_hopeless_adds",
    "KTL.C16_instances_bounded_partial",
    "KTL.C16_false"
   ],
   "note": "For every underlying allocator: at most live blocks + 1 + the number of hopeless requests so far (requests within max_size that even a new instance refuses). False with hopeless requests: each one adds an instance for good, after any history (C16_hopeless_adds; witness linear_allocator<20>)."
  },
  {
   "property": "C17",
   "status": "partial",
   "theorems": [
    "KTL.C17_after_allocate_partial",
    "KTL.C17_false"
   ],
   "note": "False on a new object (null dereference); proved after the first allocate."
  },
  {
   "property": "C57",
   "status": "proved",
   "theorems": [
    "KTL.C57_exactly_one_object",
    "KTL.C57_routed_by_ownership"
   ],
   "note": ""
  },
  {
   "property": "C58",
   "status": "partial",
   "theorems": [
    "KTL.C58_empty_requests_safe_partial",
    "KTL.C58_false_fallback",
    "KTL.C58_false_cascading"
   ],
   "note": "False for fallback and cascading over an exactly full linear_allocator (witnesses); proved for compositions without these two."
  },
  {
   "property": "C59",
   "status": "partial",
   "theorems": [
    "KTL.C59_nested_without_max_size_partial",
    "KTL.C59_false",
    "KTL.C59_crashes"
   ],
   "note": "False for every inner allocator with max_size (null dereference on the first allocate); proved for inner allocators without max_size."
  },
  {
   "property": "C24",
   "status": "proved",
   "theorems": [
    "KTL.C24_reference_counts_exact"
   ],
   "note": "For every history without self copy-assignment; that case is C25."
  },
  {
   "property": "C25",
   "status": "partial",
   "theorems": [
    "KTL.C25_self_assign_shared_partial",
    "KTL.C25_false"
   ],
   "note": "False for the only handle of a block (use after delete); proved when another handle shares the block, or the handle is null."
  },
  {
   "property": "C26",
   "status": "proved",
   "theorems": [
    "KTL.C26_atomic_shared_safe",
    "KTL.C26_use_finds_block"
   ],
   "note": "Interleavings of atomic steps; no thread assigns a handle to itself."
  },
  {
   "property": "C27",
   "status": "proved",
   "theorems": [
    "KTL.C27_threaded_is_atomic",
    "KTL.C27_no_deadlock"
   ],
   "note": ""
  },
  {
   "property": "C28",
   "status": "partial",
   "theorems": [
    "KTL.C28_exclusive_construct_partial",
    "KTL.C28_false"
   ],
   "note": "False: construct/destroy do not take the lock (lost update witness); proved if the program itself keeps them from overlapping with other calls."
  },
  {
   "property": "C40",
   "status": "proved",
   "theorems": [
    "KTL.C40_portable_aligned_malloc",
    "KTL.C40_portable_aligned_free",
    "KTL.C40_portable_free_null"
   ],
   "note": ""
  },
  {
   "property": "C41",
   "status": "partial",
   "theorems": [
    "KTL.C41_sixteen_bytes_partial",
    "KTL.C41_false",
    "KTL.C41_overrun"
   ],
   "note": "False: posix_memalign is called with size and alignment exchanged (witnesses); proved for requests of exactly 16 bytes."
  },
  {
   "property": "C42",
   "status": "proved",
   "theorems": [
    "KTL.C42_vector_is_sequence"
   ],
   "note": ""
  },
  {
   "property": "C43",
   "status": "proved",
   "theorems": [
    "KTL.C43_storage_disjoint",
    "KTL.C43_no_leak_right_sizes"
   ],
   "note": ""
  },
  {
   "property": "C44",
   "status": "proved",
   "theorems": [
    "KTL.C44_geometric_growth",
    "KTL.C44_copies_linear",
    "KTL.C44_reserve",
    "KTL.C44_no_allocation_within_capacity",
    "KTL.C44_capacity_monotone"
   ],
   "note": ""
  },
  {
   "property": "C45",
   "status": "partial",
   "theorems": [
    "KTL.C45_room_partial",
    "KTL.C45_false"
   ],
   "note": "False if the vector is full (use after free witness); proved if there is room."
  },
  {
   "property": "C46",
   "status": "partial",
   "theorems": [
    "KTL.C46_empty_vector_partial",
    "KTL.C46_false_vector",
    "KTL.C46_false",
    "KTL.C46_empty_array_partial",
    "KTL.C46_false_array",
    "KTL.C46_empty_heap_partial",
    "KTL.C46_false_heap",
    "KTL.C46_false_heap_program"
   ],
   "note": "False for every nonempty container; proved for empty ones."
  },
  {
   "property": "C47",
   "status": "partial",
   "theorems": [
    "KTL.C47_single_bytes_partial",
    "KTL.C47_false",
    "KTL.C47_false_overflow",
    "KTL.C47_single_bytes_array_partial",
    "KTL.C47_false_array",
    "KTL.C47_false_array_overflow",
    "KTL.C47_single_bytes_heap_partial",
    "KTL.C47_false_heap",
    "KTL.C47_false_heap_overflow"
   ],
   "note": "False for every element size above one; proved for elements of one byte (trivial ones for binary_heap)."
  },
  {
   "property": "C49",
   "status": "proved",
   "theorems": [
    "KTL.C49_array_is_sequence",
    "KTL.C49_no_leak_right_sizes",
    "KTL.C49_assign_from_itself_false"
   ],
   "note": "assign from a range inside the array itself is excluded (undefined behaviour, witness)."
  },
  {
   "property": "C48",
   "status": "proved",
   "theorems": [
    "KTL.C42_vector_is_sequence",
    "KTL.C48_copy_to_other_allocator",
    "KTL.C49_array_is_sequence",
    "KTL.C48_copy_array_to_other_allocator",
    "KTL.C52_heap_is_bag",
    "KTL.C48_copy_heap_to_other_allocator"
   ],
   "note": "Copying over the same allocator and moving are operations of the programs of C42, C49 and C52."
  },
  {
   "property": "C51",
   "status": "proved",
   "theorems": [
    "KTL.C51_root_extremal"
   ],
   "note": "In the state after any history that ends. A history does not end if memory runs out or if it pops the last element of a heap of a non-trivial type, which is undefined behaviour (C56_exact)."
  },
  {
   "property": "C52",
   "status": "proved",
   "theorems": [
    "KTL.C52_heap_is_bag"
   ],
   "note": "In the state after any history that ends, as C51; the theorem says when a history does not end. Holds for any comparator."
  },
  {
   "property": "C53",
   "status": "partial",
   "theorems": [
    "KTL.C53_popping_sorts_partial"
   ],
   "note": "For trivial types down to the empty heap, for others down to one element: popping that one is undefined behaviour (C56_false)."
  },
  {
   "property": "C54",
   "status": "proved",
   "theorems": [
    "KTL.C54_insert_iterator"
   ],
   "note": "In the state after any history that ends, as C51."
  },
  {
   "property": "C55",
   "status": "proved",
   "theorems": [
    "KTL.C55_find"
   ],
   "note": "In the state after any history that ends, as C51."
  },
  {
   "property": "C56",
   "status": "partial",
   "theorems": [
    "KTL.C56_lifetimes_partial",
    "KTL.C56_exact",
    "KTL.C56_false",
    "KTL.C56_false_program"
   ],
   "note": "False: pop on a heap with one element of a non-trivial type destroys it and then reads and assigns it (for every state and comparator). Proved for all other histories; C56_exact: it is the only way to violate a lifetime."
  },
  {
   "property": "C61",
   "status": "partial",
   "theorems": [
    "KTL.C61_room_partial",
    "KTL.C61_false",
    "KTL.C61_false_program"
   ],
   "note": "False if the heap is full (for every state and allocator); proved if there is room."
  },
  {
   "property": "C62",
   "status": "partial",
   "theorems": [
    "KTL.C56_lifetimes_partial",
    "KTL.C62_false"
   ],
   "note": "False for move construction with another allocator (elements of the source are never destroyed). Proved for all histories of the other operations, except those excluded in C56."
  },
  {
   "property": "C50",
   "status": "proved",
   "theorems": [
    "KTL.C50_buffer_is_ring",
    "KTL.C50_same_element",
    "KTL.C50_self_assignment_false",
    "KTL.C50_overlong_list_false"
   ],
   "note": "Excluded: self assignment (memcpy onto itself) and initializer lists longer than the buffer; the assertion against the latter is off by default (witnesses)."
  },
  {
   "property": "C60",
   "status": "partial",
   "theorems": [
    "KTL.C60_moves_partial",
    "KTL.C60_owns_partial",
    "KTL.C60_linear_target_fresh_partial",
    "KTL.C60_linear_false",
    "KTL.C60_freelist_false",
    "KTL.C60_overflow_false_report"
   ],
   "note": "All programs with any number of objects of a composed type that are created, used, moved and destroyed, if the client holds no blocks of assignment targets; also move assignment of an object to itself (C87). False otherwise: move assignment to a linear allocator keeps the counter of allocated bytes; a moved freelist over memory inside the object hands out memory of the source (only an assertion); a moved-from overflow reports leaks that do not exist."
  },
  {
   "property": "C63",
   "status": "proved",
   "theorems": [
    "KTL.C63_requests_served",
    "KTL.C63_first_request_served",
    "KTL.C63_freelist_asks_inner",
    "KTL.C63_overflow_refuses_iff",
    "KTL.C63_live_sizes",
    "KTL.C63_emptied_serves"
   ],
   "note": "Which requests a composition serves is a small recursive specification (AllocTy.serves, freshServes)."
  },
  {
   "property": "C64",
   "status": "proved",
   "theorems": [
    "KTL.C64_threads_get_disjoint_blocks"
   ],
   "note": "Bodies of the calls: any sequence of accesses that amounts to the call of the underlying allocator when run alone. The threads' own accesses to their blocks are not part of the machine."
  },
  {
   "property": "C65",
   "status": "proved",
   "theorems": [
    "KTL.C65_copies_are_one",
    "KTL.C65_copies_safe",
    "KTL.C65_overflow_reports",
    "KTL.C65_uncopyable"
   ],
   "note": "What the destructors of overflow copies print is excluded: each copy keeps counters of its own (witness). C65_uncopyable shows that the hypothesis copyable is needed."
  },
  {
   "property": "C66",
   "status": "proved",
   "theorems": [
    "KTL.C66_delete_happens_last",
    "KTL.C66_create_happens_first",
    "KTL.C66_records_are_complete",
    "KTL.C66_weaker_order_fails"
   ],
   "note": "Happens-before is defined from program order, the release/acquire counter operations and handing handles over. C66_weaker_order_fails: with anything weaker than acq_rel for fetch_sub the property is false."
  },
  {
   "property": "C67",
   "status": "partial",
   "theorems": [
    "KTL.C67_null_ignored_partial",
    "KTL.C67_stack_false",
    "KTL.C67_linear_false",
    "KTL.C67_overflow_false_report"
   ],
   "note": "False for linear_allocator and stack_allocator (a live block is handed out again) and for the destructor report of overflow (witnesses). Proved for all compositions in which the null pointer does not reach a linear or stack allocator. Added because a freelist without its null check survived all earlier theorems."
  },
  {
   "property": "C68",
   "status": "proved",
   "theorems": [
    "KTL.C68_no_allocation_within_capacity",
    "KTL.C68_geometric_growth",
    "KTL.C68_reserve",
    "KTL.C68_capacity_monotone"
   ],
   "note": "Bound: 4 n elements requested in total."
  },
  {
   "property": "C69",
   "status": "proved",
   "theorems": [
    "KTL.C69_insert_logarithmic",
    "KTL.C69_pop_logarithmic"
   ],
   "note": "Query complexity: the number of distinct questions to the comparator that determine the outcome; asking the same question twice counts once."
  },
  {
   "property": "C70",
   "status": "proved",
   "theorems": [
    "KTL.C70_equal_interchangeable",
    "KTL.C70_copies_equal",
    "KTL.C70_overflow_false_report",
    "KTL.C70_unequal_overlap"
   ],
   "note": "What the destructors of overflow print is excluded: its counters are not compared and do not follow the block (witness). C70_unequal_overlap: without the comparison the property is false."
  },
  {
   "property": "C71",
   "status": "proved",
   "theorems": [
    "KTL.C71_vectors_over_shared"
   ],
   "note": "Self assignment (see C25, C46) and the move constructor with an allocator (see C47) are not among the operations."
  },
  {
   "property": "C72",
   "status": "partial",
   "theorems": [
    "KTL.C72_served_partial",
    "KTL.C72_push_false",
    "KTL.C72_reserve_false",
    "KTL.C72_resize_false",
    "KTL.C72_construct_false",
    "KTL.C72_array_resize_false",
    "KTL.C72_heap_insert_false",
    "KTL.C72_program_false"
   ],
   "note": "The property is false: no container looks at the result of the allocator. Proved for every allocator and container state: a refused request makes push_back, insert, resize and reserve write through the null pointer, or leaves a container with the requested size or capacity and no memory. Without refusals the functions as they are agree with the models of the other properties."
  },
  {
   "property": "C73",
   "status": "partial",
   "theorems": [
    "KTL.C73_owned_fixed",
    "KTL.C73_owns_while_others_allocate_partial",
    "KTL.C73_linear",
    "KTL.C73_cascading_false"
   ],
   "note": "False with cascading: owns walks the list of nodes while another thread deletes one (C73_cascading_false). Missing from the partial theorem: compositions with cascading inside, construct and destroy calls in between (see C28), and answers given after a malloc failed. Its hypothesis OwnsReads is met for every composition without cascading (atomicThreaded_meets) and by the field by field accesses of linear_allocator (fineLinear_ownsReads; C73_linear is the result for these)."
  },
  {
   "property": "C74",
   "status": "proved",
   "theorems": [
    "KTL.C74_stable_within_capacity",
    "KTL.C74_growth_exact"
   ],
   "note": ""
  },
  {
   "property": "C75",
   "status": "partial",
   "theorems": [
    "KTL.C75_no_assertion_fires_partial",
    "KTL.C75_only_stops",
    "KTL.C75_hopeless_stops",
    "KTL.C75_false"
   ],
   "note": "false after a request that a cascade answers with an unused instance (C75_hopeless_stops, C75_false): the assertion in the destructor takes the unused instance for a leak. Proved for all other histories, with the equality of the two builds. The assertions in the move operations and in the containers are preconditions and not part of the property."
  },
  {
   "property": "C76",
   "status": "partial",
   "theorems": [
    "KTL.C76_vector_elements_aligned_partial",
    "KTL.C76_array_elements_aligned_partial",
    "KTL.C76_heap_elements_aligned_partial",
    "KTL.C76_overaligned_false",
    "KTL.C76_buffer_false"
   ],
   "note": "proved for types whose alignment divides 16 in vectors, arrays and heaps. False for types with a larger alignment (C76_overaligned_false: blocks are aligned to 16 whatever the type) and for trivial_buffer (C76_buffer_false: its storage is an array of bytes, so the class has alignment 1)."
  },
  {
   "property": "C77",
   "status": "partial",
   "theorems": [
    "KTL.C77_allocators_partial",
    "KTL.C77_global_set_partial",
    "KTL.C77_containers_partial",
    "KTL.C77_containers_unlocked",
    "KTL.C77_exceptions_get_out",
    "KTL.C77_freelist_false",
    "KTL.C77_freelist_any_false",
    "KTL.C77_overflow_false",
    "KTL.C77_owns_false",
    "KTL.C77_not_equal_false",
    "KTL.C77_overflow_construct_false",
    "KTL.C77_type_allocator_false",
    "KTL.C77_global_set_false",
    "KTL.C77_containers_allocate_false",
    "KTL.C77_containers_deallocate_false",
    "KTL.C77_heap_copies_false",
    "KTL.C77_heap_assign_false",
    "KTL.C77_heap_compare_false"
   ],
   "note": "proved for allocators composed with care (C77_allocators_partial; the definition Careful lists what is asked) and for containers over allocators and elements that never throw, in particular all compositions of the library without threaded (C77_containers_unlocked). Constructors of the arrays and vectors with a size, and resize and assign of the arrays, let exceptions out (C77_exceptions_get_out). False otherwise, the library then ends the program: freelist over threaded, overflow with a throwing stream, throwing owns under fallback, != (the trait looks at ==), type_allocator's constructor, global::set_allocator, overflow::construct; containers with an allocator that throws; binary_heap with elements that throw when copied or compared."
  },
  {
   "property": "C78",
   "status": "proved",
   "theorems": [
    "KTL.C78_threads_share_one_allocator",
    "KTL.C78_destructor_runs_alone"
   ],
   "note": "One reference counted block; handles and calls in one interleaving machine. Assigning a handle to itself is excluded (C25). Sequentially consistent interleavings; the memory order of the counter is C66."
  },
  {
   "property": "C79",
   "status": "proved",
   "theorems": [
    "KTL.C79_rebound_are_one",
    "KTL.C79_moved_from_stays"
   ],
   "note": "Every step of the typed program is a step of a client of a single untyped allocator (sizes multiplied), up to the counters of overflow. Assignment of typed allocators is not modelled; requests whose size in bytes wraps are excluded (C31_wraps)."
  },
  {
   "property": "C80",
   "status": "proved",
   "theorems": [
    "KTL.C80_vectors_not_reported",
    "KTL.C80_arrays_not_reported",
    "KTL.C80_leaked_vectors_reported",
    "KTL.C80_move_with_reported"
   ],
   "note": "overflow<u> for every composition u without another overflow inside. The three theorems are about containers of one allocator; C80_move_with_reported is a witness that a move construction with another allocator (C47) is reported although the program is in order. A program stopped because a request was refused says nothing. binary_heap: C83."
  },
  {
   "property": "C81",
   "status": "proved",
   "theorems": [
    "KTL.C81_threads_are_isolated",
    "KTL.C81_no_leak_right_sizes",
    "KTL.C81_no_thread_is_stuck"
   ],
   "note": "The containers are modelled once more access by access (Conc/ProgVector.lean, Conc/ProgArray.lean, Conc/ProgHeap.lean; proved equal to the sequential model when alone). A call of allocate or deallocate is one step, which C27 justifies for threaded; malloc and free are assumed thread-safe. Copies and moves of containers between threads are not included. A thread does not pop the last element of a heap of a non-trivial type (C56_false)."
  },
  {
   "property": "C82",
   "status": "proved",
   "theorems": [
    "KTL.C82_vector_loops",
    "KTL.C82_array_loops",
    "KTL.C82_heap_loops",
    "KTL.C82_buffer_loops"
   ],
   "note": "In the state after any program that ends. The iterators are pointers; a loop that misses the end goes on. data() is begin(). trivial_buffer: for bytes, its begin and end do not compile for other types."
  },
  {
   "property": "C83",
   "status": "proved",
   "theorems": [
    "KTL.C83_heaps_not_reported",
    "KTL.C83_leaked_heaps_reported",
    "KTL.C83_calls_change_nothing",
    "KTL.C83_move_with_reported"
   ],
   "note": "Containers/BinaryHeapCalls.lean is binary_heap once more with construct and destroy going through the allocator. C83_calls_change_nothing relates it to the model of C51-C56 (compositions with no overflow below a cascading). C83_heaps_not_reported says ub exactly for the programs of C56_false. C83_move_with_reported is a witness that a move construction with another allocator (C47, C62) is reported although the program is in order. m_Constructs is an unbounded integer in the model."
  },
  {
   "property": "C84",
   "status": "proved",
   "theorems": [
    "KTL.C84_threads_inside_calls",
    "KTL.C84_no_leak",
    "KTL.C84_no_deadlock",
    "KTL.C84_same_calls"
   ],
   "note": "Conc/Body.lean gives the calls of every allocator as trees of accesses (load, store, malloc, free, print); C84_same_calls shows that a call made without interruption is the call of the model of C01-C20. Conc/Gang.lean is the machine with the mutex. The fields of the allocator objects (not the memory they point to) are read at the beginning of a call and written at its end; they are only accessed under the mutex (C27). malloc and free are single steps. Compositions with a freelist below a cascading are left out, because the destructor of the freelist, which deallocate of cascading may run, is a loop without a bound in the text."
  },
  {
   "property": "C85",
   "status": "partial",
   "theorems": [
    "KTL.C85_pointers_in_range_partial",
    "KTL.C85_overflow_out_of_range"
   ],
   "note": "Alloc/Pointers.lean puts the rule for pointers before every step that computes one. Proved for all compositions of linear_allocator, stack_allocator and the other classes. overflow breaks the rule: the first loop of every deallocate ends with a pointer one byte in front of the block (C85_overflow_out_of_range, for every allocator below, state, block and memory). This is the only place: with that one byte allowed (slack > 0) the theorem holds for compositions with overflow too. Pointer arithmetic of the containers: C91."
  },
  {
   "property": "C86",
   "status": "proved",
   "theorems": [
    "KTL.C86_contents_do_not_matter"
   ],
   "note": "All compositions, both platforms. On the portable platform aligned_free reads the pointer in front of the block; there the theorem assumes that the malloc blocks existing in the beginning do not overlap (hp)."
  },
  {
   "property": "C87",
   "status": "partial",
   "theorems": [
    "KTL.C87_self_move_partial",
    "KTL.C87_linear_false",
    "KTL.C87_linear_false_program",
    "KTL.C87_cascading_false",
    "KTL.C87_shared_false",
    "KTL.C87_vector_false",
    "KTL.C87_array_false",
    "KTL.C87_heap_false",
    "KTL.C87_shared_vector_false"
   ],
   "note": "Allocators: proved when the client holds no blocks, and always for types without memory inside the object or in nodes; C60_moves_partial covers programs in which this happens any number of times. False otherwise: linear_allocator hands out its memory a second time, cascading frees the nodes under the blocks, a shared handle becomes null, containers lose their elements, and a vector over the only handle of a shared allocator runs into the defect of C25."
  },
  {
   "property": "C88",
   "status": "partial",
   "theorems": [
    "KTL.C88_global_partial",
    "KTL.C88_exit_partial",
    "KTL.C88_linear_false",
    "KTL.C88_cascading_false"
   ],
   "note": "Proved when set_allocator is called while no block of the previous global allocator is in use, with the restrictions of C60 for moving from an object. Otherwise false: linear_allocator hands out live memory again, cascading frees it."
  },
  {
   "property": "C89",
   "status": "partial",
   "theorems": [
    "KTL.C89_survivors_partial",
    "KTL.C89_lost_partial",
    "KTL.C89_copy_false",
    "KTL.C89_list_false",
    "KTL.C89_assign_false",
    "KTL.C89_assign_alloc_false"
   ],
   "note": "Proved for interrupted constructors: all heaps of the program are as if they had not been called, and what is lost is at most one array of elements for each exception. False: the array and the copied elements are lost (C89_copy_false, C89_list_false); after an interrupted copy assignment the heap assigned to is unusable (C89_assign_false, C89_assign_alloc_false). Popping the last element of a heap of a non-trivial type is excluded (C56_false). Exceptions of insert, pop and the noexcept functions end the program (C77)."
  },
  {
   "property": "C90",
   "status": "proved",
   "theorems": [
    "KTL.C90_local_allocators_are_isolated",
    "KTL.C90_no_leak_right_sizes",
    "KTL.C90_no_thread_is_stuck"
   ],
   "note": "Conc/Local.lean gives the calls of freelist, fallback, segragator, stack_allocator, linear_allocator, null_allocator and reference, and the destructors, access by access; run without interruption they are the calls of the model (freelistL_toA and the like). The fields of a local allocator are private to the thread and not memory. A call of the shared allocator is one step, as in C81. The local allocator object lies in a block of the shared allocator. Left out: overflow, cascading and shared as local allocators, owns of the shared allocator, and requests for 0 bytes that reach it. The loop of the destructor of freelist is cut off after 2^64 rounds, which is proved not to happen."
  },
  {
   "property": "C91",
   "status": "partial",
   "theorems": [
    "KTL.C91_vector_pointers_in_range",
    "KTL.C91_array_pointers_in_range",
    "KTL.C91_heap_pointers_in_range",
    "KTL.C91_heap_check_rejects",
    "KTL.C91_vector_no_null_partial",
    "KTL.C91_array_no_null_partial",
    "KTL.C91_copy_assign_false",
    "KTL.C91_array_copy_assign_false",
    "KTL.C91_erase_false",
    "KTL.C91_push_false"
   ],
   "note": "Ranges: proved for vectors, arrays and heaps. Null pointers: FALSE; assigning a vector or an array that has never held anything passes the null pointer to memcpy (trivial_vector.h:187, trivial_array.h:174), as do erase(begin(), end()) and push_back of an empty range on such a vector. _partial: no other call does. Of calls in the list VOp.mayPassNull some pass null only if the allocator returns null for a request of 0 bytes. binary_heap does not use memcpy."
  },
  {
   "property": "C92",
   "status": "partial",
   "theorems": [
    "KTL.C92_narrow_safe_partial",
    "KTL.C92_narrow_blocks_partial",
    "KTL.C92_narrow_returns_partial",
    "KTL.C92_narrow_owns_partial",
    "KTL.C92_narrow_vector_partial",
    "KTL.C92_narrow_vector_returns_partial",
    "KTL.C92_narrow_array_partial",
    "KTL.C92_narrow_array_returns_partial",
    "KTL.C92_narrow_heap_partial",
    "KTL.C92_narrow_heap_returns_partial",
    "KTL.C92_truncates",
    "KTL.C92_truncated_false",
    "KTL.C92_vector_false",
    "KTL.C92_overflow_wraps_false",
    "KTL.C92_counter_false"
   ],
   "note": "Proved for requests that fit, with headers and guards, in the smallest size_type of the composition, for cascading over allocators with fewer blocks than size_type can count, and for programs without empty requests. FALSE otherwise: sizes are converted silently, so a larger request gets less memory (C92_truncates for every allocator and state; C92_truncated_false, C92_vector_false); overflow wraps in n + 128 (C92_overflow_wraps_false); the counter of cascading wraps and a node in use is deleted (C92_counter_false). The counter of shared, which also is a size_type, is not covered: there is one handle."
  },
  {
   "property": "C93",
   "status": "partial",
   "theorems": [
    "KTL.C93_thrown_safe_partial",
    "KTL.C93_thrown_blocks_partial",
    "KTL.C93_thrown_returns_partial",
    "KTL.C93_thrown_owns_partial",
    "KTL.C93_thrown_reports_partial",
    "KTL.C93_cascading_constructor_false",
    "KTL.C93_shared_constructor_false",
    "KTL.C93_fallback_false",
    "KTL.C93_cascading_full_false",
    "KTL.C93_overflow_report_false"
   ],
   "note": "holds for every composition over user allocators that throw from allocate and from constructors, if those below cascading and shared have constructors that do not throw; otherwise the memory of the node is lost (negations proved). overflow counts requests and constructor calls that throw (exact law and negation proved). fallback does not fall back and cascading does not grow if an allocator reports failure with an exception (proved)"
  },
  {
   "property": "C94",
   "status": "proved",
   "theorems": [
    "KTL.C94_doors_safe",
    "KTL.C94_doors_blocks",
    "KTL.C94_doors_no_alarm",
    "KTL.C94_doors_returns",
    "KTL.C94_doors_owns",
    "KTL.C94_inner_block_to_freelist",
    "KTL.C94_freelist_block_to_inner",
    "KTL.C94_overflow_wrong_way"
   ],
   "note": "for every composition and every program on an allocator and the allocators get_allocator() gives access to, one thread; the last three theorems show that the rule about where a block goes back to is needed for freelist and overflow"
  },
  {
   "property": "C95",
   "status": "proved",
   "theorems": [
    "KTL.C95_no_data_race",
    "KTL.C95_every_step",
    "KTL.C95_records_honest",
    "KTL.C95_order"
   ],
   "note": "Same machine and same compositions as C84. The order used is the happens-before of C++ restricted to what the code provides: the order within a thread and the mutex of threaded; malloc and free add nothing (in C++ they synchronize as well). Two reads count as a conflict too. The fields of the allocator objects are read when the mutex is taken and written when it is given back, as in C84. C95_every_step and C95_records_honest show that the records are complete for all turns and for all bytes that change; loads are in the records by definition."
  },
  {
   "property": "C96",
   "status": "proved",
   "theorems": [
    "KTL.C96_around_safe",
    "KTL.C96_around_all_blocks",
    "KTL.C96_around_blocks",
    "KTL.C96_around_no_alarm",
    "KTL.C96_around_owns",
    "KTL.C96_around_returns",
    "KTL.C96_around_report",
    "KTL.C96_segragator_wrong_part",
    "KTL.C96_arena_in_use"
   ],
   "note": "Arguments are objects of any composition that can be moved from in the state they are in (Make.Permitted; the conditions of C60: an arena must be empty, blocks of a cascading, mallocator etc. move along), or nothing (default construction of that part). Constructors that copy an argument are the same code with a copy in place of a move; arguments that are numbers are not modelled (linear and stack have none). The last two theorems show why the conditions are needed."
  },
  {
   "property": "C97",
   "status": "partial",
   "theorems": [
    "KTL.C97_vector_swap",
    "KTL.C97_array_swap",
    "KTL.C97_heap_swap",
    "KTL.C97_shared_swap",
    "KTL.C97_allocator_swap_partial",
    "KTL.C97_linear_false"
   ],
   "note": "Containers completely. Allocators: those whose blocks move along; false for linear_allocator with blocks in use (its documentation forbids moving then), witness."
  },
  {
   "property": "C98",
   "status": "proved",
   "theorems": [
    "KTL.C98_vector_known",
    "KTL.C98_array_known",
    "KTL.C98_vectors_same",
    "KTL.C98_arrays_same",
    "KTL.C98_shared_vectors_same",
    "KTL.C98_heaps_same"
   ],
   "note": "vknown/aknown: a function of the program alone that says which bytes are known; every run over every composition agrees with it. Programs that give all elements a value: two runs are equal. Heaps: the percolations as functions on lists, hence equal order."
  },
  {
   "property": "C99",
   "status": "proved",
   "theorems": [
    "KTL.C99_own_comparator",
    "KTL.C99_popping_sorts",
    "KTL.C99_no_leak",
    "KTL.C99_one_comparator",
    "KTL.C99_moved_from_false"
   ],
   "note": "KHeaps: each heap with its m_Comp; specification KBags: a comparator and a bag for each heap. C99_moved_from_false is a finding: a heap assigned from loses its comparator, a heap constructed from keeps it."
  },
  {
   "property": "C100",
   "status": "proved",
   "theorems": [
    "KTL.C100_stops_only_when_malloc_fails",
    "KTL.C100_threads_stop_only_when_malloc_fails",
    "KTL.C100_linear_stops_only_when_full",
    "KTL.C100_stack_stops_only_when_full",
    "KTL.C100_room_known_beforehand",
    "KTL.C100_threads_room_known_beforehand"
   ],
   "note": "The sizes a program may request and the number of its requests are computed from the program (Job.requests, Job.asks, Job.largest); which sizes an allocator serves is AllocTy.serves of C63."
  },
  {
   "property": "C101",
   "status": "proved",
   "theorems": [
    "KTL.C101_heap_stable_within_capacity",
    "KTL.C101_heap_growth_exact"
   ],
   "note": ""
  },
  {
   "property": "C102",
   "status": "proved",
   "theorems": [
    "KTL.C102_footprint_bounded_by_peak",
    "KTL.C102_any_number_of_rounds",
    "KTL.C102_vectors",
    "KTL.C102_vectors_any_number_of_rounds",
    "KTL.C102_arrays",
    "KTL.C102_heaps",
    "KTL.C102_threads",
    "KTL.C102_threads_any_number_of_rounds"
   ],
   "note": "The proviso about hopeless requests is part of the property; C16_hopeless_adds shows that it is needed."
  },
  {
   "property": "C103",
   "status": "proved",
   "theorems": [
    "KTL.C103_calls_are_short",
    "KTL.C103_mutex_is_held_briefly",
    "KTL.C103_everyone_finishes"
   ],
   "note": "The bounds are computed from the type (AllocTy.allocCost, AllocTy.freeCost). Below a cascading, a freelist has a destructor that runs through its list, and another cascading can have piled up empty instances; deallocate has no such bound there, which is why the property excludes them."
  },
  {
   "property": "C104",
   "status": "proved",
   "theorems": [
    "KTL.C104_deallocate_needs_no_memory",
    "KTL.C104_vectors",
    "KTL.C104_arrays",
    "KTL.C104_heaps",
    "KTL.C104_thread_ends",
    "KTL.C104_threads",
    "KTL.C104_threads_finish"
   ],
   "note": "World.tick counts the calls of malloc. C104_heaps excludes popping the last element of a heap of a non-trivial type, which is undefined (C56). C104_threads: access by access, for allocators with AllocTy.stepwise."
  },
  {
   "property": "C105",
   "status": "proved",
   "theorems": [
    "KTL.C105_array_exceptions",
    "KTL.C105_array_no_leak",
    "KTL.C105_vector_uncaught",
    "KTL.C105_vector_uncaught_returns",
    "KTL.C105_heap_uncaught",
    "KTL.C105_heap_uncaught_returns"
   ],
   "note": "Programs (ArrOp of C49) over XTy (C93: compositions with any users' allocators that throw), each call with a catch: the calls that returned (did) and those that threw (threw) are an exact division of the program, with the former in order, and results and contents are those of the former alone on sequences (Seqs.ARun, C49). No leak with a ledger that turns a wrong or double deallocate, or a destructor before all is back, into undefined behaviour. Programs do not ask for empty arrays (a copy might be one). Vectors and heaps: the same programs as C42 and C52 over the allocator with std::terminate in place of the exception; that their growing functions are noexcept is C77."
  },
  {
   "property": "C106",
   "status": "proved",
   "theorems": [
    "KTL.C106_calls",
    "KTL.C106_buffers",
    "KTL.C106_histories",
    "KTL.C106_vectors",
    "KTL.C106_arrays",
    "KTL.C106_heaps",
    "KTL.C106_no_malloc",
    "KTL.C106_threads",
    "KTL.C106_threads_no_malloc"
   ],
   "note": "Mallocs k: at most k calls of malloc (World.tick), whether the run ends normally or for want of memory. The numbers atStart and perRequest are computed from the type. The constructor of a heap from a list counts as one request per element and one more. Threads: access by access (denoteB, which is the code for the compositions of C84_same_calls)."
  }
 ]
}