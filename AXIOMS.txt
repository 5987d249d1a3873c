'KTL.C01_no_undefined_behaviour' depends on axioms: [propext, Classical.choice, Quot.sound]
'KTL.C02_live_blocks_disjoint' depends on axioms: [propext, Classical.choice, Quot.sound]
'KTL.C03_blocks_aligned' depends on axioms: [propext, Classical.choice, Quot.sound]
'KTL.C04_contents_preserved' depends on axioms: [propext, Classical.choice, Quot.sound]
'KTL.C05_destruction_returns_everything' depends on axioms: [propext, Classical.choice, Quot.sound]
'KTL.C06_null_allocator_owns_null' depends on axioms: [propext, Classical.choice, Quot.sound]
'KTL.C06_owns_exact' depends on axioms: [propext, Classical.choice, Quot.sound]
'KTL.C06_owns_null' depends on axioms: [propext, Classical.choice, Quot.sound]
'KTL.C07_allocate_inside_buffer_partial' depends on axioms: [propext, Classical.choice, Quot.sound]
'KTL.C07_huge_request_succeeds' depends on axioms: [propext]
'KTL.C07_huge_request_succeeds'' depends on axioms: [propext, Quot.sound]
'KTL.C08_linear_is_ideal' depends on axioms: [propext, Classical.choice, Quot.sound]
'KTL.C08_succeeds_iff_fits' depends on axioms: [propext, Classical.choice, Quot.sound]
'KTL.C09_lifo_restores_state' depends on axioms: [propext, Classical.choice, Quot.sound]
'KTL.C09_out_of_order_not_reclaimed' depends on axioms: [propext, Quot.sound]
'KTL.C09_reset_when_empty' depends on axioms: [propext, Classical.choice, Quot.sound]
'KTL.C100_linear_stops_only_when_full' depends on axioms: [propext, Classical.choice, Quot.sound]
'KTL.C100_room_known_beforehand' depends on axioms: [propext, Classical.choice, Quot.sound]
'KTL.C100_stack_stops_only_when_full' depends on axioms: [propext, Classical.choice, Quot.sound]
'KTL.C100_stops_only_when_malloc_fails' depends on axioms: [propext, Classical.choice, Quot.sound]
'KTL.C100_threads_room_known_beforehand' depends on axioms: [propext, Classical.choice, Quot.sound]
'KTL.C100_threads_stop_only_when_malloc_fails' depends on axioms: [propext, Classical.choice, Quot.sound]
'KTL.C101_heap_growth_exact' depends on axioms: [propext, Classical.choice, Quot.sound]
'KTL.C101_heap_stable_within_capacity' depends on axioms: [propext, Classical.choice, Quot.sound]
'KTL.C102_any_number_of_rounds' depends on axioms: [propext, Classical.choice, Quot.sound]
'KTL.C102_arrays' depends on axioms: [propext, Classical.choice, Quot.sound]
'KTL.C102_footprint_bounded_by_peak' depends on axioms: [propext, Classical.choice, Quot.sound]
'KTL.C102_heaps' depends on axioms: [propext, Classical.choice, Quot.sound]
'KTL.C102_threads' depends on axioms: [propext, Classical.choice, Quot.sound]
'KTL.C102_threads_any_number_of_rounds' depends on axioms: [propext, Classical.choice, Quot.sound]
'KTL.C102_vectors' depends on axioms: [propext, Classical.choice, Quot.sound]
'KTL.C102_vectors_any_number_of_rounds' depends on axioms: [propext, Classical.choice, Quot.sound]
'KTL.C103_calls_are_short' depends on axioms: [propext, Classical.choice, Quot.sound]
'KTL.C103_everyone_finishes' depends on axioms: [propext, Classical.choice, Quot.sound]
'KTL.C103_mutex_is_held_briefly' depends on axioms: [propext, Classical.choice, Quot.sound]
'KTL.C104_arrays' depends on axioms: [propext, Classical.choice, Quot.sound]
'KTL.C104_deallocate_needs_no_memory' depends on axioms: [propext, Classical.choice, Quot.sound]
'KTL.C104_heaps' depends on axioms: [propext, Classical.choice, Quot.sound]
'KTL.C104_thread_ends' depends on axioms: [propext, Quot.sound]
'KTL.C104_threads' depends on axioms: [propext, Classical.choice, Quot.sound]
'KTL.C104_threads_finish' depends on axioms: [propext, Classical.choice, Quot.sound]
'KTL.C104_vectors' depends on axioms: [propext, Classical.choice, Quot.sound]
'KTL.C105_array_exceptions' depends on axioms: [propext, Classical.choice, Quot.sound]
'KTL.C105_array_no_leak' depends on axioms: [propext, Classical.choice, Quot.sound]
'KTL.C105_heap_uncaught' depends on axioms: [propext, Classical.choice, Quot.sound]
'KTL.C105_heap_uncaught_returns' depends on axioms: [propext, Classical.choice, Quot.sound]
'KTL.C105_vector_uncaught' depends on axioms: [propext, Classical.choice, Quot.sound]
'KTL.C105_vector_uncaught_returns' depends on axioms: [propext, Classical.choice, Quot.sound]
'KTL.C106_arrays' depends on axioms: [propext, Classical.choice, Quot.sound]
'KTL.C106_buffers' depends on axioms: [propext, Classical.choice, Quot.sound]
'KTL.C106_calls' depends on axioms: [propext, Classical.choice, Quot.sound]
'KTL.C106_heaps' depends on axioms: [propext, Classical.choice, Quot.sound]
'KTL.C106_histories' depends on axioms: [propext, Classical.choice, Quot.sound]
'KTL.C106_no_malloc' depends on axioms: [propext, Classical.choice, Quot.sound]
'KTL.C106_threads' depends on axioms: [propext, Classical.choice, Quot.sound]
'KTL.C106_threads_no_malloc' depends on axioms: [propext, Classical.choice, Quot.sound]
'KTL.C106_vectors' depends on axioms: [propext, Classical.choice, Quot.sound]
'KTL.C10_stack_handles_share' depends on axioms: [propext, Quot.sound]
'KTL.C11_freelist_is_lifo' depends on axioms: [propext, Classical.choice, Quot.sound]
'KTL.C11_reuses_last_freed' depends on axioms: [propext, Classical.choice, Quot.sound]
'KTL.C12_bounded_by_peak' depends on axioms: [propext, Classical.choice, Quot.sound]
'KTL.C12_never_returns_early' depends on axioms: [propext, Classical.choice, Quot.sound]
'KTL.C13_frees_reach_their_owner' depends on axioms: [propext, Classical.choice, Quot.sound]
'KTL.C13_primary_first' depends on axioms: [propext]
'KTL.C14_blocks_return_where_they_came_from' depends on axioms: [propext, Classical.choice, Quot.sound]
'KTL.C14_routes_by_size' depends on axioms: [propext, Quot.sound]
'KTL.C15_deallocate' depends on axioms: [propext, Classical.choice, Quot.sound]
'KTL.C15_frees_reach_their_instance' depends on axioms: [propext, Classical.choice, Quot.sound]
'KTL.C16_false' depends on axioms: [propext, Quot.sound]
'KTL.C16_hopeless_adds' depends on axioms: [propext, Classical.choice, Quot.sound]
'KTL.C16_instances_bounded_partial' depends on axioms: [propext, Classical.choice, Quot.sound]
'KTL.C16_instances_partial' depends on axioms: [propext, Classical.choice, Quot.sound]
'KTL.C17_after_allocate_partial' depends on axioms: [propext, Classical.choice, Quot.sound]
'KTL.C17_false' depends on axioms: [propext]
'KTL.C18_max_size_upper_bound' depends on axioms: [propext, Classical.choice, Quot.sound]
'KTL.C19_max_size_refused' depends on axioms: [propext]
'KTL.C19_max_size_served_partial' depends on axioms: [propext, Classical.choice, Quot.sound]
'KTL.C19_overflow_refused' depends on axioms: [propext, Classical.choice, Quot.sound]
'KTL.C20_corruption_report_exact' depends on axioms: [propext, Quot.sound]
'KTL.C20_guards_written' depends on axioms: [propext, Quot.sound]
'KTL.C20_report_iff_changed' depends on axioms: [propext, Quot.sound]
'KTL.C21_no_false_alarm' depends on axioms: [propext, Classical.choice, Quot.sound]
'KTL.C22_false_leak_report' depends on axioms: [propext, Quot.sound]
'KTL.C22_leak_accounting_partial' depends on axioms: [propext, Quot.sound]
'KTL.C23_construct_accounting' depends on axioms: [propext, Quot.sound]
'KTL.C24_reference_counts_exact' depends on axioms: [propext, Classical.choice, Quot.sound]
'KTL.C25_false' depends on axioms: [propext]
'KTL.C25_self_assign_shared_partial' depends on axioms: [propext, Classical.choice, Quot.sound]
'KTL.C26_atomic_shared_safe' depends on axioms: [propext, Classical.choice, Quot.sound]
'KTL.C26_use_finds_block' depends on axioms: [propext, Classical.choice, Quot.sound]
'KTL.C27_no_deadlock' depends on axioms: [propext, Quot.sound]
'KTL.C27_threaded_is_atomic' depends on axioms: [propext, Classical.choice, Quot.sound]
'KTL.C28_exclusive_construct_partial' depends on axioms: [propext, Classical.choice, Quot.sound]
'KTL.C28_false' does not depend on any axioms
'KTL.C29_eq_refl' depends on axioms: [propext, Classical.choice, Quot.sound]
'KTL.C29_eq_same' depends on axioms: [propext, Quot.sound]
'KTL.C29_eq_symm' depends on axioms: [propext, Quot.sound]
'KTL.C29_global_inconsistent' depends on axioms: [propext]
'KTL.C29_ne_is_not_eq_partial' depends on axioms: [propext, Classical.choice, Quot.sound]
'KTL.C29_shared_null_undefined' depends on axioms: [propext]
'KTL.C30_global_transparent' depends on axioms: [propext, Quot.sound]
'KTL.C30_reference_single' depends on axioms: [propext, Quot.sound]
'KTL.C30_reference_transparent' depends on axioms: [propext, Quot.sound]
'KTL.C31_max_size' depends on axioms: [propext]
'KTL.C31_type_allocator_scales_partial' depends on axioms: [propext, Quot.sound]
'KTL.C31_wraps' depends on axioms: [propext]
'KTL.C32_align_64' depends on axioms: [propext, Classical.choice, Quot.sound]
'KTL.C32_align_least' depends on axioms: [propext, Classical.choice, Quot.sound]
'KTL.C32_align_small' depends on axioms: [propext, Classical.choice, Quot.sound]
'KTL.C33_log2_floor' depends on axioms: [propext, Quot.sound]
'KTL.C33_log2_highest_bit' depends on axioms: [propext, Quot.sound]
'KTL.C34_pow2_least' depends on axioms: [propext, Classical.choice, Quot.sound]
'KTL.C35_packed_ptr_returns_last' depends on axioms: [propext, Classical.choice, Quot.sound]
'KTL.C36_packed_ptr_truncates' depends on axioms: [propext, Classical.choice, Quot.sound]
'KTL.C37_builder_keeps_order' depends on axioms: [propext, Classical.choice, Quot.sound]
'KTL.C37_builder_well_formed' depends on axioms: [propext, Quot.sound]
'KTL.C37_freed_by_owner' depends on axioms: [propext, Quot.sound]
'KTL.C37_served_by_first' depends on axioms: [propext, Quot.sound]
'KTL.C38_alloc_in_bucket' depends on axioms: [propext, Classical.choice, Quot.sound]
'KTL.C38_builder_routes' depends on axioms: [propext, Classical.choice, Quot.sound]
'KTL.C38_dealloc_in_bucket' depends on axioms: [propext, Classical.choice, Quot.sound]
'KTL.C38_even_rejected' depends on axioms: [propext, Quot.sound]
'KTL.C39_fallback_depth' depends on axioms: [propext, Classical.choice, Quot.sound]
'KTL.C39_segragator_depth' depends on axioms: [propext, Classical.choice, Quot.sound]
'KTL.C40_portable_aligned_free' depends on axioms: [propext, Classical.choice, Quot.sound]
'KTL.C40_portable_aligned_malloc' depends on axioms: [propext, Classical.choice, Quot.sound]
'KTL.C40_portable_free_null' depends on axioms: [propext]
'KTL.C41_false' depends on axioms: [propext]
'KTL.C41_overrun' depends on axioms: [propext, Classical.choice, Quot.sound]
'KTL.C41_sixteen_bytes_partial' does not depend on any axioms
'KTL.C42_vector_is_sequence' depends on axioms: [propext, Classical.choice, Quot.sound]
'KTL.C43_no_leak_right_sizes' depends on axioms: [propext, Classical.choice, Quot.sound]
'KTL.C43_storage_disjoint' depends on axioms: [propext, Classical.choice, Quot.sound]
'KTL.C44_capacity_monotone' depends on axioms: [propext, Quot.sound]
'KTL.C44_copies_linear' depends on axioms: [propext, Quot.sound]
'KTL.C44_geometric_growth' depends on axioms: [propext, Quot.sound]
'KTL.C44_no_allocation_within_capacity' depends on axioms: [propext, Quot.sound]
'KTL.C44_reserve' depends on axioms: [propext, Quot.sound]
'KTL.C45_false' depends on axioms: [propext, Quot.sound]
'KTL.C45_room_partial' depends on axioms: [propext, Classical.choice, Quot.sound]
'KTL.C46_empty_array_partial' depends on axioms: [propext, Classical.choice, Quot.sound]
'KTL.C46_empty_heap_partial' depends on axioms: [propext, Classical.choice, Quot.sound]
'KTL.C46_empty_vector_partial' depends on axioms: [propext, Classical.choice, Quot.sound]
'KTL.C46_false' depends on axioms: [propext, Quot.sound]
'KTL.C46_false_array' depends on axioms: [propext, Classical.choice, Quot.sound]
'KTL.C46_false_heap' depends on axioms: [propext, Classical.choice, Quot.sound]
'KTL.C46_false_heap_program' depends on axioms: [propext, Quot.sound]
'KTL.C46_false_vector' depends on axioms: [propext, Classical.choice, Quot.sound]
'KTL.C47_false' depends on axioms: [propext, Classical.choice, Quot.sound]
'KTL.C47_false_array' depends on axioms: [propext, Classical.choice, Quot.sound]
'KTL.C47_false_array_overflow' depends on axioms: [propext, Quot.sound]
'KTL.C47_false_heap' depends on axioms: [propext, Classical.choice, Quot.sound]
'KTL.C47_false_heap_overflow' depends on axioms: [propext, Quot.sound]
'KTL.C47_false_overflow' depends on axioms: [propext, Quot.sound]
'KTL.C47_single_bytes_array_partial' depends on axioms: [propext, Classical.choice, Quot.sound]
'KTL.C47_single_bytes_heap_partial' depends on axioms: [propext, Classical.choice, Quot.sound]
'KTL.C47_single_bytes_partial' depends on axioms: [propext, Classical.choice, Quot.sound]
'KTL.C48_copy_array_to_other_allocator' depends on axioms: [propext, Classical.choice, Quot.sound]
'KTL.C48_copy_heap_to_other_allocator' depends on axioms: [propext, Classical.choice, Quot.sound]
'KTL.C48_copy_to_other_allocator' depends on axioms: [propext, Classical.choice, Quot.sound]
'KTL.C49_array_is_sequence' depends on axioms: [propext, Classical.choice, Quot.sound]
'KTL.C49_assign_from_itself_false' depends on axioms: [propext, Quot.sound]
'KTL.C49_no_leak_right_sizes' depends on axioms: [propext, Classical.choice, Quot.sound]
'KTL.C50_buffer_is_ring' depends on axioms: [propext, Classical.choice, Quot.sound]
'KTL.C50_overlong_list_false' depends on axioms: [propext, Quot.sound]
'KTL.C50_same_element' depends on axioms: [propext, Quot.sound]
'KTL.C50_self_assignment_false' depends on axioms: [propext, Classical.choice, Quot.sound]
'KTL.C51_root_extremal' depends on axioms: [propext, Classical.choice, Quot.sound]
'KTL.C52_heap_is_bag' depends on axioms: [propext, Classical.choice, Quot.sound]
'KTL.C53_popping_sorts_partial' depends on axioms: [propext, Classical.choice, Quot.sound]
'KTL.C54_insert_iterator' depends on axioms: [propext, Classical.choice, Quot.sound]
'KTL.C55_find' depends on axioms: [propext, Classical.choice, Quot.sound]
'KTL.C56_exact' depends on axioms: [propext, Classical.choice, Quot.sound]
'KTL.C56_false' depends on axioms: [propext]
'KTL.C56_false_program' depends on axioms: [propext, Quot.sound]
'KTL.C56_lifetimes_partial' depends on axioms: [propext, Classical.choice, Quot.sound]
'KTL.C57_exactly_one_object' depends on axioms: [propext, Classical.choice, Quot.sound]
'KTL.C57_routed_by_ownership' depends on axioms: [propext]
'KTL.C58_empty_requests_safe_partial' depends on axioms: [propext, Classical.choice, Quot.sound]
'KTL.C58_false_cascading' depends on axioms: [propext, Quot.sound]
'KTL.C58_false_fallback' depends on axioms: [propext, Quot.sound]
'KTL.C59_crashes' depends on axioms: [propext, Quot.sound]
'KTL.C59_false' depends on axioms: [propext, Quot.sound]
'KTL.C59_nested_without_max_size_partial' depends on axioms: [propext, Classical.choice, Quot.sound]
'KTL.C60_freelist_false' depends on axioms: [propext, Classical.choice, Quot.sound]
'KTL.C60_linear_false' depends on axioms: [propext, Quot.sound]
'KTL.C60_linear_target_fresh_partial' depends on axioms: [propext, Classical.choice, Quot.sound]
'KTL.C60_moves_partial' depends on axioms: [propext, Classical.choice, Quot.sound]
'KTL.C60_overflow_false_report' depends on axioms: [propext, Classical.choice, Quot.sound]
'KTL.C60_owns_partial' depends on axioms: [propext, Classical.choice, Quot.sound]
'KTL.C61_false' depends on axioms: [propext, Quot.sound]
'KTL.C61_false_program' depends on axioms: [propext, Quot.sound]
'KTL.C61_room_partial' depends on axioms: [propext, Classical.choice, Quot.sound]
'KTL.C62_false' depends on axioms: [propext, Classical.choice, Quot.sound]
'KTL.C63_emptied_serves' depends on axioms: [propext, Classical.choice, Quot.sound]
'KTL.C63_first_request_served' depends on axioms: [propext, Classical.choice, Quot.sound]
'KTL.C63_freelist_asks_inner' depends on axioms: [propext, Classical.choice, Quot.sound]
'KTL.C63_live_sizes' depends on axioms: [propext, Classical.choice, Quot.sound]
'KTL.C63_overflow_refuses_iff' depends on axioms: [propext, Classical.choice, Quot.sound]
'KTL.C63_requests_served' depends on axioms: [propext, Classical.choice, Quot.sound]
'KTL.C64_threads_get_disjoint_blocks' depends on axioms: [propext, Classical.choice, Quot.sound]
'KTL.C65_copies_are_one' depends on axioms: [propext, Classical.choice, Quot.sound]
'KTL.C65_copies_safe' depends on axioms: [propext, Classical.choice, Quot.sound]
'KTL.C65_overflow_reports' depends on axioms: [propext, Classical.choice, Quot.sound]
'KTL.C65_uncopyable' depends on axioms: [propext, Classical.choice, Quot.sound]
'KTL.C66_create_happens_first' depends on axioms: [propext, Classical.choice, Quot.sound]
'KTL.C66_delete_happens_last' depends on axioms: [propext, Classical.choice, Quot.sound]
'KTL.C66_records_are_complete' depends on axioms: [propext, Classical.choice, Quot.sound]
'KTL.C66_weaker_order_fails' depends on axioms: [propext, Quot.sound]
'KTL.C67_linear_false' depends on axioms: [propext, Classical.choice, Quot.sound]
'KTL.C67_null_ignored_partial' depends on axioms: [propext, Classical.choice, Quot.sound]
'KTL.C67_overflow_false_report' depends on axioms: [propext, Quot.sound]
'KTL.C67_stack_false' depends on axioms: [propext, Classical.choice, Quot.sound]
'KTL.C68_capacity_monotone' depends on axioms: [propext, Classical.choice, Quot.sound]
'KTL.C68_geometric_growth' depends on axioms: [propext, Quot.sound]
'KTL.C68_no_allocation_within_capacity' depends on axioms: [propext, Quot.sound]
'KTL.C68_reserve' depends on axioms: [propext, Quot.sound]
'KTL.C69_insert_logarithmic' depends on axioms: [propext, Quot.sound]
'KTL.C69_pop_logarithmic' depends on axioms: [propext, Quot.sound]
'KTL.C70_copies_equal' depends on axioms: [propext, Classical.choice, Quot.sound]
'KTL.C70_equal_interchangeable' depends on axioms: [propext, Classical.choice, Quot.sound]
'KTL.C70_overflow_false_report' depends on axioms: [propext, Classical.choice, Quot.sound]
'KTL.C70_unequal_overlap' depends on axioms: [propext, Classical.choice, Quot.sound]
'KTL.C71_vectors_over_shared' depends on axioms: [propext, Classical.choice, Quot.sound]
'KTL.C72_array_resize_false' depends on axioms: [propext, Quot.sound]
'KTL.C72_construct_false' depends on axioms: [propext, Quot.sound]
'KTL.C72_heap_insert_false' depends on axioms: [propext, Quot.sound]
'KTL.C72_program_false' depends on axioms: [propext, Classical.choice, Quot.sound]
'KTL.C72_push_false' depends on axioms: [propext, Quot.sound]
'KTL.C72_reserve_false' depends on axioms: [propext, Quot.sound]
'KTL.C72_resize_false' depends on axioms: [propext, Quot.sound]
'KTL.C72_served_partial' depends on axioms: [propext, Quot.sound]
'KTL.C73_cascading_false' depends on axioms: [propext, Quot.sound]
'KTL.C73_linear' depends on axioms: [propext, Classical.choice, Quot.sound]
'KTL.C73_owned_fixed' depends on axioms: [propext, Classical.choice, Quot.sound]
'KTL.C73_owns_while_others_allocate_partial' depends on axioms: [propext, Classical.choice, Quot.sound]
'KTL.C74_growth_exact' depends on axioms: [propext, Classical.choice, Quot.sound]
'KTL.C74_stable_within_capacity' depends on axioms: [propext, Classical.choice, Quot.sound]
'KTL.C75_false' depends on axioms: [propext, Classical.choice, Quot.sound]
'KTL.C75_hopeless_stops' depends on axioms: [propext, Classical.choice, Quot.sound]
'KTL.C75_no_assertion_fires_partial' depends on axioms: [propext, Classical.choice, Quot.sound]
'KTL.C75_only_stops' depends on axioms: [propext, Classical.choice, Quot.sound]
'KTL.C76_array_elements_aligned_partial' depends on axioms: [propext, Classical.choice, Quot.sound]
'KTL.C76_buffer_false' depends on axioms: [propext, Quot.sound]
'KTL.C76_heap_elements_aligned_partial' depends on axioms: [propext, Classical.choice, Quot.sound]
'KTL.C76_overaligned_false' depends on axioms: [propext, Classical.choice, Quot.sound]
'KTL.C76_vector_elements_aligned_partial' depends on axioms: [propext, Classical.choice, Quot.sound]
'KTL.C77_allocators_partial' depends on axioms: [propext, Quot.sound]
'KTL.C77_containers_allocate_false' depends on axioms: [propext, Quot.sound]
'KTL.C77_containers_deallocate_false' depends on axioms: [propext, Quot.sound]
'KTL.C77_containers_partial' depends on axioms: [propext, Quot.sound]
'KTL.C77_containers_unlocked' depends on axioms: [propext, Quot.sound]
'KTL.C77_exceptions_get_out' depends on axioms: [propext, Quot.sound]
'KTL.C77_freelist_any_false' depends on axioms: [propext, Quot.sound]
'KTL.C77_freelist_false' depends on axioms: [propext, Quot.sound]
'KTL.C77_global_set_false' depends on axioms: [propext]
'KTL.C77_global_set_partial' depends on axioms: [propext, Quot.sound]
'KTL.C77_heap_assign_false' depends on axioms: [propext]
'KTL.C77_heap_compare_false' depends on axioms: [propext]
'KTL.C77_heap_copies_false' depends on axioms: [propext]
'KTL.C77_not_equal_false' depends on axioms: [propext]
'KTL.C77_overflow_construct_false' depends on axioms: [propext]
'KTL.C77_overflow_false' depends on axioms: [propext]
'KTL.C77_owns_false' depends on axioms: [propext]
'KTL.C77_type_allocator_false' depends on axioms: [propext]
'KTL.C78_destructor_runs_alone' depends on axioms: [propext, Classical.choice, Quot.sound]
'KTL.C78_threads_share_one_allocator' depends on axioms: [propext, Classical.choice, Quot.sound]
'KTL.C79_moved_from_stays' depends on axioms: [propext, Classical.choice, Quot.sound]
'KTL.C79_rebound_are_one' depends on axioms: [propext, Classical.choice, Quot.sound]
'KTL.C80_arrays_not_reported' depends on axioms: [propext, Classical.choice, Quot.sound]
'KTL.C80_leaked_vectors_reported' depends on axioms: [propext, Classical.choice, Quot.sound]
'KTL.C80_move_with_reported' depends on axioms: [propext, Quot.sound]
'KTL.C80_vectors_not_reported' depends on axioms: [propext, Classical.choice, Quot.sound]
'KTL.C81_no_leak_right_sizes' depends on axioms: [propext, Classical.choice, Quot.sound]
'KTL.C81_no_thread_is_stuck' depends on axioms: [propext, Classical.choice, Quot.sound]
'KTL.C81_threads_are_isolated' depends on axioms: [propext, Classical.choice, Quot.sound]
'KTL.C82_array_loops' depends on axioms: [propext, Classical.choice, Quot.sound]
'KTL.C82_buffer_loops' depends on axioms: [propext, Classical.choice, Quot.sound]
'KTL.C82_heap_loops' depends on axioms: [propext, Classical.choice, Quot.sound]
'KTL.C82_vector_loops' depends on axioms: [propext, Classical.choice, Quot.sound]
'KTL.C83_calls_change_nothing' depends on axioms: [propext, Classical.choice, Quot.sound]
'KTL.C83_heaps_not_reported' depends on axioms: [propext, Classical.choice, Quot.sound]
'KTL.C83_leaked_heaps_reported' depends on axioms: [propext, Classical.choice, Quot.sound]
'KTL.C83_move_with_reported' depends on axioms: [propext, Quot.sound]
'KTL.C84_no_deadlock' depends on axioms: [propext, Classical.choice, Quot.sound]
'KTL.C84_no_leak' depends on axioms: [propext, Classical.choice, Quot.sound]
'KTL.C84_same_calls' depends on axioms: [propext, Classical.choice, Quot.sound]
'KTL.C84_threads_inside_calls' depends on axioms: [propext, Classical.choice, Quot.sound]
'KTL.C85_overflow_out_of_range' depends on axioms: [propext, Quot.sound]
'KTL.C85_pointers_in_range_partial' depends on axioms: [propext, Classical.choice, Quot.sound]
'KTL.C86_contents_do_not_matter' depends on axioms: [propext, Classical.choice, Quot.sound]
'KTL.C87_array_false' depends on axioms: [propext]
'KTL.C87_cascading_false' depends on axioms: [propext, Classical.choice, Quot.sound]
'KTL.C87_heap_false' depends on axioms: [propext, Quot.sound]
'KTL.C87_linear_false' depends on axioms: [propext]
'KTL.C87_linear_false_program' depends on axioms: [propext, Classical.choice, Quot.sound]
'KTL.C87_self_move_partial' depends on axioms: [propext, Classical.choice, Quot.sound]
'KTL.C87_shared_false' depends on axioms: [propext, Quot.sound]
'KTL.C87_shared_vector_false' depends on axioms: [propext]
'KTL.C87_vector_false' depends on axioms: [propext]
'KTL.C88_cascading_false' depends on axioms: [propext, Classical.choice, Quot.sound]
'KTL.C88_exit_partial' depends on axioms: [propext, Classical.choice, Quot.sound]
'KTL.C88_global_partial' depends on axioms: [propext, Classical.choice, Quot.sound]
'KTL.C88_linear_false' depends on axioms: [propext, Classical.choice, Quot.sound]
'KTL.C89_assign_alloc_false' depends on axioms: [propext, Quot.sound]
'KTL.C89_assign_false' depends on axioms: [propext, Quot.sound]
'KTL.C89_copy_false' depends on axioms: [propext, Quot.sound]
'KTL.C89_list_false' depends on axioms: [propext, Quot.sound]
'KTL.C89_lost_partial' depends on axioms: [propext, Classical.choice, Quot.sound]
'KTL.C89_survivors_partial' depends on axioms: [propext, Classical.choice, Quot.sound]
'KTL.C90_local_allocators_are_isolated' depends on axioms: [propext, Classical.choice, Quot.sound]
'KTL.C90_no_leak_right_sizes' depends on axioms: [propext, Classical.choice, Quot.sound]
'KTL.C90_no_thread_is_stuck' depends on axioms: [propext, Classical.choice, Quot.sound]
'KTL.C91_array_copy_assign_false' depends on axioms: [propext]
'KTL.C91_array_no_null_partial' depends on axioms: [propext, Classical.choice, Quot.sound]
'KTL.C91_array_pointers_in_range' depends on axioms: [propext, Classical.choice, Quot.sound]
'KTL.C91_copy_assign_false' depends on axioms: [propext]
'KTL.C91_erase_false' depends on axioms: [propext, Quot.sound]
'KTL.C91_heap_check_rejects' depends on axioms: [propext, Quot.sound]
'KTL.C91_heap_pointers_in_range' depends on axioms: [propext, Classical.choice, Quot.sound]
'KTL.C91_push_false' depends on axioms: [propext, Quot.sound]
'KTL.C91_vector_no_null_partial' depends on axioms: [propext, Classical.choice, Quot.sound]
'KTL.C91_vector_pointers_in_range' depends on axioms: [propext, Classical.choice, Quot.sound]
'KTL.C92_counter_false' depends on axioms: [propext, Classical.choice, Quot.sound]
'KTL.C92_narrow_array_partial' depends on axioms: [propext, Classical.choice, Quot.sound]
'KTL.C92_narrow_array_returns_partial' depends on axioms: [propext, Classical.choice, Quot.sound]
'KTL.C92_narrow_blocks_partial' depends on axioms: [propext, Classical.choice, Quot.sound]
'KTL.C92_narrow_heap_partial' depends on axioms: [propext, Classical.choice, Quot.sound]
'KTL.C92_narrow_heap_returns_partial' depends on axioms: [propext, Classical.choice, Quot.sound]
'KTL.C92_narrow_owns_partial' depends on axioms: [propext, Classical.choice, Quot.sound]
'KTL.C92_narrow_returns_partial' depends on axioms: [propext, Classical.choice, Quot.sound]
'KTL.C92_narrow_safe_partial' depends on axioms: [propext, Classical.choice, Quot.sound]
'KTL.C92_narrow_vector_partial' depends on axioms: [propext, Classical.choice, Quot.sound]
'KTL.C92_narrow_vector_returns_partial' depends on axioms: [propext, Classical.choice, Quot.sound]
'KTL.C92_overflow_wraps_false' depends on axioms: [propext, Classical.choice, Quot.sound]
'KTL.C92_truncated_false' depends on axioms: [propext, Classical.choice, Quot.sound]
'KTL.C92_truncates' depends on axioms: [propext, Classical.choice, Quot.sound]
'KTL.C92_vector_false' depends on axioms: [propext, Classical.choice, Quot.sound]
'KTL.C93_cascading_constructor_false' depends on axioms: [propext, Classical.choice, Quot.sound]
'KTL.C93_cascading_full_false' depends on axioms: [propext, Classical.choice, Quot.sound]
'KTL.C93_fallback_false' depends on axioms: [propext, Classical.choice, Quot.sound]
'KTL.C93_overflow_report_false' depends on axioms: [propext, Classical.choice, Quot.sound]
'KTL.C93_shared_constructor_false' depends on axioms: [propext, Classical.choice, Quot.sound]
'KTL.C93_thrown_blocks_partial' depends on axioms: [propext, Classical.choice, Quot.sound]
'KTL.C93_thrown_owns_partial' depends on axioms: [propext, Classical.choice, Quot.sound]
'KTL.C93_thrown_reports_partial' depends on axioms: [propext, Quot.sound]
'KTL.C93_thrown_returns_partial' depends on axioms: [propext, Classical.choice, Quot.sound]
'KTL.C93_thrown_safe_partial' depends on axioms: [propext, Classical.choice, Quot.sound]
'KTL.C94_doors_blocks' depends on axioms: [propext, Classical.choice, Quot.sound]
'KTL.C94_doors_no_alarm' depends on axioms: [propext, Classical.choice, Quot.sound]
'KTL.C94_doors_owns' depends on axioms: [propext, Classical.choice, Quot.sound]
'KTL.C94_doors_returns' depends on axioms: [propext, Classical.choice, Quot.sound]
'KTL.C94_doors_safe' depends on axioms: [propext, Classical.choice, Quot.sound]
'KTL.C94_freelist_block_to_inner' depends on axioms: [propext, Classical.choice, Quot.sound]
'KTL.C94_inner_block_to_freelist' depends on axioms: [propext, Classical.choice, Quot.sound]
'KTL.C94_overflow_wrong_way' depends on axioms: [propext, Classical.choice, Quot.sound]
'KTL.C95_every_step' depends on axioms: [propext]
'KTL.C95_no_data_race' depends on axioms: [propext, Classical.choice, Quot.sound]
'KTL.C95_order' depends on axioms: [propext]
'KTL.C95_records_honest' depends on axioms: [propext, Quot.sound]
'KTL.C96_arena_in_use' depends on axioms: [propext, Classical.choice, Quot.sound]
'KTL.C96_around_all_blocks' depends on axioms: [propext, Classical.choice, Quot.sound]
'KTL.C96_around_blocks' depends on axioms: [propext, Classical.choice, Quot.sound]
'KTL.C96_around_no_alarm' depends on axioms: [propext, Classical.choice, Quot.sound]
'KTL.C96_around_owns' depends on axioms: [propext, Classical.choice, Quot.sound]
'KTL.C96_around_report' depends on axioms: [propext, Classical.choice, Quot.sound]
'KTL.C96_around_returns' depends on axioms: [propext, Classical.choice, Quot.sound]
'KTL.C96_around_safe' depends on axioms: [propext, Classical.choice, Quot.sound]
'KTL.C96_segragator_wrong_part' depends on axioms: [propext, Classical.choice, Quot.sound]
'KTL.C97_allocator_swap_partial' depends on axioms: [propext, Classical.choice, Quot.sound]
'KTL.C97_array_swap' depends on axioms: [propext, Classical.choice, Quot.sound]
'KTL.C97_heap_swap' depends on axioms: [propext, Classical.choice, Quot.sound]
'KTL.C97_linear_false' depends on axioms: [propext]
'KTL.C97_shared_swap' depends on axioms: [propext, Classical.choice, Quot.sound]
'KTL.C97_vector_swap' depends on axioms: [propext, Classical.choice, Quot.sound]
'KTL.C98_array_known' depends on axioms: [propext, Classical.choice, Quot.sound]
'KTL.C98_arrays_same' depends on axioms: [propext, Classical.choice, Quot.sound]
'KTL.C98_heaps_same' depends on axioms: [propext, Classical.choice, Quot.sound]
'KTL.C98_shared_vectors_same' depends on axioms: [propext, Classical.choice, Quot.sound]
'KTL.C98_vector_known' depends on axioms: [propext, Classical.choice, Quot.sound]
'KTL.C98_vectors_same' depends on axioms: [propext, Classical.choice, Quot.sound]
'KTL.C99_moved_from_false' depends on axioms: [propext, Quot.sound]
'KTL.C99_no_leak' depends on axioms: [propext, Classical.choice, Quot.sound]
'KTL.C99_one_comparator' depends on axioms: [propext, Quot.sound]
'KTL.C99_own_comparator' depends on axioms: [propext, Classical.choice, Quot.sound]
'KTL.C99_popping_sorts' depends on axioms: [propext, Classical.choice, Quot.sound]
