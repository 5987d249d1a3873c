import Lean.Util.CollectAxioms
import Lean.Elab.Command
import Verif.Props.Aligned
import Verif.Props.AlignedMalloc
import Verif.Props.Around
import Verif.Props.AroundReport
import Verif.Props.Array
import Verif.Props.ArrayThrown
import Verif.Props.Asserts
import Verif.Props.AtomicShared
import Verif.Props.AtomicThreaded
import Verif.Props.BinaryHeap
import Verif.Props.BinaryHeapAlias
import Verif.Props.BinaryHeapCost
import Verif.Props.BinaryHeapRun
import Verif.Props.Bits
import Verif.Props.Buffer
import Verif.Props.Builders
import Verif.Props.Cascading
import Verif.Props.Comparators
import Verif.Props.Construct
import Verif.Props.ContainerPointers
import Verif.Props.Contents
import Verif.Props.Copies
import Verif.Props.Crew
import Verif.Props.Doors
import Verif.Props.Enough
import Verif.Props.EnoughThreads
import Verif.Props.Footprint
import Verif.Props.FootprintContainers
import Verif.Props.FootprintThreads
import Verif.Props.Gang
import Verif.Props.GiveBack
import Verif.Props.GiveBackThreads
import Verif.Props.Global
import Verif.Props.Handles
import Verif.Props.HappensBefore
import Verif.Props.HeapPointers
import Verif.Props.HeapReports
import Verif.Props.HeapStable
import Verif.Props.Instances
import Verif.Props.Interchange
import Verif.Props.Iterate
import Verif.Props.Linear
import Verif.Props.Local
import Verif.Props.Mallocs
import Verif.Props.MallocsThreads
import Verif.Props.Memory
import Verif.Props.Move
import Verif.Props.Narrow
import Verif.Props.NarrowContainers
import Verif.Props.NoRace
import Verif.Props.Noexcept
import Verif.Props.NoexceptContainers
import Verif.Props.NullFree
import Verif.Props.Pointers
import Verif.Props.Progress
import Verif.Props.QuietCalls
import Verif.Props.Rebind
import Verif.Props.Reports
import Verif.Props.Routing
import Verif.Props.Same
import Verif.Props.SelfMove
import Verif.Props.Served
import Verif.Props.Shared
import Verif.Props.SharedVector
import Verif.Props.Silent
import Verif.Props.Swap
import Verif.Props.Threaded
import Verif.Props.ThreadedBlocks
import Verif.Props.ThreadedOwns
import Verif.Props.Thrown
import Verif.Props.Throws
import Verif.Props.TwoPools
import Verif.Props.Uncaught
import Verif.Props.Unchecked
import Verif.Props.Vector
import Verif.Props.VectorAlias
import Verif.Props.VectorOps
import Verif.Props.VectorStable

/- Generated by tools/gen_manifest.py: the build fails if a theorem of MANIFEST.json depends on an axiom other
than `propext`, `Classical.choice`, `Quot.sound`. -/
open Lean Elab Command in
run_cmd do
  for n in [
    ``KTL.C01_no_undefined_behaviour,
    ``KTL.C02_live_blocks_disjoint,
    ``KTL.C03_blocks_aligned,
    ``KTL.C04_contents_preserved,
    ``KTL.C05_destruction_returns_everything,
    ``KTL.C06_null_allocator_owns_null,
    ``KTL.C06_owns_exact,
    ``KTL.C06_owns_null,
    ``KTL.C07_allocate_inside_buffer_partial,
    ``KTL.C07_huge_request_succeeds,
    ``KTL.C07_huge_request_succeeds',
    ``KTL.C08_linear_is_ideal,
    ``KTL.C08_succeeds_iff_fits,
    ``KTL.C09_lifo_restores_state,
    ``KTL.C09_out_of_order_not_reclaimed,
    ``KTL.C09_reset_when_empty,
    ``KTL.C100_linear_stops_only_when_full,
    ``KTL.C100_room_known_beforehand,
    ``KTL.C100_stack_stops_only_when_full,
    ``KTL.C100_stops_only_when_malloc_fails,
    ``KTL.C100_threads_room_known_beforehand,
    ``KTL.C100_threads_stop_only_when_malloc_fails,
    ``KTL.C101_heap_growth_exact,
    ``KTL.C101_heap_stable_within_capacity,
    ``KTL.C102_any_number_of_rounds,
    ``KTL.C102_arrays,
    ``KTL.C102_footprint_bounded_by_peak,
    ``KTL.C102_heaps,
    ``KTL.C102_threads,
    ``KTL.C102_threads_any_number_of_rounds,
    ``KTL.C102_vectors,
    ``KTL.C102_vectors_any_number_of_rounds,
    ``KTL.C103_calls_are_short,
    ``KTL.C103_everyone_finishes,
    ``KTL.C103_mutex_is_held_briefly,
    ``KTL.C104_arrays,
    ``KTL.C104_deallocate_needs_no_memory,
    ``KTL.C104_heaps,
    ``KTL.C104_thread_ends,
    ``KTL.C104_threads,
    ``KTL.C104_threads_finish,
    ``KTL.C104_vectors,
    ``KTL.C105_array_exceptions,
    ``KTL.C105_array_no_leak,
    ``KTL.C105_heap_uncaught,
    ``KTL.C105_heap_uncaught_returns,
    ``KTL.C105_vector_uncaught,
    ``KTL.C105_vector_uncaught_returns,
    ``KTL.C106_arrays,
    ``KTL.C106_buffers,
    ``KTL.C106_calls,
    ``KTL.C106_heaps,
    ``KTL.C106_histories,
    ``KTL.C106_no_malloc,
    ``KTL.C106_threads,
    ``KTL.C106_threads_no_malloc,
    ``KTL.C106_vectors,
    ``KTL.C10_stack_handles_share,
    ``KTL.C11_freelist_is_lifo,
    ``KTL.C11_reuses_last_freed,
    ``KTL.C12_bounded_by_peak,
    ``KTL.C12_never_returns_early,
    ``KTL.C13_frees_reach_their_owner,
    ``KTL.C13_primary_first,
    ``KTL.C14_blocks_return_where_they_came_from,
    ``KTL.C14_routes_by_size,
    ``KTL.C15_deallocate,
    ``KTL.C15_frees_reach_their_instance,
    ``KTL.C16_false,
    ``KTL.C16_hopeless_adds,
    ``KTL.C16_instances_bounded_partial,
    ``KTL.C16_instances_partial,
    ``KTL.C17_after_allocate_partial,
    ``KTL.C17_false,
    ``KTL.C18_max_size_upper_bound,
    ``KTL.C19_max_size_refused,
    ``KTL.C19_max_size_served_partial,
    ``KTL.C19_overflow_refused,
    ``KTL.C20_corruption_report_exact,
    ``KTL.C20_guards_written,
    ``KTL.C20_report_iff_changed,
    ``KTL.C21_no_false_alarm,
    ``KTL.C22_false_leak_report,
    ``KTL.C22_leak_accounting_partial,
    ``KTL.C23_construct_accounting,
    ``KTL.C24_reference_counts_exact,
    ``KTL.C25_false,
    ``KTL.C25_self_assign_shared_partial,
    ``KTL.C26_atomic_shared_safe,
    ``KTL.C26_use_finds_block,
    ``KTL.C27_no_deadlock,
    ``KTL.C27_threaded_is_atomic,
    ``KTL.C28_exclusive_construct_partial,
    ``KTL.C28_false,
    ``KTL.C29_eq_refl,
    ``KTL.C29_eq_same,
    ``KTL.C29_eq_symm,
    ``KTL.C29_global_inconsistent,
    ``KTL.C29_ne_is_not_eq_partial,
    ``KTL.C29_shared_null_undefined,
    ``KTL.C30_global_transparent,
    ``KTL.C30_reference_single,
    ``KTL.C30_reference_transparent,
    ``KTL.C31_max_size,
    ``KTL.C31_type_allocator_scales_partial,
    ``KTL.C31_wraps,
    ``KTL.C32_align_64,
    ``KTL.C32_align_least,
    ``KTL.C32_align_small,
    ``KTL.C33_log2_floor,
    ``KTL.C33_log2_highest_bit,
    ``KTL.C34_pow2_least,
    ``KTL.C35_packed_ptr_returns_last,
    ``KTL.C36_packed_ptr_truncates,
    ``KTL.C37_builder_keeps_order,
    ``KTL.C37_builder_well_formed,
    ``KTL.C37_freed_by_owner,
    ``KTL.C37_served_by_first,
    ``KTL.C38_alloc_in_bucket,
    ``KTL.C38_builder_routes,
    ``KTL.C38_dealloc_in_bucket,
    ``KTL.C38_even_rejected,
    ``KTL.C39_fallback_depth,
    ``KTL.C39_segragator_depth,
    ``KTL.C40_portable_aligned_free,
    ``KTL.C40_portable_aligned_malloc,
    ``KTL.C40_portable_free_null,
    ``KTL.C41_false,
    ``KTL.C41_overrun,
    ``KTL.C41_sixteen_bytes_partial,
    ``KTL.C42_vector_is_sequence,
    ``KTL.C43_no_leak_right_sizes,
    ``KTL.C43_storage_disjoint,
    ``KTL.C44_capacity_monotone,
    ``KTL.C44_copies_linear,
    ``KTL.C44_geometric_growth,
    ``KTL.C44_no_allocation_within_capacity,
    ``KTL.C44_reserve,
    ``KTL.C45_false,
    ``KTL.C45_room_partial,
    ``KTL.C46_empty_array_partial,
    ``KTL.C46_empty_heap_partial,
    ``KTL.C46_empty_vector_partial,
    ``KTL.C46_false,
    ``KTL.C46_false_array,
    ``KTL.C46_false_heap,
    ``KTL.C46_false_heap_program,
    ``KTL.C46_false_vector,
    ``KTL.C47_false,
    ``KTL.C47_false_array,
    ``KTL.C47_false_array_overflow,
    ``KTL.C47_false_heap,
    ``KTL.C47_false_heap_overflow,
    ``KTL.C47_false_overflow,
    ``KTL.C47_single_bytes_array_partial,
    ``KTL.C47_single_bytes_heap_partial,
    ``KTL.C47_single_bytes_partial,
    ``KTL.C48_copy_array_to_other_allocator,
    ``KTL.C48_copy_heap_to_other_allocator,
    ``KTL.C48_copy_to_other_allocator,
    ``KTL.C49_array_is_sequence,
    ``KTL.C49_assign_from_itself_false,
    ``KTL.C49_no_leak_right_sizes,
    ``KTL.C50_buffer_is_ring,
    ``KTL.C50_overlong_list_false,
    ``KTL.C50_same_element,
    ``KTL.C50_self_assignment_false,
    ``KTL.C51_root_extremal,
    ``KTL.C52_heap_is_bag,
    ``KTL.C53_popping_sorts_partial,
    ``KTL.C54_insert_iterator,
    ``KTL.C55_find,
    ``KTL.C56_exact,
    ``KTL.C56_false,
    ``KTL.C56_false_program,
    ``KTL.C56_lifetimes_partial,
    ``KTL.C57_exactly_one_object,
    ``KTL.C57_routed_by_ownership,
    ``KTL.C58_empty_requests_safe_partial,
    ``KTL.C58_false_cascading,
    ``KTL.C58_false_fallback,
    ``KTL.C59_crashes,
    ``KTL.C59_false,
    ``KTL.C59_nested_without_max_size_partial,
    ``KTL.C60_freelist_false,
    ``KTL.C60_linear_false,
    ``KTL.C60_linear_target_fresh_partial,
    ``KTL.C60_moves_partial,
    ``KTL.C60_overflow_false_report,
    ``KTL.C60_owns_partial,
    ``KTL.C61_false,
    ``KTL.C61_false_program,
    ``KTL.C61_room_partial,
    ``KTL.C62_false,
    ``KTL.C63_emptied_serves,
    ``KTL.C63_first_request_served,
    ``KTL.C63_freelist_asks_inner,
    ``KTL.C63_live_sizes,
    ``KTL.C63_overflow_refuses_iff,
    ``KTL.C63_requests_served,
    ``KTL.C64_threads_get_disjoint_blocks,
    ``KTL.C65_copies_are_one,
    ``KTL.C65_copies_safe,
    ``KTL.C65_overflow_reports,
    ``KTL.C65_uncopyable,
    ``KTL.C66_create_happens_first,
    ``KTL.C66_delete_happens_last,
    ``KTL.C66_records_are_complete,
    ``KTL.C66_weaker_order_fails,
    ``KTL.C67_linear_false,
    ``KTL.C67_null_ignored_partial,
    ``KTL.C67_overflow_false_report,
    ``KTL.C67_stack_false,
    ``KTL.C68_capacity_monotone,
    ``KTL.C68_geometric_growth,
    ``KTL.C68_no_allocation_within_capacity,
    ``KTL.C68_reserve,
    ``KTL.C69_insert_logarithmic,
    ``KTL.C69_pop_logarithmic,
    ``KTL.C70_copies_equal,
    ``KTL.C70_equal_interchangeable,
    ``KTL.C70_overflow_false_report,
    ``KTL.C70_unequal_overlap,
    ``KTL.C71_vectors_over_shared,
    ``KTL.C72_array_resize_false,
    ``KTL.C72_construct_false,
    ``KTL.C72_heap_insert_false,
    ``KTL.C72_program_false,
    ``KTL.C72_push_false,
    ``KTL.C72_reserve_false,
    ``KTL.C72_resize_false,
    ``KTL.C72_served_partial,
    ``KTL.C73_cascading_false,
    ``KTL.C73_linear,
    ``KTL.C73_owned_fixed,
    ``KTL.C73_owns_while_others_allocate_partial,
    ``KTL.C74_growth_exact,
    ``KTL.C74_stable_within_capacity,
    ``KTL.C75_false,
    ``KTL.C75_hopeless_stops,
    ``KTL.C75_no_assertion_fires_partial,
    ``KTL.C75_only_stops,
    ``KTL.C76_array_elements_aligned_partial,
    ``KTL.C76_buffer_false,
    ``KTL.C76_heap_elements_aligned_partial,
    ``KTL.C76_overaligned_false,
    ``KTL.C76_vector_elements_aligned_partial,
    ``KTL.C77_allocators_partial,
    ``KTL.C77_containers_allocate_false,
    ``KTL.C77_containers_deallocate_false,
    ``KTL.C77_containers_partial,
    ``KTL.C77_containers_unlocked,
    ``KTL.C77_exceptions_get_out,
    ``KTL.C77_freelist_any_false,
    ``KTL.C77_freelist_false,
    ``KTL.C77_global_set_false,
    ``KTL.C77_global_set_partial,
    ``KTL.C77_heap_assign_false,
    ``KTL.C77_heap_compare_false,
    ``KTL.C77_heap_copies_false,
    ``KTL.C77_not_equal_false,
    ``KTL.C77_overflow_construct_false,
    ``KTL.C77_overflow_false,
    ``KTL.C77_owns_false,
    ``KTL.C77_type_allocator_false,
    ``KTL.C78_destructor_runs_alone,
    ``KTL.C78_threads_share_one_allocator,
    ``KTL.C79_moved_from_stays,
    ``KTL.C79_rebound_are_one,
    ``KTL.C80_arrays_not_reported,
    ``KTL.C80_leaked_vectors_reported,
    ``KTL.C80_move_with_reported,
    ``KTL.C80_vectors_not_reported,
    ``KTL.C81_no_leak_right_sizes,
    ``KTL.C81_no_thread_is_stuck,
    ``KTL.C81_threads_are_isolated,
    ``KTL.C82_array_loops,
    ``KTL.C82_buffer_loops,
    ``KTL.C82_heap_loops,
    ``KTL.C82_vector_loops,
    ``KTL.C83_calls_change_nothing,
    ``KTL.C83_heaps_not_reported,
    ``KTL.C83_leaked_heaps_reported,
    ``KTL.C83_move_with_reported,
    ``KTL.C84_no_deadlock,
    ``KTL.C84_no_leak,
    ``KTL.C84_same_calls,
    ``KTL.C84_threads_inside_calls,
    ``KTL.C85_overflow_out_of_range,
    ``KTL.C85_pointers_in_range_partial,
    ``KTL.C86_contents_do_not_matter,
    ``KTL.C87_array_false,
    ``KTL.C87_cascading_false,
    ``KTL.C87_heap_false,
    ``KTL.C87_linear_false,
    ``KTL.C87_linear_false_program,
    ``KTL.C87_self_move_partial,
    ``KTL.C87_shared_false,
    ``KTL.C87_shared_vector_false,
    ``KTL.C87_vector_false,
    ``KTL.C88_cascading_false,
    ``KTL.C88_exit_partial,
    ``KTL.C88_global_partial,
    ``KTL.C88_linear_false,
    ``KTL.C89_assign_alloc_false,
    ``KTL.C89_assign_false,
    ``KTL.C89_copy_false,
    ``KTL.C89_list_false,
    ``KTL.C89_lost_partial,
    ``KTL.C89_survivors_partial,
    ``KTL.C90_local_allocators_are_isolated,
    ``KTL.C90_no_leak_right_sizes,
    ``KTL.C90_no_thread_is_stuck,
    ``KTL.C91_array_copy_assign_false,
    ``KTL.C91_array_no_null_partial,
    ``KTL.C91_array_pointers_in_range,
    ``KTL.C91_copy_assign_false,
    ``KTL.C91_erase_false,
    ``KTL.C91_heap_check_rejects,
    ``KTL.C91_heap_pointers_in_range,
    ``KTL.C91_push_false,
    ``KTL.C91_vector_no_null_partial,
    ``KTL.C91_vector_pointers_in_range,
    ``KTL.C92_counter_false,
    ``KTL.C92_narrow_array_partial,
    ``KTL.C92_narrow_array_returns_partial,
    ``KTL.C92_narrow_blocks_partial,
    ``KTL.C92_narrow_heap_partial,
    ``KTL.C92_narrow_heap_returns_partial,
    ``KTL.C92_narrow_owns_partial,
    ``KTL.C92_narrow_returns_partial,
    ``KTL.C92_narrow_safe_partial,
    ``KTL.C92_narrow_vector_partial,
    ``KTL.C92_narrow_vector_returns_partial,
    ``KTL.C92_overflow_wraps_false,
    ``KTL.C92_truncated_false,
    ``KTL.C92_truncates,
    ``KTL.C92_vector_false,
    ``KTL.C93_cascading_constructor_false,
    ``KTL.C93_cascading_full_false,
    ``KTL.C93_fallback_false,
    ``KTL.C93_overflow_report_false,
    ``KTL.C93_shared_constructor_false,
    ``KTL.C93_thrown_blocks_partial,
    ``KTL.C93_thrown_owns_partial,
    ``KTL.C93_thrown_reports_partial,
    ``KTL.C93_thrown_returns_partial,
    ``KTL.C93_thrown_safe_partial,
    ``KTL.C94_doors_blocks,
    ``KTL.C94_doors_no_alarm,
    ``KTL.C94_doors_owns,
    ``KTL.C94_doors_returns,
    ``KTL.C94_doors_safe,
    ``KTL.C94_freelist_block_to_inner,
    ``KTL.C94_inner_block_to_freelist,
    ``KTL.C94_overflow_wrong_way,
    ``KTL.C95_every_step,
    ``KTL.C95_no_data_race,
    ``KTL.C95_order,
    ``KTL.C95_records_honest,
    ``KTL.C96_arena_in_use,
    ``KTL.C96_around_all_blocks,
    ``KTL.C96_around_blocks,
    ``KTL.C96_around_no_alarm,
    ``KTL.C96_around_owns,
    ``KTL.C96_around_report,
    ``KTL.C96_around_returns,
    ``KTL.C96_around_safe,
    ``KTL.C96_segragator_wrong_part,
    ``KTL.C97_allocator_swap_partial,
    ``KTL.C97_array_swap,
    ``KTL.C97_heap_swap,
    ``KTL.C97_linear_false,
    ``KTL.C97_shared_swap,
    ``KTL.C97_vector_swap,
    ``KTL.C98_array_known,
    ``KTL.C98_arrays_same,
    ``KTL.C98_heaps_same,
    ``KTL.C98_shared_vectors_same,
    ``KTL.C98_vector_known,
    ``KTL.C98_vectors_same,
    ``KTL.C99_moved_from_false,
    ``KTL.C99_no_leak,
    ``KTL.C99_one_comparator,
    ``KTL.C99_own_comparator,
    ``KTL.C99_popping_sorts] do
    for a in ← collectAxioms n do
      unless a == ``propext || a == ``Classical.choice || a == ``Quot.sound do
        throwError m!"{n} depends on {a}"
