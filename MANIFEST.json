{
 "claims": [
  {
   "property": "C01",
   "status": "proved",
   "theorems": [
    "Verif.IntervalMap.C01_lookup_is_last_covering_assign",
    "Verif.IntervalMap.C01_empty_interval_is_noop"
   ],
   "note": "keys not below numeric_limits::lowest(); a key below it is UB (witness examples)"
  },
  {
   "property": "C02",
   "status": "proved",
   "theorems": [
    "Verif.IntervalMap.C02_partition_is_minimal"
   ],
   "note": ""
  },
  {
   "property": "C03",
   "status": "proved",
   "theorems": [
    "Verif.Tokens.C03_tokens_keepEmpty",
    "Verif.Tokens.C03_tokens_skipEmpty",
    "Verif.Tokens.C03_tokens_noSeparator",
    "Verif.Tokens.C03_spec_noSeparator",
    "Verif.Tokens.C03_spec_separator"
   ],
   "note": "iterators whose move is a copy; UB (leaving the range) is the none outcome and is excluded by the theorems"
  },
  {
   "property": "C04",
   "status": "proved",
   "theorems": [
    "Verif.Tokens.C04_join_tokens",
    "Verif.Tokens.C04_concat_tokens"
   ],
   "note": ""
  },
  {
   "property": "C05",
   "status": "proved",
   "theorems": [
    "Verif.Tokens.C05_isRoot_iff_no_names",
    "Verif.Tokens.C05_names_append",
    "Verif.Tokens.C05_extra_separators"
   ],
   "note": ""
  },
  {
   "property": "C06",
   "status": "proved",
   "theorems": [
    "Verif.AlignedAlloc.C06_aligned_and_in_block",
    "Verif.AlignedAlloc.C06_header_in_block_and_disjoint",
    "Verif.AlignedAlloc.C06_every_alignment_supported",
    "Verif.AlignedAlloc.C06_length_overflow_violated"
   ],
   "note": "operator new is assumed to return max_align_t-aligned memory for native alignments; unchecked length overflow shown by C06_length_overflow_violated"
  },
  {
   "property": "C07",
   "status": "proved",
   "theorems": [
    "Verif.AlignedAlloc.C07_deallocate_frees_raw"
   ],
   "note": ""
  },
  {
   "property": "C37",
   "status": "proved",
   "theorems": [
    "Verif.Mailbox.C37_fifo",
    "Verif.Mailbox.C37_accepted_while_open",
    "Verif.Mailbox.C37_user_after_system_and_start",
    "Verif.Mailbox.C37_started_before_user",
    "Verif.Mailbox.C37_nothing_after_stop",
    "Verif.Mailbox.C37_stays_open"
   ],
   "note": "atomic steps are the critical sections under the mailbox mutex; dynamic executor"
  },
  {
   "property": "C38",
   "status": "proved",
   "theorems": [
    "Verif.Mailbox.C38_mutual_exclusion",
    "Verif.Mailbox.C38_scheduled_iff"
   ],
   "note": ""
  },
  {
   "property": "C39",
   "status": "proved",
   "theorems": [
    "Verif.Mailbox.C39_work_is_scheduled",
    "Verif.Mailbox.C39_idle_means_done",
    "Verif.Mailbox.C39_progress",
    "Verif.Mailbox.C39_terminates",
    "Verif.Mailbox.C39_delivered"
   ],
   "note": ""
  },
  {
   "property": "C40",
   "status": "partial",
   "theorems": [
    "Verif.Mailbox.C40_stopped_never_touched_partial",
    "Verif.Mailbox.C40_open_never_ub",
    "Verif.Mailbox.C40_use_after_free_violated",
    "Verif.Mailbox.C40_runs_after_stop_violated"
   ],
   "note": "false of the code when a sender is between enqueue and schedule at the close; proved otherwise"
  },
  {
   "property": "C41",
   "status": "partial",
   "theorems": [
    "Verif.ThreadPool.C41_starts_in_order",
    "Verif.ThreadPool.C41_started_once",
    "Verif.ThreadPool.C41_destroyed_all_ran_partial",
    "Verif.ThreadPool.C41_work_conserving",
    "Verif.ThreadPool.C41_progress",
    "Verif.ThreadPool.C41_accepts",
    "Verif.ThreadPool.C41_every_task_runs",
    "Verif.ThreadPool.C41_drain_terminates",
    "Verif.ThreadPool.C41_destructor_returns",
    "Verif.ThreadPool.C41_zero_workers_violated",
    "Verif.ThreadPool.C41_throwing_task_violated",
    "Verif.ThreadPool.C41_enqueue_during_drain_violated"
   ],
   "note": "order, exactly-once and drain proved for >=1 worker and non-throwing tasks; zero workers, throwing tasks and enqueue while draining refuted"
  },
  {
   "property": "C42",
   "status": "partial",
   "theorems": [
    "Verif.Scheduler.C42_due_order_partial",
    "Verif.Scheduler.C42_each_at_most_once",
    "Verif.Scheduler.C42_soft_stop_drains",
    "Verif.Scheduler.C42_force_stop",
    "Verif.Scheduler.C42_due_event_wakes",
    "Verif.Scheduler.C42_clock",
    "Verif.Scheduler.C42_every_event_runs",
    "Verif.Scheduler.C42_every_event_runs_unless_stopped",
    "Verif.Scheduler.C42_lives",
    "Verif.Scheduler.C42_equal_times_newest_first",
    "Verif.Scheduler.C42_fifo_violated"
   ],
   "note": "everything but the order of equal due times, which is newest first (refuted)"
  },
  {
   "property": "C43",
   "status": "proved",
   "theorems": [
    "Verif.ActorCell.C43_lifecycle",
    "Verif.ActorTree.C43_started_at_most_once",
    "Verif.ActorTree.C43_lifecycle_in_tree",
    "Verif.ActorTree.C43_lifecycle_good"
   ],
   "note": "every execution of the actor tree model"
  },
  {
   "property": "C44",
   "status": "partial",
   "theorems": [
    "Verif.ActorTree.C44_stop_tells_watchers_partial",
    "Verif.ActorTree.C44_told_at_most_once",
    "Verif.ActorTree.C44_watch_registers",
    "Verif.ActorTree.C44_watcher_is_told_partial",
    "Verif.ActorCell.C44_watchers_told_once_partial",
    "Verif.ActorCell.C44_failed_start_violated",
    "Verif.ActorTree.C44_watch_destroyed_partial",
    "Verif.ActorTree.C44_lost_watch_violated"
   ],
   "note": "refuted for a failing pre_start and for a watch between the close and the destruction of the watched actor"
  },
  {
   "property": "C45",
   "status": "partial",
   "theorems": [
    "Verif.ActorCell.C45_children_gone_when_stopped",
    "Verif.ActorCell.C45_stops_when_children_detached",
    "Verif.ActorTree.C45_parent_after_children_partial",
    "Verif.ActorTree.C45_stop_completes_partial",
    "Verif.ActorTree.C45_waits_only_for_running_children_partial",
    "Verif.ActorCell.C45_failed_start_violated",
    "Verif.ActorCell.C45_stop_before_attach_violated",
    "Verif.ActorTree.C45_failed_start_hangs_violated",
    "Verif.ActorTree.C45_stop_before_attach_hangs_violated"
   ],
   "note": "proved for executions whose environment is well-behaved (no failing pre_start, no stop before attach, distinct sibling names); refuted otherwise"
  },
  {
   "property": "C46",
   "status": "partial",
   "theorems": [
    "Verif.ActorCell.C46_detach_removes_that_child_partial",
    "Verif.ActorCell.C46_same_name_violated",
    "Verif.ActorTree.C46_no_running_actor_destroyed_partial",
    "Verif.ActorTree.C46_same_name_destroys_running_violated"
   ],
   "note": "refuted for siblings of the same name"
  },
  {
   "property": "C11",
   "status": "partial",
   "theorems": [
    "Verif.Views.C11_move",
    "Verif.Views.C11_steps",
    "Verif.Views.C11_forward_partial",
    "Verif.Views.C11_one_byte_rows",
    "Verif.Views.C11_backward_violated",
    "Verif.Views.C11_empty_rows_violated"
   ],
   "note": "refuted for every backward distance over rows of two or more bytes"
  },
  {
   "property": "C12",
   "status": "proved",
   "theorems": [
    "Verif.Views.allIdx_spec",
    "Verif.Views.C12_vector_row_major",
    "Verif.Views.C12_array_row_major",
    "Verif.Views.C12_total_size"
   ],
   "note": ""
  },
  {
   "property": "C13",
   "status": "proved",
   "theorems": [
    "Verif.Views.C13_array_at",
    "Verif.Views.C13_vector_at",
    "Verif.Views.C13_view_at"
   ],
   "note": "index arguments of at most 64 bits, extents at most 2^63"
  },
  {
   "property": "C14",
   "status": "partial",
   "theorems": [
    "Verif.Views.C14_element_strides",
    "Verif.Views.C14_byte_strides",
    "Verif.Views.C14_byte_stride_check_violated"
   ],
   "note": "proved for element strides not smaller than the extents and for byte strides not smaller than a row; the check the byte stride constructor makes is too weak, refuted under it"
  },
  {
   "property": "C15",
   "status": "proved",
   "theorems": [
    "Verif.Views.C15_view_continuous",
    "Verif.Views.C15_proxy_continuous",
    "Verif.Views.C15_element_strides",
    "Verif.Views.C15_byte_strides",
    "Verif.Views.C15_dense_is_continuous",
    "Verif.Views.C15_overlapping_rows_violated"
   ],
   "note": "views with non-overlapping rows, as the property says; the last theorem shows this hypothesis is needed"
  },
  {
   "property": "C16",
   "status": "partial",
   "theorems": [
    "Verif.Views.C16_default",
    "Verif.Views.C16_zero_partial",
    "Verif.Views.C16_zero_dense_partial",
    "Verif.Views.C16_clamp_partial",
    "Verif.Views.C16_clamp_dense_partial",
    "Verif.Views.C16_wide_index_violated",
    "Verif.Views.C16_clamp_empty_violated",
    "Verif.Views.C16_sampler_view",
    "Verif.Views.C16_sampler_dense"
   ],
   "note": "refuted for indices beyond 32 bits and for clamping into an empty dimension; for any sampler, also one that distinguishes dimensions, the loads are characterised exactly"
  },
  {
   "property": "C08",
   "status": "partial",
   "theorems": [
    "Verif.Ranges.rep_iff",
    "Verif.Ranges.rep_ofList",
    "Verif.Ranges.C08_filter",
    "Verif.Ranges.C08_caching_partial",
    "Verif.Ranges.C08_filter_list",
    "Verif.Ranges.C08_before_first_match",
    "Verif.Ranges.C08_caching_big_builds",
    "Verif.Ranges.C08_caching_small_violated",
    "Verif.Ranges.C08_caching_big_violated",
    "Verif.Ranges.C08_caching_reverse_violated"
   ],
   "note": "proved in full for the default policy. With the caching policy it holds for small trivially copyable types only: for other small types filter() moves an empty cache (undefined) and for types above 64 bytes every loop copies an empty cache (null dereference); a reversed caching filter is undefined, too"
  },
  {
   "property": "C09",
   "status": "partial",
   "theorems": [
    "Verif.Ranges.C09_loop",
    "Verif.Ranges.C09_map",
    "Verif.Ranges.C09_map_calls",
    "Verif.Ranges.C09_reverse",
    "Verif.Ranges.C09_reverse_composes",
    "Verif.Ranges.C09_zip_partial",
    "Verif.Ranges.C09_fold_left",
    "Verif.Ranges.C09_fold_right",
    "Verif.Ranges.C09_tail",
    "Verif.Ranges.C09_pipeline",
    "Verif.Ranges.C09_zip_unequal_violated"
   ],
   "note": "zip of ranges of different lengths runs past the end of the shorter one (refuted for every such pair)"
  },
  {
   "property": "C10",
   "status": "partial",
   "theorems": [
    "Verif.Numeric.C10_enumerates",
    "Verif.Numeric.C10_loop",
    "Verif.Numeric.C10_plus_difference",
    "Verif.Numeric.C10_distance_partial",
    "Verif.Numeric.C10_checked_forward",
    "Verif.Numeric.C10_checked_backward",
    "Verif.Numeric.C10_steps",
    "Verif.Numeric.C10_iterator_steps",
    "Verif.Numeric.C10_minus_undoes_plus",
    "Verif.Numeric.C10_checked_minus_negative_violated",
    "Verif.Numeric.C10_reverse_violated",
    "Verif.Numeric.C10_reverse_zip_violated",
    "Verif.Numeric.C10_unsigned_distance_violated",
    "Verif.Numeric.C10_checked_negative_offset_violated",
    "Verif.Numeric.C10_checked_unsigned_violated"
   ],
   "note": "forward enumeration and i+(j-i)=j in release builds proved; reversed ranges read through a dangling reference; unsigned distances and checked backward offsets are wrong"
  },
  {
   "property": "C31",
   "status": "proved",
   "theorems": [
    "Verif.Numeric.C31_narrow_cast"
   ],
   "note": "every pair of integer types"
  },
  {
   "property": "C17",
   "status": "partial",
   "theorems": [
    "Verif.Numeric.C17_nearest_index_partial",
    "Verif.Numeric.C17_nearest_sample_partial",
    "Verif.Numeric.C17_rounded_samples_violated",
    "Verif.Numeric.C17_nonzero_first_violated"
   ],
   "note": "proved for tables starting at 0 up to one unit of rounding; refuted beyond"
  },
  {
   "property": "C18",
   "status": "partial",
   "theorems": [
    "Verif.Numeric.C18_encloses_partial",
    "Verif.Numeric.C18_linear",
    "Verif.Numeric.C18_at_sample_partial",
    "Verif.Numeric.C18_rounded_sample_violated",
    "Verif.Numeric.C18_negative_first_violated",
    "Verif.Numeric.C18_negative_values_violated"
   ],
   "note": "proved for 0 <= first, non-negative values and unrounded samples; refuted otherwise"
  },
  {
   "property": "C19",
   "status": "partial",
   "theorems": [
    "Verif.VectorNd.C19_list_partial",
    "Verif.VectorNd.C19_rows_partial",
    "Verif.VectorNd.C19_rows_shape",
    "Verif.VectorNd.C19_call",
    "Verif.VectorNd.C19_copy",
    "Verif.VectorNd.C19_capacity_calls",
    "Verif.VectorNd.C19_empty_rows_violated",
    "Verif.VectorNd.C19_push_empty_rows_violated",
    "Verif.VectorNd.C19_assign_nothing_violated"
   ],
   "note": "every program whose rows have elements and which does not assign nothing to nothing; refuted for rows without elements and for assigning or copying nothing"
  },
  {
   "property": "C20",
   "status": "proved",
   "theorems": [
    "Verif.VectorNd.C20_lifetimes",
    "Verif.VectorNd.C20_lifetimes_nd",
    "Verif.VectorNd.C20_checks",
    "Verif.VectorNd.C20_frame"
   ],
   "note": "every program of calls that meet their preconditions (as in C19)"
  },
  {
   "property": "C21",
   "status": "partial",
   "theorems": [
    "Verif.VectorNd.C21_call_partial",
    "Verif.VectorNd.C21_call_nd_partial",
    "Verif.VectorNd.C21_reuse_partial",
    "Verif.VectorNd.C21_reuse_nd_partial",
    "Verif.VectorNd.C21_insert_alloc_violated"
   ],
   "note": "refuted when the allocation in insert throws; proved for every other throw point"
  },
  {
   "property": "C22",
   "status": "partial",
   "theorems": [
    "Verif.VectorNd.C22_self_push_violated",
    "Verif.VectorNd.C22_self_push_partial"
   ],
   "note": "refuted at full capacity (reads freed storage); proved below"
  },
  {
   "property": "C23",
   "status": "proved",
   "theorems": [
    "Verif.VectorNd.C23_push_cost",
    "Verif.VectorNd.C23_push_cost_empty",
    "Verif.VectorNd.C23_push_cost_nd",
    "Verif.VectorNd.C23_capacity"
   ],
   "note": "sizes up to half the range of size_t, beyond which the code stops doubling"
  },
  {
   "property": "C25",
   "status": "partial",
   "theorems": [
    "Verif.VectorView.C25_insert_partial",
    "Verif.VectorView.C25_insert_middle_violated",
    "Verif.VectorView.C25_insert_overrun_violated",
    "Verif.VectorView.C25_insert_outside_violated",
    "Verif.VectorView.C25_erase_partial",
    "Verif.VectorView.C25_erase_violated",
    "Verif.VectorView.C25_others",
    "Verif.VectorView.C25_at"
   ],
   "note": "Insertion before the end always, and erasure with a tail longer than what is erased, call std::move / std::move_backward on ranges that overlap in the forbidden direction; insertion also writes up to as many cells behind the buffer as it inserts. Proved for moves that behave like memmove and room for twice the elements, or positions where the ranges do not overlap that way; all other members proved without restriction. Violations proved in general."
  },
  {
   "property": "C26",
   "status": "partial",
   "theorems": [
    "Verif.DynArray.C26_partial",
    "Verif.DynArray.C26_move_assign_violated",
    "Verif.DynArray.C26_assign_alias_violated",
    "Verif.DynArray.C26_assign_list_violated",
    "Verif.DynArray.C26_assign_list_throws",
    "Verif.DynArray.C26_throw_assign_violated",
    "Verif.DynArray.C26_throw_ctor_violated",
    "Verif.DynArray.C26_size_violated"
   ],
   "note": "Proved for all programs over any number of arrays, with arbitrarily failing allocations, that do not move-assign to an array owning a block, assign from an initializer list or assign an array its own element, and whose element constructors do not throw. Each of these restrictions is shown necessary."
  },
  {
   "property": "C27",
   "status": "partial",
   "theorems": [
    "Verif.Optional.C27_partial",
    "Verif.Optional.C27_lifetimes",
    "Verif.Optional.C27_swap_violated"
   ],
   "note": "Proved for all programs over any number of optionals with throwing constructors, assignments, swaps and callbacks anywhere, except self-assignment (excluded by a contract of the code) and x.swap(y) with x full and y empty, which destroys the value instead of moving it to y (proved as a violation). Lifetimes are proved for every execution."
  },
  {
   "property": "C28",
   "status": "partial",
   "theorems": [
    "Verif.Variant.C28_partial",
    "Verif.Variant.C28_no_moves_partial",
    "Verif.Variant.C28_move_violated",
    "Verif.Variant.C28_move_assign_violated",
    "Verif.Variant.C28_valueless_violated",
    "Verif.Variant.C28_throw_valueless"
   ],
   "note": "Proved for all programs over any number of variants with any alternatives and exceptions anywhere, including variant_cast, as long as no valueless variant is copied, assigned to, emplaced into or asked for its type (undefined in the code, proved) and get_or / get_opt do not throw inside their noexcept bodies. Which objects stay undestroyed is characterised exactly: those of variants that were moved from (a leak in the code, proved as a violation); without moves every object is destroyed exactly once."
  },
  {
   "property": "C29",
   "status": "partial",
   "theorems": [
    "Verif.Any.C29_partial",
    "Verif.Any.C29_strong_guarantee",
    "Verif.Any.C29_move",
    "Verif.Any.C29_nested_copy",
    "Verif.Any.C29_copy_violated"
   ],
   "note": "Full statement: also for copies made from non-const sources. Proved for every program of statements over any number of variables, types and exceptions when copies have const sources (C29_partial); exceptions change nothing and moves empty the source in every state; copies from const sources copy nested contents at every depth (C29_nested_copy). C29_copy_violated: direct copy construction or copy assignment from a non-const any picks the value template, so the copy holds an any and get of the value type throws."
  },
  {
   "property": "C30",
   "status": "partial",
   "theorems": [
    "Verif.Match.C30_any_partial",
    "Verif.Match.C30_variant_partial",
    "Verif.Match.C30_any_exact",
    "Verif.Match.C30_variant_exact",
    "Verif.Match.C30_callable",
    "Verif.Match.C30_const_ref",
    "Verif.Match.C30_const_violated",
    "Verif.Match.C30_valueless_violated"
   ],
   "note": "C30_any_partial / C30_variant_partial: the outcome is the only one the property allows, for every case list and value, when cases of the stored type can be called with the value and default and empty cases are given once. The _exact theorems say what happens in general: cases that cannot be called (T& for a const value) are passed over silently (C30_const_violated) and of several default or empty cases the last is taken. A valueless variant is undefined behaviour (C30_valueless_violated)."
  },
  {
   "property": "C32",
   "status": "partial",
   "theorems": [
    "Verif.Finally.C32_partial",
    "Verif.Finally.C32_compiles_partial",
    "Verif.Finally.C32_twice_violated",
    "Verif.Finally.C32_assign_violated",
    "Verif.Finally.C32_named_violated",
    "Verif.Finally.C32_move_only_violated"
   ],
   "note": "Proved for every program of constructions, moves and destructions in which guards are moved from owners, or whose action does not survive a move. C32_twice_violated: a moved-from guard that is moved again re-arms the action. C32_assign_violated: move assignment has no return statement, so it is undefined. C32_compiles_partial says for which actions make_finally compiles: not for a named variable that is not const (C32_named_violated), and not for an action that cannot be copied (C32_move_only_violated)."
  },
  {
   "property": "C35",
   "status": "partial",
   "theorems": [
    "Verif.Meta.C35_sort",
    "Verif.Meta.C35_unique",
    "Verif.Meta.C35_find",
    "Verif.Meta.C35_laws_partial",
    "Verif.Meta.C35_merge_partial",
    "Verif.Meta.C35_sort_sizeof",
    "Verif.Meta.C35_reverse_violated",
    "Verif.Meta.C35_merge_violated",
    "Verif.Meta.C35_sizeof_violated"
   ],
   "note": "Sort, unique, find and the list laws are proved for every list (of less than 2^64 types) and every strict weak order that compiles. Exceptions, proved: reversing the empty list, merging two empty lists, and comparing void with void by size do not compile."
  },
  {
   "property": "C33",
   "status": "partial",
   "theorems": [
    "Verif.Attributes.C33_partial",
    "Verif.Attributes.C33_validator_violated",
    "Verif.Attributes.C33_any_violated"
   ],
   "note": "Proved for every sequence of calls, key order and validator when only accepted keys are set and not from non-const any variables. C33_validator_violated: a rejected attribute is stored and set_attribute answers true. C33_any_violated: setting from a non-const any stores a nested any."
  },
  {
   "property": "C34",
   "status": "partial",
   "theorems": [
    "Verif.AtomicAttributes.C34_partial",
    "Verif.AtomicAttributes.C34_clear_violated",
    "Verif.AtomicAttributes.C34_register_violated"
   ],
   "note": "Proved for every sequence of calls without re-registration and without setting cleared attributes (or copying while one is cleared). C34_clear_violated: after clear the attribute can never be set again and copying throws. C34_register_violated: registering an existing key answers false but replaces the value, and with another type makes it unusable."
  },
  {
   "property": "C36",
   "status": "partial",
   "theorems": [
    "Verif.ActorPath.C36_parse_partial",
    "Verif.ActorPath.C36_roundtrip",
    "Verif.ActorPath.C36_name",
    "Verif.ActorPath.C36_join",
    "Verif.ActorPath.C36_build",
    "Verif.ActorPath.C36_names",
    "Verif.ActorPath.C36_slashes_violated",
    "Verif.ActorPath.C36_prefix_violated"
   ],
   "note": "C36_roundtrip holds for every system name, scope and name the constructor accepts; C36_parse_partial for every raw string that is not a proper prefix of yato://. C36_prefix_violated: parsing a proper prefix of yato:// reads at the end of the string. C36_slashes_violated: a name of slashes only is accepted by the constructor but parsing the path answers false."
  },
  {
   "property": "C47",
   "status": "partial",
   "theorems": [
    "Verif.NameGenerator.C47_partial",
    "Verif.NameGenerator.C47_system",
    "Verif.NameGenerator.C47_serial",
    "Verif.NameGenerator.C47_prefix_violated",
    "Verif.NameGenerator.C47_race_violated"
   ],
   "note": "Proved for every sequence of up to 2^64 calls, one after another, with prefixes none of which is another one followed by digits; in particular for the prefixes the system uses. C47_prefix_violated: prefixes a1 and a collide. C47_race_violated: two concurrent callers get the same name."
  },
  {
   "property": "C48",
   "status": "partial",
   "theorems": [
    "Verif.Execution.C48_partial",
    "Verif.Execution.C48_init",
    "Verif.Execution.C48_contexts",
    "Verif.Execution.C48_first",
    "Verif.Execution.C48_default",
    "Verif.Execution.C48_second_violated",
    "Verif.Execution.C48_unknown_violated"
   ],
   "note": "The search range is empty, so the first context is always chosen. C48_partial states exactly when this is right; C48_second_violated and C48_unknown_violated are concrete configurations where it is not."
  },
  {
   "property": "C49",
   "status": "proved",
   "theorems": [
    "Verif.Behaviours.C49",
    "Verif.Behaviours.C49_handler",
    "Verif.Behaviours.C49_lifo",
    "Verif.Behaviours.C49_bottom"
   ],
   "note": "Every sequence of become and unbecome calls."
  },
  {
   "property": "C50",
   "status": "proved",
   "theorems": [
    "Verif.Config.C50",
    "Verif.Config.C50_unique",
    "Verif.Config.tokenizer_ok"
   ],
   "note": "Every tree and every path string; lookup is also shown to run the tokenizer of path.h."
  },
  {
   "property": "C51",
   "status": "partial",
   "theorems": [
    "Verif.Config.C51_object",
    "Verif.Config.C51_array",
    "Verif.Config.C51_ub",
    "Verif.Config.C51_key_index",
    "Verif.Config.C51_index_size",
    "Verif.Config.C51_keys",
    "Verif.Config.C51_ok",
    "Verif.Config.C51_properties",
    "Verif.Config.C51_copy_spent_violated"
   ],
   "note": "Every sequence of builder operations. Missing: copying a builder after create dereferences a null pointer (C51_copy_spent_violated)."
  },
  {
   "property": "C52",
   "status": "partial",
   "theorems": [
    "Verif.Config.C52_partial",
    "Verif.Config.C52_throws",
    "Verif.Config.C52_ok",
    "Verif.Config.C52_root_violated",
    "Verif.Config.C52_multimap_violated"
   ],
   "note": "Proved for non-empty paths whenever no exception is thrown. C52_throws: it throws exactly if an array is on the path. The root path adds an entry with an empty name that no path reaches (C52_root_violated); in a multimap the other values of the name become empty (C52_multimap_violated)."
  },
  {
   "property": "C53",
   "status": "partial",
   "theorems": [
    "Verif.Config.C53_partial",
    "Verif.Config.C53_scalar_violated",
    "Verif.Config.C53_array_violated"
   ],
   "note": "A scalar above the path becomes null, and an array on the path throws; proved for all other trees and paths."
  },
  {
   "property": "C54",
   "status": "partial",
   "theorems": [
    "Verif.Config.C54_partial",
    "Verif.Config.C54_arrays",
    "Verif.Config.C54_winner",
    "Verif.Config.C54_other",
    "Verif.Config.C54_dot_violated",
    "Verif.Config.C54_dot_throws_violated",
    "Verif.Config.C54_multimap_violated",
    "Verif.Config.C54_conflict_violated"
   ],
   "note": "Proved for every pair of trees without multimaps whose names have no separator. A name with a separator is lost or makes merge throw; values of multimaps are lost; paths below an object that meets another value of the priority side are lost."
  },
  {
   "property": "C55",
   "status": "proved",
   "theorems": [
    "Verif.Config.C55_clone",
    "Verif.Config.C55_clone_path",
    "Verif.Config.C55_filter",
    "Verif.Config.C55_only_path",
    "Verif.Config.C55_only_path_throws"
   ],
   "note": "Every tree; the hypotheses of each theorem are those a tree made by the builder meets."
  },
  {
   "property": "C57",
   "status": "partial",
   "theorems": [
    "Verif.Config.C57_partial",
    "Verif.Config.C57_null",
    "Verif.Config.C57_nested_violated"
   ],
   "note": "Proved for paths of one name; for a nested path find uses the position inside the nested config for the top-level one (C57_nested_violated)."
  },
  {
   "property": "C56",
   "status": "partial",
   "theorems": [
    "Verif.ScalarText.C56_int_partial",
    "Verif.ScalarText.C56_int_exact",
    "Verif.ScalarText.C56_int_only",
    "Verif.ScalarText.C56_int_roundtrip",
    "Verif.ScalarText.C56_int_text",
    "Verif.ScalarText.C56_bool",
    "Verif.ScalarText.C56_bool_roundtrip",
    "Verif.ScalarText.C56_ub",
    "Verif.ScalarText.C56_blank_violated",
    "Verif.ScalarText.C56_overflow_violated",
    "Verif.ScalarText.C56_ub_violated"
   ],
   "note": "Every string of 7-bit characters and every 64-bit integer. A string of blanks decodes to 0, a literal outside of 64 bits to the nearest number, and a byte over 127 gives undefined behaviour (the _violated theorems)."
  },
  {
   "property": "C58",
   "status": "proved",
   "theorems": [
    "Verif.Ini.C58",
    "Verif.Ini.C58_contents",
    "Verif.Ini.C58_index"
   ],
   "note": "Every sequence of values reported by the inih parser, which itself is not part of the repository."
  },
  {
   "property": "C59",
   "status": "proved",
   "theorems": [
    "Verif.ScalarText.C59_type",
    "Verif.ScalarText.C59_string",
    "Verif.ScalarText.C59_roundtrip",
    "Verif.ScalarText.C59_real",
    "Verif.ScalarText.C59_ub"
   ],
   "note": "double arithmetic and its text conversions are parameters; C59_ub states when there is no undefined behaviour."
  },
  {
   "property": "C60",
   "status": "partial",
   "theorems": [
    "Verif.Config.C60_round_trip",
    "Verif.Config.C60_round_trip_default",
    "Verif.Config.C60_values_partial",
    "Verif.Config.C60_number",
    "Verif.Config.C60_indices",
    "Verif.Config.C60_scalar_document",
    "Verif.Config.C60_key_index",
    "Verif.Config.C60_multimap_violated",
    "Verif.Config.C60_order_violated",
    "Verif.Config.C60_null_violated",
    "Verif.Config.C60_unsigned_violated"
   ],
   "note": "The JSON library is a parameter with parse (dump j) = j. Proved in full for trees whose objects all have one kind; otherwise values of equal keys are lost except the first, and nested orders follow the root (the _violated theorems)."
  },
  {
   "property": "C61",
   "status": "partial",
   "theorems": [
    "Verif.Config.C61_round_trip_partial",
    "Verif.Config.C61_multimap_violated",
    "Verif.Config.C61_order_violated",
    "Verif.Config.C61_null_violated",
    "Verif.Config.C61_type_violated"
   ],
   "note": "The YAML library is a parameter. Equal keys keep the last value, key order is lost, null becomes an empty object, and scalars become text (the _violated theorems)."
  },
  {
   "property": "C62",
   "status": "partial",
   "theorems": [
    "Verif.Config.C62_round_trip_partial",
    "Verif.Config.C62_objects",
    "Verif.Config.C62_array_violated",
    "Verif.Config.C62_zero_violated",
    "Verif.Config.C62_root_violated",
    "Verif.Config.C62_lookup_defined"
   ],
   "note": "The XML library is a parameter. Arrays become objects, strings are cut at a zero byte, and a document without a root has undefined behaviour on lookup (the _violated theorems)."
  },
  {
   "property": "C63",
   "status": "partial",
   "theorems": [
    "Verif.Config.C63_round_trip_partial",
    "Verif.Config.C63_skipped",
    "Verif.Config.C63_load_scalar",
    "Verif.Config.C63_load_vector",
    "Verif.Config.C63_load_map",
    "Verif.Config.C63_vector_of_optionals",
    "Verif.Config.C63_narrow",
    "Verif.Config.C63_vector_violated",
    "Verif.Config.C63_nested_violated",
    "Verif.Config.C63_narrow_violated"
   ],
   "note": "Proved for every value without empty optionals and null pointers inside; C63_vector_of_optionals says what is left of a sequence with empty ones. float and long double are in C103."
  },
  {
   "property": "C64",
   "status": "partial",
   "theorems": [
    "Verif.Storage.C64_partial",
    "Verif.Storage.C64_heap_answer",
    "Verif.Storage.C64_interchangeable",
    "Verif.Storage.C64_lifetimes",
    "Verif.Storage.C64_default_violated",
    "Verif.Storage.C64_assign_violated",
    "Verif.Storage.C64_swap_violated",
    "Verif.Storage.C64_copy_violated"
   ],
   "note": "In full on the heap except for copies of empty storages; on the stack without default construction and without exceptions in assignment and swap (the _violated theorems)."
  },
  {
   "property": "C66",
   "status": "partial",
   "theorems": [
    "Verif.Root.C66_order_partial",
    "Verif.Root.C66_bounded",
    "Verif.Root.C66_completes",
    "Verif.Root.C66_shutdown",
    "Verif.Root.C66_add",
    "Verif.Root.C66_add_refused",
    "Verif.Root.C66_ext_violated",
    "Verif.Root.C66_order_violated"
   ],
   "note": "Completion is proved without restriction; the order for histories in which nobody stops a guardian by its reference (the _violated theorems)."
  },
  {
   "property": "C67",
   "status": "partial",
   "theorems": [
    "Verif.Ask.C67_ask_partial",
    "Verif.Ask.C67_ask_ready_partial",
    "Verif.Ask.C67_find",
    "Verif.Ask.C67_find_ready_partial",
    "Verif.Ask.C67_early_timeout_violated",
    "Verif.Ask.C67_early_timeout_find_violated",
    "Verif.Ask.C67_shutdown_violated",
    "Verif.Ask.C67_uncopyable_violated"
   ],
   "note": "Proved for every sequence of messages of the actor: the value of the future is the first reply (result), else the default when the actor stopped, and it is set at most once; a started actor that is stopped makes its future ready. False of the code: a timeout before the actor was started, or a system that is shutting down, breaks the promise; a reply that cannot be copied is lost."
  },
  {
   "property": "C68",
   "status": "partial",
   "theorems": [
    "Verif.Selection.C68_answer",
    "Verif.Selection.C68_answered",
    "Verif.Selection.C68_found",
    "Verif.Selection.C68_path",
    "Verif.Selection.C68_invalid",
    "Verif.Selection.C68_closed",
    "Verif.Selection.C68_twins_violated",
    "Verif.Selection.C68_other_system_violated"
   ],
   "note": "Proved for every execution of the model: at most one answer, what each answer means, that an actor created before find is found when its names are unique and no actor on the way stops, and that the path of a reference searches for its own route. False of the code: with two siblings of the same name only the first is searched (the message is moved from), and the name of the system in the path is not looked at."
  },
  {
   "property": "C65",
   "status": "partial",
   "theorems": [
    "Verif.Pinned.C65_fifo",
    "Verif.Pinned.C65_stays_open",
    "Verif.Pinned.C65_exclusive",
    "Verif.Pinned.C65_work",
    "Verif.Pinned.C65_limit",
    "Verif.Pinned.C65_safe_partial",
    "Verif.Pinned.C65_race_violated",
    "Verif.Pinned.C65_limit_violated",
    "Verif.Pinned.C65_nothing_after_stop",
    "Verif.Pinned.C65_delivered",
    "Verif.Pinned.C65_progress",
    "Verif.Pinned.C65_late_sender_violated",
    "Verif.Pinned.C65_join_violated"
   ],
   "note": "Proved for every interleaving: order, no loss while open, mutual exclusion, no lost wake-up, the limit, and that for open mailboxes the only undefined behaviour is the race of two senders inside execute. False of the code: execute is not synchronized, ended threads count towards the limit for ever, a late sender may use a destroyed actor, or start a thread that waits for ever so that the destructor does not return."
  },
  {
   "property": "C69",
   "status": "partial",
   "theorems": [
    "Verif.Tcp.C69_told",
    "Verif.Tcp.C69_received",
    "Verif.Tcp.C69_closed",
    "Verif.Tcp.C69_written",
    "Verif.Tcp.C69_order",
    "Verif.Tcp.C69_stops",
    "Verif.Tcp.C69_assign_gone",
    "Verif.Tcp.C69_end_told",
    "Verif.Tcp.C69_manager_partial",
    "Verif.Tcp.C69_short_read_violated",
    "Verif.Tcp.C69_spurious_violated",
    "Verif.Tcp.C69_short_send_violated",
    "Verif.Tcp.C69_orphan_violated",
    "Verif.Tcp.C69_bind_violated"
   ],
   "note": "Proved for every interleaving: one handler, data before at most one peer_closed; the stream if reads are complete, its end if the kernel reports no idle socket as readable, writing if sends are complete; requests in order; the connection stops after the end of the stream or of a handler that knows to be watched. False of the code: short reads invent bytes, readiness without data closes the connection, short sends lose data, a handler that dies early is not noticed, an address that does not resolve is undefined behaviour, a failed bind is reported as bound."
  },
  {
   "property": "C70",
   "status": "partial",
   "theorems": [
    "Verif.Udp.C70_received",
    "Verif.Udp.C70_prefix",
    "Verif.Udp.C70_whole",
    "Verif.Udp.C70_next",
    "Verif.Udp.C70_safe_partial",
    "Verif.Udp.C70_ends",
    "Verif.Udp.C70_closed_once",
    "Verif.Udp.C70_stops",
    "Verif.Udp.C70_pill",
    "Verif.Udp.C70_bind_partial",
    "Verif.Udp.C70_freed_violated",
    "Verif.Udp.C70_orphan_violated",
    "Verif.Udp.C70_bind_violated"
   ],
   "note": "Proved for every interleaving: delivery, whole, once, in order, with the right sender; progress; the end of the socket and of the binding. False of the code: when the actor is destroyed the receiver goes before the socket is closed, so the sender of a datagram can be written into freed memory; nobody watches the handler; a bind that fails is not answered, and the host asked for is ignored."
  },
  {
   "property": "C71",
   "status": "partial",
   "theorems": [
    "Verif.Tuple.C71_for_each",
    "Verif.Tuple.C71_all_of",
    "Verif.Tuple.C71_any_of",
    "Verif.Tuple.C71_all_of_state",
    "Verif.Tuple.C71_any_of_state",
    "Verif.Tuple.C71_transform_partial",
    "Verif.Tuple.C71_transform_in_order",
    "Verif.Tuple.C71_two",
    "Verif.Tuple.C71_lvalue_arg",
    "Verif.Tuple.C71_dup",
    "Verif.Tuple.C71_split",
    "Verif.Tuple.C71_transform_violated",
    "Verif.Tuple.C71_rvalue_arg_violated"
   ],
   "note": "Proved for all sizes, functors and states; transform for all orders of evaluation if the answer does not depend on the state, and in order for a compiler that evaluates left to right. False of the code: with a state the result of transform depends on the compiler; an rvalue argument is forwarded to every call, so the second call may get a moved-from value."
  },
  {
   "property": "C72",
   "status": "partial",
   "theorems": [
    "Verif.Cmd.C72_names",
    "Verif.Cmd.C72_index",
    "Verif.Cmd.C72_value",
    "Verif.Cmd.C72_required",
    "Verif.Cmd.C72_used_partial",
    "Verif.Cmd.C72_duplicate",
    "Verif.Cmd.C72_used_violated",
    "Verif.Cmd.C72_unreadable_violated",
    "Verif.Cmd.C72_exit_violated"
   ],
   "note": "TCLAP is a parameter. Proved for every list of arguments and command line: names, order, values, defaults, duplicates, throwing after use. False of the code: set_ostream of a used builder dereferences null; a value that cannot be read is silently no value and the default is not used; a wrong command line ends the program (TCLAP handles its exceptions by exit) instead of throwing."
  },
  {
   "property": "C73",
   "status": "partial",
   "theorems": [
    "Verif.Cmd.C73_state",
    "Verif.Cmd.C73_dispatch_partial",
    "Verif.Cmd.C73_unknown",
    "Verif.Cmd.C73_again_violated"
   ],
   "note": "Proved for every history, for the first command line of each registration. False of the code: parsing a second command line for the same alternative dereferences null, since the builder was used up."
  },
  {
   "property": "C74",
   "status": "partial",
   "theorems": [
    "Verif.VectorNd.C74_values_partial",
    "Verif.VectorNd.C74_exceptions_partial",
    "Verif.VectorNd.C74_memory",
    "Verif.VectorNd.C74_no_copies",
    "Verif.VectorNd.C74_empty_copy_violated"
   ],
   "note": "Proved for all programs in which vectors of one dimension are not created or copied empty, objects are not assigned to or swapped with themselves (a contract of the library) and the preconditions of C19 hold. False of the code: copying an empty vector of one dimension, or reshaping an empty vector to one dimension, violates a contract. Allocations that throw inside insert are excluded (C21)."
  },
  {
   "property": "C75",
   "status": "partial",
   "theorems": [
    "Verif.VectorNd.C75_nested_list_partial",
    "Verif.VectorNd.C75_decision",
    "Verif.VectorNd.C75_no_elements_violated"
   ],
   "note": "Proved for all nested lists. False of the code: lists of different lengths are accepted when there is no element at all (nothing is checked then), and the empty list violates a contract when the vector has one dimension."
  },
  {
   "property": "C76",
   "status": "partial",
   "theorems": [
    "Verif.VectorNd.C76_from_view_partial",
    "Verif.VectorNd.C76_from_proxy_partial",
    "Verif.VectorNd.C76_push_back_view",
    "Verif.VectorNd.C76_insert_views",
    "Verif.VectorNd.C76_overlapping_violated"
   ],
   "note": "Proved for views whose rows do not overlap. False of the code: the constructor from byte strides does not refuse overlapping rows, continuous() is then wrong and other elements are copied; an empty view of one dimension violates a contract."
  },
  {
   "property": "C77",
   "status": "partial",
   "theorems": [
    "Verif.Reflection.C77_static_partial",
    "Verif.Reflection.C77_answers",
    "Verif.Reflection.C77_returns_partial",
    "Verif.Reflection.C77_functions_violated",
    "Verif.Reflection.C77_retry_violated",
    "Verif.Reflection.C77_as_ptr_violated"
   ],
   "note": "Proved for data members. False of the code: YATO_REFLECT_METHOD appends to the list of data members, so member_functions_list holds data members and one function only; a registration that fails after the first member makes every later call throw; as_ptr does not check types. One thread; managers made by instance() only."
  },
  {
   "property": "C78",
   "status": "partial",
   "theorems": [
    "Verif.Logger.C78_line_partial",
    "Verif.Logger.C78_string",
    "Verif.Logger.C78_filter",
    "Verif.Logger.C78_zero_violated",
    "Verif.Logger.C78_long_violated"
   ],
   "note": "Proved for all texts without zero bytes and shorter than 2^31 bytes with the heading. False of the code: a formatted zero byte cuts the line and its newline; with a text of about 2^31 bytes the lengths overflow int. snprintf is a parameter, described by the C standard."
  },
  {
   "property": "C79",
   "status": "partial",
   "theorems": [
    "Verif.Inbox.C79_observed",
    "Verif.Inbox.C79_accepts",
    "Verif.Inbox.C79_exactly_once",
    "Verif.Inbox.C79_no_lost_wakeup",
    "Verif.Inbox.C79_progress",
    "Verif.Inbox.C79_returns",
    "Verif.Inbox.C79_poll_partial",
    "Verif.Inbox.C79_undefined_iff",
    "Verif.Inbox.C79_system_invisible",
    "Verif.Inbox.C79_null_means_nothing_violated",
    "Verif.Inbox.C79_moved_from_violated",
    "Verif.Inbox.C79_wait_for_ever_violated",
    "Verif.Inbox.C79_poll_violated"
   ],
   "note": "False of the code: a message holding an empty any gives the same answer as giving up; receive on a moved-from inbox and on an empty inbox with a timeout like microseconds::max() are undefined; receive() sleeps if the clock is set back between its readings (proved not to when the clock does not go back). Everything else is proved, with an exact description of the undefined uses."
  },
  {
   "property": "C80",
   "status": "partial",
   "theorems": [
    "Verif.TypeTraits.C80_narrowest_unsigned",
    "Verif.TypeTraits.C80_narrowest_signed",
    "Verif.TypeTraits.C80_wider",
    "Verif.TypeTraits.C80_take_cv",
    "Verif.TypeTraits.C80_remove_cvref",
    "Verif.TypeTraits.C80_remove_cvref_same",
    "Verif.TypeTraits.C80_is_same",
    "Verif.TypeTraits.C80_one_of",
    "Verif.TypeTraits.C80_has_trait",
    "Verif.TypeTraits.C80_callable_sound",
    "Verif.TypeTraits.C80_callable_partial",
    "Verif.TypeTraits.C80_make_function_partial",
    "Verif.TypeTraits.C80_lref_to_const_partial",
    "Verif.TypeTraits.C80_lref_to_const_violated",
    "Verif.TypeTraits.C80_noexcept_violated",
    "Verif.TypeTraits.C80_noexcept_pointer_violated",
    "Verif.TypeTraits.C80_const_pointer_violated",
    "Verif.TypeTraits.C80_function_name_violated",
    "Verif.TypeTraits.C80_qualified_violated"
   ],
   "note": "Everything but the signatures and references is proved in full. False of the code: noexcept callables (C++17 on), const pointers to functions, function names, reference-qualified member functions and C variadic functions are not recognised or do not compile; add_lvalue_reference_to_const<T&> is T&. What callable_trait does tell is always right (C80_callable_sound)."
  },
  {
   "property": "C81",
   "status": "partial",
   "theorems": [
    "Verif.ArrayNd.C81_programs_partial",
    "Verif.ArrayNd.C81_allowed",
    "Verif.ArrayNd.C81_aliasing",
    "Verif.ArrayNd.C81_continuous",
    "Verif.ArrayNd.C81_continuous_converse_violated",
    "Verif.ArrayNd.C81_row_after_view_violated",
    "Verif.ArrayNd.C81_row_after_assign_violated"
   ],
   "note": "Proved for programs that do not use a row after its view was assigned to or destroyed. False beyond that: a row points to the descriptors of its view, so it is undefined after the view (for example a temporary) is destroyed, and changes shape when the view is assigned to. A view made from a row of a padded view may deny being continuous although it is."
  },
  {
   "property": "C82",
   "status": "partial",
   "theorems": [
    "Verif.Lifetimes.C82_programs_partial",
    "Verif.Lifetimes.C82_alive_iff_reachable",
    "Verif.Lifetimes.C82_no_leak",
    "Verif.Lifetimes.C82_self_move_violated"
   ],
   "note": "Proved for all programs that use existing variables and move no entry onto itself: results are those of a specification without objects, no undefined behaviour, alive iff reachable from a variable, nothing left at the end. False in full: moving an entry onto itself releases and forgets its value (C82_self_move_violated). Not covered: threads, failing allocations, the null value of YAML."
  },
  {
   "property": "C83",
   "status": "partial",
   "theorems": [
    "Verif.Facade.C83_programs_partial",
    "Verif.Facade.C83_tell",
    "Verif.Facade.C83_order",
    "Verif.Facade.C83_constructor_throws_violated",
    "Verif.Facade.C83_moved_system_violated",
    "Verif.Facade.C83_moved_ref_violated",
    "Verif.Facade.C83_same_name_violated",
    "Verif.Facade.C83_unwatch_same_name_violated"
   ],
   "note": "Proved for all programs that move no system, whose actor constructors do not throw, that use references only while their system exists, and in which no two watchers of one actor have the same path. False in full: a throwing constructor, destroying a moved-from system and telling after a system was moved are undefined behaviour; references are compared by path, so of two watchers with one name only one is told, and unwatch removes the other one. Not covered: threads inside a call (C37-C46), ask, find and inbox."
  },
  {
   "property": "C84",
   "status": "partial",
   "theorems": [
    "Verif.ConfigIter.C84_programs_partial",
    "Verif.ConfigIter.C84_loop",
    "Verif.ConfigIter.C84_next_loop",
    "Verif.ConfigIter.C84_back_loop",
    "Verif.ConfigIter.C84_limits",
    "Verif.ConfigIter.C84_negative_offset_violated",
    "Verif.ConfigIter.C84_find_behind_violated",
    "Verif.ConfigIter.C84_has_next_violated",
    "Verif.ConfigIter.C84_minus_left_violated"
   ],
   "note": "Proved for all programs whose positions fit ptrdiff_t, with find(i) up to the end, has_next/next not before the beginning and, in debug builds, no negative offsets. False in full: in debug builds every negative offset overflows inside the assertion; find(i) behind the end is never reached by a loop to the end; before the beginning has_next is true but next gives no entry; d - it gives it - d. Paths of several names are C57."
  },
  {
   "property": "C85",
   "status": "partial",
   "theorems": [
    "Verif.Turns.C85_one_worker",
    "Verif.Turns.C85_turn_at_most",
    "Verif.Turns.C85_turn_full",
    "Verif.Turns.C85_turn_end",
    "Verif.Turns.C85_boxes",
    "Verif.Turns.C85_queue",
    "Verif.Turns.C85_wait_bounded",
    "Verif.Turns.C85_front_is_served",
    "Verif.Turns.C85_system_messages_uncounted_violated"
   ],
   "note": "Proved in full for user messages (a throughput of 0 acts as 1). False for system messages: they are not counted, so a turn that keeps receiving them goes on without end while user messages and other actors wait."
  },
  {
   "property": "C86",
   "status": "partial",
   "theorems": [
    "Verif.ActorSteps.C86_lifecycle_partial",
    "Verif.ActorSteps.C86_children_first_partial",
    "Verif.ActorSteps.C86_no_ub_partial",
    "Verif.ActorSteps.C86_destroyed_finished_partial",
    "Verif.ActorSteps.C86_closed_for_good",
    "Verif.ActorSteps.C86_stop_completes_partial",
    "Verif.ActorSteps.C86_shutdown_partial",
    "Verif.ActorSteps.C86_comes_to_rest_partial",
    "Verif.ActorSteps.C86_stop_succeeds_partial",
    "Verif.ActorSteps.C86_notices_partial",
    "Verif.ActorSteps.C86_notice_arrives",
    "Verif.ActorSteps.C86_watcher_is_told_partial",
    "Verif.ActorSteps.C86_failed_start_hangs_violated",
    "Verif.ActorSteps.C86_stop_before_attach_hangs_violated",
    "Verif.ActorSteps.C86_same_name_violated",
    "Verif.ActorSteps.C86_message_after_notice_violated",
    "Verif.ActorSteps.C86_lost_watch_violated"
   ],
   "note": "Proved for environments in which pre_start does not fail, names of living siblings differ, and an actor is told to stop only after its parent attached it; each of the three is shown necessary by a witness. False in one more respect: a watcher can receive the notice while the mailbox of the ended actor still takes messages, which are lost."
  },
  {
   "property": "C87",
   "status": "partial",
   "theorems": [
    "Verif.CheckedPtr.C87_instance_of",
    "Verif.CheckedPtr.C87_use",
    "Verif.CheckedPtr.C87_accepts_partial",
    "Verif.CheckedPtr.C87_rejects",
    "Verif.CheckedPtr.C87_ambiguous_violated",
    "Verif.CheckedPtr.C87_copy_violated",
    "Verif.CheckedPtr.NotNull.C87_not_null_partial",
    "Verif.CheckedPtr.NotNull.C87_not_null_violated",
    "Verif.CheckedPtr.NotNull.C87_smart_partial",
    "Verif.CheckedPtr.NotNull.C87_smart_reset_violated",
    "Verif.CheckedPtr.NotNull.C87_smart_scope_violated",
    "Verif.CheckedPtr.AnyPtr.C87_any_ptr",
    "Verif.CheckedPtr.AnyPtr.C87_any_honest",
    "Verif.CheckedPtr.AnyPtr.C87_any_equal_partial",
    "Verif.CheckedPtr.AnyPtr.C87_any_equal_violated"
   ],
   "note": "Proved: what instance_of gives, what it refuses, and that it accepts objects that are a T exactly once; not_null of raw pointers in debug builds, and of smart pointers that live and are not reset; any_ptr for all programs. False: an object that is a T twice is refused by instance_of; copying a non-const instance_of does not compile; a release build accepts null; a not_null of a smart pointer follows it when it is reset or dies; comparing two any_ptr compares whether they are null."
  },
  {
   "property": "C88",
   "status": "partial",
   "theorems": [
    "Verif.Singleton.C88_once_partial",
    "Verif.Singleton.C88_returns_partial",
    "Verif.Singleton.C88_throwing",
    "Verif.Singleton.C88_race_violated"
   ],
   "note": "Proved for executions in which the first call is finished before other calls start (in particular for one thread). False in general: two overlapping first calls create two objects, and the one that the first call returned is destroyed (C88_race_violated)."
  },
  {
   "property": "C89",
   "status": "partial",
   "theorems": [
    "Verif.AssertLock.C89_unlocked",
    "Verif.AssertLock.C89_locked_partial",
    "Verif.AssertLock.C89_nested_violated"
   ],
   "note": "Proved for all programs when no lock is in scope, and for programs without nested locks when one is. False in general: the end of an inner lock, or of one of another thread, sets the default callback although an outer lock is in scope, so that the next failed assertion ends the program (C89_nested_violated)."
  },
  {
   "property": "C90",
   "status": "partial",
   "theorems": [
    "Verif.CompressedPair.C90_pair_partial",
    "Verif.CompressedPair.C90_layout",
    "Verif.CompressedPair.C90_not_larger",
    "Verif.CompressedPair.C90_free_partial",
    "Verif.CompressedPair.C90_default_violated",
    "Verif.CompressedPair.C90_move_out_violated",
    "Verif.CompressedPair.C90_shared_violated",
    "Verif.CompressedPair.C90_second_violated"
   ],
   "note": "Proved for all programs that do not use get on an rvalue and do not declare a pair of uninitialized types without initializer; the layout is proved for all types. False in general: a pair of numbers declared without initializer has indeterminate components (C90_default_violated), get on an rvalue does not compile (C90_move_out_violated), an empty component that is second, final, or shared with the beginning of the other is not free (C90_second_violated, C90_shared_violated)."
  },
  {
   "property": "C91",
   "status": "partial",
   "theorems": [
    "Verif.TypeMatch.C91_best_partial",
    "Verif.TypeMatch.C91_exact",
    "Verif.TypeMatch.C91_refused",
    "Verif.TypeMatch.C91_distinct",
    "Verif.TypeMatch.C91_order",
    "Verif.TypeMatch.C91_same_type_violated"
   ],
   "note": "Proved in full for cases of different types (C91_distinct). False when two cases have the same type: the call is not ambiguous, the last one is called and the other one never (C91_same_type_violated). Conversions that C++ cannot compare are not modelled."
  },
  {
   "property": "C92",
   "status": "partial",
   "theorems": [
    "Verif.OptionalKinds.C92_partial",
    "Verif.OptionalKinds.C92_not_null",
    "Verif.OptionalKinds.C92_std",
    "Verif.OptionalKinds.C92_flatten",
    "Verif.OptionalKinds.C92_copy_bool_violated",
    "Verif.OptionalKinds.C92_filter_violated",
    "Verif.OptionalKinds.C92_emplace_violated",
    "Verif.OptionalKinds.C92_swap_violated"
   ],
   "note": "Proved for all programs without the statements for which the code is wrong or has a contract. False in general: an optional of bool copied from an optional that is not const holds whether that one holds something (C92_copy_bool_violated; the same inside filter, C92_filter_violated), swap with an empty optional loses the value (C92_swap_violated), emplace of a null pointer violates a requirement (C92_emplace_violated)."
  },
  {
   "property": "C93",
   "status": "partial",
   "theorems": [
    "Verif.ConfigText.C93_same_partial",
    "Verif.ConfigText.C93_rest",
    "Verif.ConfigText.C93_cut",
    "Verif.ConfigText.C93_reserved",
    "Verif.ConfigText.C93_pipe_violated",
    "Verif.ConfigText.C93_pipe_failed",
    "Verif.ConfigText.C93_zero_violated",
    "Verif.ConfigText.C93_text_mode_violated"
   ],
   "note": "Proved for json and yaml for all texts; for ini and xml for texts without zero bytes and streams that can be positioned. False in general: from a stream that cannot be positioned ini and xml get an empty text without an error (C93_pipe_violated), they cut a text at a zero byte (C93_zero_violated), and in text mode zero bytes are appended (C93_text_mode_violated)."
  },
  {
   "property": "C94",
   "status": "partial",
   "theorems": [
    "Verif.Config.C94_null",
    "Verif.Config.C94_manual",
    "Verif.Config.C94_json",
    "Verif.Config.C94_json_read",
    "Verif.Config.C94_json_order",
    "Verif.Config.C94_yaml_partial",
    "Verif.Config.C94_xml",
    "Verif.Config.C94_ini",
    "Verif.Config.C94_cmd",
    "Verif.Config.C94_together_partial",
    "Verif.Config.C94_flags",
    "Verif.Config.C94_yaml_violated",
    "Verif.Config.C94_together_violated"
   ],
   "note": "Proved for null configs, those made in the program, json, xml (with a root element), ini and the command line; for yaml if no two keys are equal. False in general: a yaml map with a repeated key says it is not multi-associative (C94_yaml_violated); an ordered object says no to associative | keeps_order (C94_together_violated)."
  },
  {
   "property": "C95",
   "status": "partial",
   "theorems": [
    "Verif.Special.C95_optional",
    "Verif.Special.C95_variant_members",
    "Verif.Special.C95_variant_partial",
    "Verif.Special.C95_destroys_once_partial",
    "Verif.Special.C95_index",
    "Verif.Special.C95_no_leak_partial",
    "Verif.Special.C95_variant_violated",
    "Verif.Special.C95_assign_violated"
   ],
   "note": "Proved of optional for all element types, and of variant if all alternatives can be moved. What the four statements do with a variant is given for every list of alternatives, and every program destroys each object at most once exactly if all alternatives are move constructible, or all copy constructible and copy assignable. Otherwise false: the copying member that the compiler adds copies the bytes (C95_variant_violated, C95_assign_violated). Objects of moved-from variants that are never destroyed are the subject of C28."
  },
  {
   "property": "C96",
   "status": "partial",
   "theorems": [
    "Verif.ViewOf.C96_vector",
    "Verif.ViewOf.C96_array",
    "Verif.ViewOf.C96_plain",
    "Verif.ViewOf.C96_proxy",
    "Verif.ViewOf.C96_slice",
    "Verif.ViewOf.C96_continuous_partial",
    "Verif.ViewOf.C96_slice_continuous_violated",
    "Verif.ViewOf.C96_reshape",
    "Verif.ViewOf.C96_rebind"
   ],
   "note": "Elements, dimensions, total sizes and strides: proved for all of them. Continuity: proved of yato::view; a view constructed from a slice of a padded view denies being continuous although the slice is (C96_slice_continuous_violated), so that reshape refuses it; never the other way round. Sizes are natural numbers (no overflow of size_t)."
  },
  {
   "property": "C97",
   "status": "partial",
   "theorems": [
    "Verif.ContOps.C97_answers",
    "Verif.ContOps.C97_compiles_partial",
    "Verif.ContOps.C97_flags_partial",
    "Verif.ContOps.C97_continuous_partial",
    "Verif.ContOps.C97_named",
    "Verif.ContOps.C97_total_size_partial",
    "Verif.ContOps.C97_c_array_violated",
    "Verif.ContOps.C97_dimensions_range_violated",
    "Verif.ContOps.C97_strides_violated",
    "Verif.ContOps.C97_continuous_violated",
    "Verif.ContOps.C97_total_size_violated"
   ],
   "note": "Every answer is proved right, and the exact conditions under which each operation compiles are proved. Not for all containers: dimensions and total_size do not compile for C arrays, dimensions_range not for std::vector and std::array, strides not for 1-D containers with stride(dim) only; continuous answers true for every 1-D container that does not say; total_size past the last dimension answers the last extent, and 0 for no dimensions."
  },
  {
   "property": "C98",
   "status": "partial",
   "theorems": [
    "Verif.Adapt.C98_positions_partial",
    "Verif.Adapt.C98_iterators",
    "Verif.Adapt.C98_histories",
    "Verif.Adapt.C98_distance",
    "Verif.Adapt.C98_compiles",
    "Verif.Adapt.C98_category",
    "Verif.Adapt.C98_refused",
    "Verif.Adapt.C98_walk_refused",
    "Verif.Adapt.C98_minus_violated",
    "Verif.Adapt.C98_reverse_plus_violated",
    "Verif.Adapt.C98_le_violated",
    "Verif.Adapt.C98_zip_distance_violated",
    "Verif.Adapt.C98_ge_violated"
   ],
   "note": "Every expression that compiles is proved to agree with the positions, for ranges zipped from ranges of one length, and which expressions compile is characterised exactly. Not all compile: it - n, it[n] and n + it for no mapped or zipped range, it + n for no reversed one of these, <= for no zip. For zips of different lengths distance() counts the first range; for zip iterators with components at different distances >= holds both ways."
  },
  {
   "property": "C99",
   "status": "partial",
   "theorems": [
    "Verif.FilterVars.C99_programs_partial",
    "Verif.FilterVars.C99_spec",
    "Verif.FilterVars.C99_past_last",
    "Verif.FilterVars.C99_write_cached",
    "Verif.FilterVars.C99_write_violated",
    "Verif.FilterVars.C99_write_witness_violated",
    "Verif.FilterVars.C99_stale_violated",
    "Verif.FilterVars.C99_convert_violated",
    "Verif.FilterVars.C99_const_violated",
    "Verif.FilterVars.C99_small_violated"
   ],
   "note": "Proved for all programs without caching iterators, and for those with caching iterators that change no elements (trivially copyable values; big ones without an end), with conversions to iterators that do not cache. False otherwise: writing through a caching iterator does not change the sequence; it shows old values; one made of an iterator that does not cache has nothing to show (undefined); small values that are not trivially copyable give undefined behaviour; const iterators without an end cannot be dereferenced."
  },
  {
   "property": "C100",
   "status": "partial",
   "theorems": [
    "Verif.AttrThreads.C100_threads_partial",
    "Verif.AttrThreads.C100_atomic",
    "Verif.AttrThreads.C100_finishes",
    "Verif.AttrThreads.C100_race",
    "Verif.AttrThreads.C100_unguarded",
    "Verif.AttrThreads.C100_deadlock",
    "Verif.AttrThreads.C100_no_lock",
    "Verif.AttrThreads.C100_relock_violated",
    "Verif.AttrThreads.C100_validator_violated",
    "Verif.AttrThreads.C100_move_violated",
    "Verif.AttrThreads.C100_class_violated"
   ],
   "note": "Proved for the default class (accept_any, mutex_lock). False for the others: this_type is the default class, so that with a mutex and another validator nothing can be copied, moved or assigned, and none can be swapped; without a mutex the members that the compiler adds copy the validator, too, and moving copies. Locking twice in one thread is undefined."
  },
  {
   "property": "C101",
   "status": "partial",
   "theorems": [
    "Verif.AtomicThreads.C101_threads_partial",
    "Verif.AtomicThreads.C101_wait_free",
    "Verif.AtomicThreads.C101_copy_violated",
    "Verif.AtomicThreads.C101_clear_violated",
    "Verif.AtomicThreads.C101_register_violated"
   ],
   "note": "Proved for sequentially consistent memory (the default memory order), except that of a copy it is proved only that each attribute has a value from the time of the copying. False: a copy may mix old and new values (C101_copy_violated); clear_attribute while another thread reads the attribute, and register_attribute while another thread does anything, are data races."
  },
  {
   "property": "C102",
   "status": "partial",
   "theorems": [
    "Verif.VectorNd.C102_rows_partial",
    "Verif.VectorNd.C102_stable",
    "Verif.VectorNd.C102_elements_follow",
    "Verif.VectorNd.C102_throw_violated",
    "Verif.VectorNd.C102_swap_violated",
    "Verif.VectorNd.C102_move_violated"
   ],
   "note": "Proved for all programs: what each handle reads is exactly what a specification says that follows the vector which holds the elements and the vector object whose sizes are shown; when capacities change; that calls with enough room leave earlier rows alone; that pointers to elements survive moves and swaps. Allocations may throw only in programs that insert nothing (as in C74). False: push_back that throws after reallocating leaves the value but not the storage, so all handles dangle (C102_throw_violated); rows and iterators refer to the sizes inside the vector object they were taken from, so after a swap they show the sizes of the other vector (C102_swap_violated), and they die with a moved-from object although the elements live on (C102_move_violated)."
  },
  {
   "property": "C103",
   "status": "partial",
   "theorems": [
    "Verif.Reals.C103_put_partial",
    "Verif.Reals.C103_put_empty",
    "Verif.Reals.C103_accepted",
    "Verif.Reals.C103_float_nearest",
    "Verif.Reals.C103_integer_as_real",
    "Verif.Reals.C103_integer_exact",
    "Verif.Reals.C103_real_as_integer_partial",
    "Verif.Reals.C103_text",
    "Verif.Reals.C103_text_special",
    "Verif.Reals.C103_decode_only_partial",
    "Verif.Reals.C103_decode_all",
    "Verif.Reals.C103_decode_magnitude",
    "Verif.Reals.C103_roundtrip_partial",
    "Verif.Reals.C103_float_inf_partial",
    "Verif.Reals.C103_integer_violated",
    "Verif.Reals.C103_range_violated",
    "Verif.Reals.C103_text_violated",
    "Verif.Reals.C103_blank_violated",
    "Verif.Reals.C103_long_double_violated",
    "Verif.Reals.C103_float_inf_violated",
    "Verif.Reals.C103_optional_float_violated"
   ],
   "note": "Proved for all numbers and all texts, with the numbers of the types as rational numbers m * 2^e. strtod and std::to_string are modelled after the C standard with exact rounding. False: long double has a converter that returns a reference to a temporary (C103_long_double_violated); reading infinity, NaN or a number of 2^63 or more as an integer is undefined (C103_range_violated); an infinite float can be put but not be read in a debug build (C103_float_inf_violated); an optional float cannot be put at all (C103_optional_float_violated); six decimals lose numbers such as 2^-30, so text and back is proved for multiples of 1/64 and numbers from 2^34 on (C103_text_violated); an integer above 2^53 may be read as another number (C103_integer_violated); text of blanks is read as zero (C103_blank_violated)."
  },
  {
   "property": "C104",
   "status": "partial",
   "theorems": [
    "Verif.Decode.C104_int_only",
    "Verif.Decode.C104_real_only",
    "Verif.Decode.C104_bool_only",
    "Verif.Decode.C104_text_partial",
    "Verif.Decode.C104_int_all",
    "Verif.Decode.C104_real_all",
    "Verif.Decode.C104_bool_all",
    "Verif.Decode.C104_string",
    "Verif.Decode.C104_null",
    "Verif.Decode.C104_agree_partial",
    "Verif.Decode.C104_truncates",
    "Verif.Decode.C104_into",
    "Verif.Decode.C104_length_violated",
    "Verif.Decode.C104_terminator_violated",
    "Verif.Decode.C104_blanks_violated",
    "Verif.Decode.C104_empty_violated",
    "Verif.Decode.C104_agree_violated"
   ],
   "note": "Proved for all memory contents: what is read is spelled by the given characters. That everything spelled is read is proved if a zero byte follows the characters. False otherwise: the decoders do not know the length, so 123 with length 2 is not read (C104_length_violated), without a zero byte the call is undefined (C104_terminator_violated), as it is with more blanks than the length (C104_blanks_violated); an empty C string is the number zero (C104_empty_violated). A serializer truncates real numbers and refuses integers other than 0 and 1 as booleans, while reading from a config refuses fractions and takes every integer as a boolean (C104_agree_violated)."
  },
  {
   "property": "C105",
   "status": "partial",
   "theorems": [
    "Verif.Config.C105_vector",
    "Verif.Config.C105_vector_outcome",
    "Verif.Config.C105_map_outcome",
    "Verif.Config.C105_map",
    "Verif.Config.C105_multimap",
    "Verif.Config.C105_single",
    "Verif.Config.C105_cvt",
    "Verif.Config.C105_null",
    "Verif.Config.C105_stored",
    "Verif.Config.C105_root",
    "Verif.Config.C105_path_join",
    "Verif.Config.C105_path_whole",
    "Verif.Config.C105_path",
    "Verif.Config.C105_flag",
    "Verif.Config.C105_flag_index",
    "Verif.Config.C105_default_comparator_partial",
    "Verif.Config.C105_default_comparator_violated"
   ],
   "note": "Proved for every backend whose answers agree with each other (C94 proves this of each backend), and any type of values, with string comparison of the keys. to_map and to_multimap cannot be called with their default comparator unless the values are strings, because it compares values instead of keys (C105_default_comparator_violated). A null config, which is what object() gives for a missing name, is an empty vector for to_vector but nothing for cvt and value (C105_null)."
  },
  {
   "property": "C106",
   "status": "partial",
   "theorems": [
    "Verif.Listener.C106_told",
    "Verif.Listener.C106_accounted",
    "Verif.Listener.C106_served_partial",
    "Verif.Listener.C106_settles",
    "Verif.Listener.C106_quiet",
    "Verif.Listener.C106_announced_partial",
    "Verif.Listener.C106_ends_partial",
    "Verif.Listener.C106_hangs_violated",
    "Verif.Listener.C106_untold_violated",
    "Verif.Listener.C106_orphan_violated",
    "Verif.Listener.C106_order_violated"
   ],
   "note": "Proved for every execution that what is told is true and told once and that each connection is in one place. That every accepted peer is told needs peers that do not connect from an address in use (C106_untold_violated); that the listener ends needs in addition that no peer resets its connection between acceptance and start of its actor (C106_hangs_violated: the socket listens for ever) and that the server has handled the message that it is watched (C106_orphan_violated). The order of connecting is not kept (C106_order_violated)."
  },
  {
   "property": "C107",
   "status": "partial",
   "theorems": [
    "Verif.TokenIter.C107_positions_partial",
    "Verif.TokenIter.C107_for",
    "Verif.TokenIter.C107_past_end",
    "Verif.TokenIter.C107_postfix_never",
    "Verif.TokenIter.C107_postfix_violated",
    "Verif.TokenIter.C107_equal_settings_violated",
    "Verif.TokenIter.C107_moved_violated"
   ],
   "note": "Refinement proved for every program that does not use the result of v++ and for underlying iterators that a move leaves unchanged. The postfix increment returns a reference to a local variable (C107_postfix_violated, C107_postfix_never). The constructor moves its argument twice (C107_moved_violated). Iterators over the same characters that are split differently may compare equal although different tokens follow (C107_equal_settings_violated)."
  },
  {
   "property": "C108",
   "status": "partial",
   "theorems": [
    "Verif.ContAccess.C108_subscript",
    "Verif.ContAccess.C108_csubscript",
    "Verif.ContAccess.C108_const_partial",
    "Verif.ContAccess.C108_const_no_write",
    "Verif.ContAccess.C108_data",
    "Verif.ContAccess.C108_data_const",
    "Verif.ContAccess.C108_cdata_partial",
    "Verif.ContAccess.C108_cdata_of_data",
    "Verif.ContAccess.C108_passed_over",
    "Verif.ContAccess.C108_const_violated",
    "Verif.ContAccess.C108_cdata_violated"
   ],
   "note": "Proved for subscript, csubscript, data and cdata. subscript of a const container asks whether containers that are not const have the operator [], so it does not compile if the operator is only for those (C108_const_violated). The pointer from cdata of a view or proxy can be written through (C108_cdata_violated)."
  },
  {
   "property": "C109",
   "status": "partial",
   "theorems": [
    "Verif.FloatCast.C109_exact",
    "Verif.FloatCast.C109_checked",
    "Verif.FloatCast.C109_refused_partial",
    "Verif.FloatCast.C109_unchecked",
    "Verif.FloatCast.C109_integer",
    "Verif.FloatCast.C109_minus_partial",
    "Verif.FloatCast.C109_real_partial",
    "Verif.FloatCast.C109_real_exact",
    "Verif.FloatCast.C109_real_long",
    "Verif.FloatCast.C109_accepted",
    "Verif.FloatCast.C109_nan_violated",
    "Verif.FloatCast.C109_beyond_violated",
    "Verif.FloatCast.C109_least_violated",
    "Verif.FloatCast.C109_nearest_violated"
   ],
   "note": "Proved, except: a checked float_cast refuses NaN (C109_nan_violated), and converts numbers that are too large before it refuses them, which is undefined for the C++ standard (C109_beyond_violated); the least number of a signed type cannot be written (C109_least_violated); _f32 and _f64 are rounded twice and need not give the nearest number (C109_nearest_violated)."
  },
  {
   "property": "C110",
   "status": "partial",
   "theorems": [
    "Verif.Accessors.C110_const",
    "Verif.Accessors.C110_const_elements",
    "Verif.Accessors.C110_reach_partial",
    "Verif.Accessors.C110_subscripts",
    "Verif.Accessors.C110_reading_partial",
    "Verif.Accessors.C110_works_partial",
    "Verif.Accessors.C110_agree_partial",
    "Verif.Accessors.C110_cdata_violated",
    "Verif.Accessors.C110_cbegin_violated",
    "Verif.Accessors.C110_range_violated",
    "Verif.Accessors.C110_at_violated",
    "Verif.Accessors.C110_crange_violated",
    "Verif.Accessors.C110_row_violated",
    "Verif.Accessors.C110_convert_violated"
   ],
   "note": "Proved, except: cdata of views and proxies, and cbegin and crange of views with several dimensions, give what can be written (C110_cdata_violated, C110_cbegin_violated); range and crange of vectors with several dimensions, erase of a range and crange of proxies do not compile (C110_range_violated, C110_crange_violated); at of a proxy with several dimensions has no return statement (C110_at_violated); the accessors of a const row of an array disagree (C110_row_violated); two conversions do not compile (C110_convert_violated)."
  },
  {
   "property": "C111",
   "status": "partial",
   "theorems": [
    "Verif.Extents.C111_dims",
    "Verif.Extents.C111_dims_refused",
    "Verif.Extents.C111_sub",
    "Verif.Extents.C111_read",
    "Verif.Extents.C111_total_partial",
    "Verif.Extents.C111_total_unsigned",
    "Verif.Extents.C111_total_zero_violated",
    "Verif.Extents.C111_total_small_violated",
    "Verif.Extents.C111_total_start_violated",
    "Verif.Extents.C111_total_none_violated",
    "Verif.Extents.C111_equal_partial",
    "Verif.Extents.C111_equal_symm",
    "Verif.Extents.C111_equal_violated",
    "Verif.Extents.C111_transitive_violated",
    "Verif.Extents.C111_vector_partial",
    "Verif.Extents.C111_vector_violated",
    "Verif.Extents.C111_reshape_partial",
    "Verif.Extents.C111_agrees",
    "Verif.Extents.C111_agrees_limit",
    "Verif.Extents.C111_reshape_elements",
    "Verif.Extents.C111_reshape_violated"
   ],
   "note": "Proved, except: the total size overflows in signed and in small unsigned size types (C111_total_zero_violated, C111_total_small_violated), from past the last dimension it is the last extent (C111_total_start_violated), of no dimensions it is 0 (C111_total_none_violated); negative extents equal large unsigned ones (C111_equal_violated, C111_transitive_violated); the product of the extents of a vector wraps without a check, so that a vector of 2^32 times 2^32 has no storage (C111_vector_violated, C111_reshape_violated)."
  },
  {
   "property": "C112",
   "status": "partial",
   "theorems": [
    "Verif.SamplerMembers.C112_documented",
    "Verif.SamplerMembers.C112_plain",
    "Verif.SamplerMembers.C112_called_partial",
    "Verif.SamplerMembers.C112_zero",
    "Verif.SamplerMembers.C112_result_partial",
    "Verif.SamplerMembers.C112_other_type_violated",
    "Verif.SamplerMembers.C112_lvalue_violated",
    "Verif.SamplerMembers.C112_not_template_violated",
    "Verif.SamplerMembers.C112_not_const_violated",
    "Verif.SamplerMembers.C112_dangling_violated",
    "Verif.SamplerMembers.C112_values_violated"
   ],
   "note": "Proved for members declared exactly in the documented form. Functions that can be called but return another type, or are declared for lvalues only, or are not templates are passed over silently (C112_other_type_violated, C112_lvalue_violated, C112_not_template_violated); functions that are not const compile only for samplers that are lvalues (C112_not_const_violated); a value returned where the return type is a reference, which it is by default, is gone (C112_dangling_violated, C112_values_violated)."
  },
  {
   "property": "C113",
   "status": "partial",
   "theorems": [
    "Verif.Invoke.C113_called_partial",
    "Verif.Invoke.C113_only_partial",
    "Verif.Invoke.C113_own",
    "Verif.Invoke.C113_both",
    "Verif.Invoke.C113_null",
    "Verif.Invoke.C113_weak",
    "Verif.Invoke.C113_rvalue_never",
    "Verif.Invoke.C113_rvalue_violated",
    "Verif.Invoke.C113_pointer_like_violated",
    "Verif.Invoke.C113_temporary_violated"
   ],
   "note": "Proved except for reference-qualified methods on rvalues and for pointer-like classes other than unique_ptr and shared_ptr. The argument is used as an lvalue, so that methods for rvalues can never be called (C113_rvalue_never, C113_rvalue_violated) and methods for lvalues are called on temporaries (C113_temporary_violated); yato::not_null and other classes with operator* are refused (C113_pointer_like_violated)."
  },
  {
   "property": "C114",
   "status": "partial",
   "theorems": [
    "Verif.Arenas.C114_returned_partial",
    "Verif.Arenas.C114_propagating",
    "Verif.Arenas.C114_one_arena",
    "Verif.Arenas.C114_copy_assign",
    "Verif.Arenas.C114_keeps",
    "Verif.Arenas.C114_given",
    "Verif.Arenas.C114_copy_assign_violated",
    "Verif.Arenas.C114_view_violated",
    "Verif.Arenas.C114_later_violated",
    "Verif.Arenas.C114_pocma_violated",
    "Verif.Arenas.C114_reshape_violated"
   ],
   "note": "Proved for programs where the allocators propagate on swap or are equal whenever a vector is swapped or assigned by a copy; so for all programs if they propagate on swap or if there is one arena. Assignment makes a temporary and swaps with it, and the swap exchanges memory but not allocators unless they propagate on swap, which is not the default: assigning a copy, a view or to an empty vector returns memory to the wrong allocator (C114_copy_assign says exactly when; C114_copy_assign_violated, C114_view_violated, C114_later_violated). Move assignment replaces the allocator against propagate_on_container_move_assignment (C114_pocma_violated); reshape uses the default allocator (C114_reshape_violated)."
  },
  {
   "property": "C115",
   "status": "partial",
   "theorems": [
    "Verif.ArenasDyn.C115_returned",
    "Verif.ArenasDyn.C115_kept_partial",
    "Verif.ArenasDyn.C115_all_returned_partial",
    "Verif.ArenasDyn.C115_move_assign",
    "Verif.ArenasDyn.C115_move",
    "Verif.ArenasDyn.C115_allocator",
    "Verif.ArenasDyn.C115_created",
    "Verif.ArenasDyn.C115_resized",
    "Verif.ArenasDyn.C115_swap",
    "Verif.ArenasDyn.C115_move_violated",
    "Verif.ArenasDyn.C115_kept_violated"
   ],
   "note": "That memory is never returned to the wrong allocator, twice or with a wrong size is proved for all programs. Nothing is lost if no array that has memory is the target of a move assignment, which drops it (C115_kept_violated). The move constructor starts with the default allocator and throws if allocators do not propagate on move assignment and that of the source is another one (C115_move_violated); C115_move and C115_move_assign say exactly when moves throw, and that they change nothing then."
  },
  {
   "property": "C116",
   "status": "partial",
   "theorems": [
    "Verif.RawMemory.C116_moved",
    "Verif.RawMemory.C116_step",
    "Verif.RawMemory.C116_same_partial",
    "Verif.RawMemory.C116_assert",
    "Verif.RawMemory.C116_debug_partial",
    "Verif.RawMemory.C116_debug_same_partial",
    "Verif.RawMemory.C116_vector_calls",
    "Verif.RawMemory.C116_insert",
    "Verif.RawMemory.C116_erase",
    "Verif.RawMemory.C116_two_blocks_violated",
    "Verif.RawMemory.C116_debug_violated",
    "Verif.RawMemory.C116_doc_violated",
    "Verif.RawMemory.C116_right_violated"
   ],
   "note": "Proved for all programs in release builds (C116_same_partial), and in debug builds for ranges of one block (C116_debug_partial, C116_debug_same_partial); C116_moved says where the elements are, C116_vector_calls that the calls of vectors are among those covered, C116_insert and C116_erase where the elements of a vector of a trivial type are after them. In debug builds the assertions of copies and transfers subtract pointers to different arrays when a range is copied to another block, as whenever a vector grows: undefined (C116_two_blocks_violated, C116_debug_violated). The documented precondition of copies is too weak for the shortcut (C116_doc_violated), and the assertion of transfer_to_right lets through calls where loop and shortcut differ (C116_right_violated)."
  }
 ]
}