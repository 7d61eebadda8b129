import Verif.Props.Access
import Verif.Props.AccessConc
import Verif.Props.Again
import Verif.Props.AnyBytes
import Verif.Props.AnyConc
import Verif.Props.AnyCost
import Verif.Props.AnyDump
import Verif.Props.AnyInsert
import Verif.Props.AnyMap
import Verif.Props.AnySearch
import Verif.Props.Bounds
import Verif.Props.CapInsert
import Verif.Props.Capacity
import Verif.Props.Concurrent
import Verif.Props.Cost
import Verif.Props.CutMap
import Verif.Props.Dead
import Verif.Props.Deadlock
import Verif.Props.DropAny
import Verif.Props.DumpConc
import Verif.Props.Exact
import Verif.Props.Ffi
import Verif.Props.FfiHist
import Verif.Props.Files
import Verif.Props.Filter
import Verif.Props.Flat
import Verif.Props.FlatConc
import Verif.Props.Flatten
import Verif.Props.FlattenConc
import Verif.Props.Float
import Verif.Props.GraphBytes
import Verif.Props.GraphEq
import Verif.Props.Header
import Verif.Props.Image
import Verif.Props.Improve
import Verif.Props.Insert
import Verif.Props.InsertCost
import Verif.Props.IterConc
import Verif.Props.Law
import Verif.Props.LayerInfo
import Verif.Props.Layout
import Verif.Props.Level
import Verif.Props.Levels
import Verif.Props.Linear
import Verif.Props.Link
import Verif.Props.Linked
import Verif.Props.LoadArith
import Verif.Props.LoadFail
import Verif.Props.LoadMem
import Verif.Props.Locks
import Verif.Props.MapArith
import Verif.Props.MapFiles
import Verif.Props.Mmap
import Verif.Props.NaN
import Verif.Props.NoWait
import Verif.Props.Paths
import Verif.Props.Prefix
import Verif.Props.Reload
import Verif.Props.Reserve
import Verif.Props.Reuse
import Verif.Props.Search
import Verif.Props.SearchConc
import Verif.Props.SearchMono
import Verif.Props.Sections
import Verif.Props.Select
import Verif.Props.Settings
import Verif.Props.Small
import Verif.Props.Ties
import Verif.Props.Together
import Verif.Props.TogetherAny
import Verif.Props.TornCut
import Verif.Props.Writes

/-!
# Axioms used by the theorems of the manifest

Printed at build time; only `propext`, `Classical.choice` and `Quot.sound` occur.
-/

#print axioms Verif.C01_bounded
#print axioms Verif.C01_sorted_bounded_partial
#print axioms Verif.C01_sorted_refuted
#print axioms Verif.C02_true_answers
#print axioms Verif.C03_distinct
#print axioms Verif.C04_empty_nonempty
#print axioms Verif.C04_returned
#print axioms Verif.C05_no_panic
#print axioms Verif.C05_no_panic_filter
#print axioms Verif.C05_only_negative
#print axioms Verif.C05_terminates
#print axioms Verif.C06_local_optimum_partial
#print axioms Verif.C06_local_refuted
#print axioms Verif.C07_exact_partial
#print axioms Verif.C07_exact
#print axioms Verif.C07_exact_refuted
#print axioms Verif.C08_not_worse_partial
#print axioms Verif.C08_not_worse_than_pivots
#print axioms Verif.C08_worse_refuted
#print axioms Verif.C09_refuted
#print axioms Verif.C09_filter_partial
#print axioms Verif.C10_exact_partial
#print axioms Verif.C10_filter_exact
#print axioms Verif.C10_exact_refuted
#print axioms Verif.C100_flat
#print axioms Verif.C100_search
#print axioms Verif.C100_full_refuted
#print axioms Verif.C101_exact_part
#print axioms Verif.C101_law
#print axioms Verif.C101_total
#print axioms Verif.C101_decreasing
#print axioms Verif.C101_default
#print axioms Verif.C101_redraw
#print axioms Verif.C101_smaller_scale
#print axioms Verif.C101_comment_refuted
#print axioms Verif.C101_one_connection_refuted
#print axioms Verif.C102_search_partial
#print axioms Verif.C102_search_refuted
#print axioms Verif.C102_history
#print axioms Verif.C102_sequence
#print axioms Verif.C102_reload
#print axioms Verif.C102_ties_refuted
#print axioms Verif.C103_header_refuted
#print axioms Verif.C103_cut_data
#print axioms Verif.C103_cut_graph
#print axioms Verif.C103_cut_mapped
#print axioms Verif.C103_cut_graph_mapped
#print axioms Verif.C103_dump_refuted
#print axioms Verif.C103_err_partial
#print axioms Verif.C103_c
#print axioms Verif.C104_settings
#print axioms Verif.C104_any_time
#print axioms Verif.C104_options_partial
#print axioms Verif.C104_threshold_refuted
#print axioms Verif.C105_std_lawful
#print axioms Verif.C105_nan_needed
#print axioms Verif.C106_answers
#print axioms Verif.C106_no_panic
#print axioms Verif.C106_found_partial
#print axioms Verif.C106_nonempty_refuted
#print axioms Verif.C106_from_negative
#print axioms Verif.C106_sorted_refuted
#print axioms Verif.C107_formula
#print axioms Verif.C107_enough
#print axioms Verif.C107_enough_law
#print axioms Verif.C107_increasing
#print axioms Verif.C107_total_refuted
#print axioms Verif.C107_expected_total
#print axioms Verif.C107_one
#print axioms Verif.C108_prefix
#print axioms Verif.C108_complete_partial
#print axioms Verif.C108_old_points
#print axioms Verif.C108_no_panic_partial
#print axioms Verif.C108_refuted
#print axioms Verif.C108_panic_refuted
#print axioms Verif.C109_written
#print axioms Verif.C109_place
#print axioms Verif.C109_parent
#print axioms Verif.C109_reload_partial
#print axioms Verif.C109_exit
#print axioms Verif.C109_refuted
#print axioms Verif.C109_no_dir
#print axioms Verif.C109_with_dist
#print axioms Verif.C11_vec_filter
#print axioms Verif.C11_vec_filter_sound
#print axioms Verif.C110_lists
#print axioms Verif.C110_history
#print axioms Verif.C110_insert
#print axioms Verif.C111_links_partial
#print axioms Verif.C111_exactly_once_partial
#print axioms Verif.C111_no_panic_partial
#print axioms Verif.C111_entry_partial
#print axioms Verif.C111_progress_partial
#print axioms Verif.C111_insert_partial
#print axioms Verif.C111_search_partial
#print axioms Verif.C111_levels_refuted
#print axioms Verif.C111_nan_refuted
#print axioms Verif.C112_dump_ok_iff_partial
#print axioms Verif.C112_reload_graph_partial
#print axioms Verif.C112_reload_same_partial
#print axioms Verif.C112_nodata_partial
#print axioms Verif.C112_truncated_partial
#print axioms Verif.C112_again_partial
#print axioms Verif.C113_possible
#print axioms Verif.C113_deadlock_levels
#print axioms Verif.C114_refuted
#print axioms Verif.C114_any_time_partial
#print axioms Verif.C114_history_partial
#print axioms Verif.C114_reloaded_partial
#print axioms Verif.C115_nan
#print axioms Verif.C115_lt
#print axioms Verif.C115_le
#print axioms Verif.C115_neg
#print axioms Verif.C115_legal
#print axioms Verif.C116_only_short
#print axioms Verif.C116_used
#print axioms Verif.C116_short_record
#print axioms Verif.C117_reused
#print axioms Verif.C118_refuted
#print axioms Verif.C118_drop_partial
#print axioms Verif.C118_no_link_partial
#print axioms Verif.C118_cycles_partial
#print axioms Verif.C119_refuted
#print axioms Verif.C119_again_partial
#print axioms Verif.C12_parallel_search
#print axioms Verif.C120_injective
#print axioms Verif.C121_refuted
#print axioms Verif.C121_prefix_partial
#print axioms Verif.C121_usual
#print axioms Verif.C122_sizes
#print axioms Verif.C123_same
#print axioms Verif.C123_work
#print axioms Verif.C124_prefix_partial
#print axioms Verif.C124_complete_partial
#print axioms Verif.C124_no_panic_partial
#print axioms Verif.C125_never_more_partial
#print axioms Verif.C125_unreadable_partial
#print axioms Verif.C125_reload_partial
#print axioms Verif.C126_batch
#print axioms Verif.C126_history
#print axioms Verif.C126_search
#print axioms Verif.C127_reload
#print axioms Verif.C127_resumed_partial
#print axioms Verif.C128_point_data
#print axioms Verif.C128_point
#print axioms Verif.C128_negative
#print axioms Verif.C128_layer_nb
#print axioms Verif.C128_found
#print axioms Verif.C128_counters
#print axioms Verif.C129_content
#print axioms Verif.C129_points_partial
#print axioms Verif.C129_old_points
#print axioms Verif.C129_no_panic_partial
#print axioms Verif.C129_resumed_partial
#print axioms Verif.C129_refuted
#print axioms Verif.C129_panic_refuted
#print axioms Verif.C13_refuted
#print axioms Verif.C13_knbn_zero_partial
#print axioms Verif.C130_insertions
#print axioms Verif.C130_contains
#print axioms Verif.C130_search
#print axioms Verif.C130_point_data
#print axioms Verif.C130_iter_partial
#print axioms Verif.C130_layer
#print axioms Verif.C130_dump
#print axioms Verif.C130_flatten
#print axioms Verif.C130_no_panic_partial
#print axioms Verif.C130_readers_enabled
#print axioms Verif.C130_no_infinite_schedule
#print axioms Verif.C130_completes_partial
#print axioms Verif.C131_search_partial
#print axioms Verif.C131_point_data_partial
#print axioms Verif.C131_iter_partial
#print axioms Verif.C131_layer_partial
#print axioms Verif.C131_dump_partial
#print axioms Verif.C131_flatten_partial
#print axioms Verif.C131_no_infinite_schedule_partial
#print axioms Verif.C131_completes_partial
#print axioms Verif.C132_search_partial
#print axioms Verif.C132_insert_partial
#print axioms Verif.C132_sections_partial
#print axioms Verif.C132_bound_refuted
#print axioms Verif.C133_local_optimum_partial
#print axioms Verif.C133_exact
#print axioms Verif.C133_filter_exact
#print axioms Verif.C133_larger_ef
#print axioms Verif.C133_filter_values_partial
#print axioms Verif.C133_navigable
#print axioms Verif.C133_whole_refuted
#print axioms Verif.C134_table
#print axioms Verif.C134_no_overlap
#print axioms Verif.C134_serial
#print axioms Verif.C134_any_two_partial
#print axioms Verif.C134_reloaded_partial
#print axioms Verif.C134_links_refuted
#print axioms Verif.C134_entry_refuted
#print axioms Verif.C135_outcome
#print axioms Verif.C135_empty
#print axioms Verif.C135_clamp
#print axioms Verif.C135_fits_partial
#print axioms Verif.C135_refuted
#print axioms Verif.C135_reloaded_outcome
#print axioms Verif.C135_reloaded_clamp
#print axioms Verif.C136_same_partial
#print axioms Verif.C136_first
#print axioms Verif.C136_panics
#print axioms Verif.C136_stored
#print axioms Verif.C136_blind
#print axioms Verif.C136_refuted
#print axioms Verif.C136_reloaded_panics
#print axioms Verif.C137_lengths_partial
#print axioms Verif.C137_total
#print axioms Verif.C137_concurrent_partial
#print axioms Verif.C137_reloaded
#print axioms Verif.C137_resumed_partial
#print axioms Verif.C137_no_layer_refuted
#print axioms Verif.C138_fits_partial
#print axioms Verif.C138_with_dist_partial
#print axioms Verif.C138_only
#print axioms Verif.C138_err
#print axioms Verif.C138_refuted
#print axioms Verif.C139_look
#print axioms Verif.C139_layer
#print axioms Verif.C139_point
#print axioms Verif.C139_report
#print axioms Verif.C14_refuted
#print axioms Verif.C14_small_partial
#print axioms Verif.C14_small_exact
#print axioms Verif.C140_same_partial
#print axioms Verif.C140_checked
#print axioms Verif.C140_map
#print axioms Verif.C140_any
#print axioms Verif.C140_refuted
#print axioms Verif.C141_same_partial
#print axioms Verif.C141_with_dist_partial
#print axioms Verif.C141_ok_partial
#print axioms Verif.C141_dump
#print axioms Verif.C141_count
#print axioms Verif.C141_refuted
#print axioms Verif.C15_refuted
#print axioms Verif.C15_small_partial
#print axioms Verif.C16_holds_inserted
#print axioms Verif.C17_ids
#print axioms Verif.C17_stable
#print axioms Verif.C17_stable_insert
#print axioms Verif.C18_count
#print axioms Verif.C18_count_layers
#print axioms Verif.C19_entry_top
#print axioms Verif.C20_degree
#print axioms Verif.C21_lists
#print axioms Verif.C22_link_distances
#print axioms Verif.C22_link_distances_concurrent
#print axioms Verif.C23_refuted
#print axioms Verif.C23_exceptions_partial
#print axioms Verif.C23_top_first_partial
#print axioms Verif.C23_sequence_partial
#print axioms Verif.C24_selection
#print axioms Verif.C24_selection_partial
#print axioms Verif.C24_diversified_partial
#print axioms Verif.C24_all_selected
#print axioms Verif.C24_diversified_refuted
#print axioms Verif.C24_nearest_refuted
#print axioms Verif.C25_keep_pruned
#print axioms Verif.C26_search_partial
#print axioms Verif.C26_search_refuted
#print axioms Verif.C26_insert_legal
#print axioms Verif.C27_level_range
#print axioms Verif.C28_level_scale
#print axioms Verif.C28_sequence
#print axioms Verif.C28_rounded
#print axioms Verif.C28_observed
#print axioms Verif.C29_exactly_once
#print axioms Verif.C30_always_ok
#print axioms Verif.C31_refuted
#print axioms Verif.C31_lost_point
#print axioms Verif.C31_entry_top_partial
#print axioms Verif.C32_refuted
#print axioms Verif.C32_levels_refuted
#print axioms Verif.C32_progress_partial
#print axioms Verif.C32_no_infinite_schedule
#print axioms Verif.C32_completes_partial
#print axioms Verif.C33_insert_terminates
#print axioms Verif.C33_insert_returns
#print axioms Verif.C34_iterates_all
#print axioms Verif.C34_iter_top
#print axioms Verif.C34_concurrent_refuted
#print axioms Verif.C35_refuted
#print axioms Verif.C35_no_panic_partial
#print axioms Verif.C35_exact_partial
#print axioms Verif.C36_layer_iter
#print axioms Verif.C37_point_data
#print axioms Verif.C37_point_data_top
#print axioms Verif.C37_inserted
#print axioms Verif.C37_point
#print axioms Verif.C37_point_top
#print axioms Verif.C38_refuted
#print axioms Verif.C38_refuted_name
#print axioms Verif.C38_reload_graph_partial
#print axioms Verif.C39_dump_ok_iff
#print axioms Verif.C40_refuted
#print axioms Verif.C40_reload_same_partial
#print axioms Verif.C41_truncated
#print axioms Verif.C41_truncated_no_ub
#print axioms Verif.C41_long_names
#print axioms Verif.C42_refuted_mmap
#print axioms Verif.C42_trailing_partial
#print axioms Verif.C42_trailing_mmap_partial
#print axioms Verif.C42_trailing_noData
#print axioms Verif.C43_header_partial
#print axioms Verif.C43_long_refused
#print axioms Verif.C43_old_header
#print axioms Verif.C43_magic
#print axioms Verif.C43_file
#print axioms Verif.C44_refuted
#print axioms Verif.C44_scale_multiplied
#print axioms Verif.C44_scale_partial
#print axioms Verif.C45_refuted
#print axioms Verif.C45_flags_lost
#print axioms Verif.C45_params_partial
#print axioms Verif.C46_refuted
#print axioms Verif.C46_distance_partial
#print axioms Verif.C46_with_dist
#print axioms Verif.C47_type_name
#print axioms Verif.C47_dump
#print axioms Verif.C48_no_overwrite
#print axioms Verif.C49_refuted
#print axioms Verif.C49_overwritten
#print axioms Verif.C49_other_names_partial
#print axioms Verif.C50_refuted
#print axioms Verif.C50_threshold_partial
#print axioms Verif.C50_dump_partial
#print axioms Verif.C50_no_threshold
#print axioms Verif.C51_datamap
#print axioms Verif.C52_refuted
#print axioms Verif.C52_mmap_same_partial
#print axioms Verif.C53_refuted
#print axioms Verif.C53_aligned_partial
#print axioms Verif.C54_refuted
#print axioms Verif.C54_check_partial
#print axioms Verif.C54_same
#print axioms Verif.C55_nodata
#print axioms Verif.C56_search_same
#print axioms Verif.C57_refuted
#print axioms Verif.C57_flat_partial
#print axioms Verif.C57_sequential
#print axioms Verif.C57_nodata
#print axioms Verif.C58_refuted
#print axioms Verif.C58_description_partial
#print axioms Verif.C59_search
#print axioms Verif.C59_parallel
#print axioms Verif.C59_negative_length
#print axioms Verif.C60_refuted
#print axioms Verif.C60_drop_partial
#print axioms Verif.C60_no_cycle_partial
#print axioms Verif.C60_drop_empties
#print axioms Verif.C61_once
#print axioms Verif.C61_never
#print axioms Verif.C62_histories
#print axioms Verif.C63_refuted
#print axioms Verif.C63_partial
#print axioms Verif.C64_insert_args
#print axioms Verif.C65_refuted
#print axioms Verif.C65_dump_load_partial
#print axioms Verif.C66_refuted
#print axioms Verif.C66_loadable_partial
#print axioms Verif.C66_creatable_partial
#print axioms Verif.C66_creatable_refuted
#print axioms Verif.C67_filter_refuted
#print axioms Verif.C67_count
#print axioms Verif.C67_filter_count
#print axioms Verif.C68_filter_local_optimum
#print axioms Verif.C69_own_links
#print axioms Verif.C69_linked
#print axioms Verif.C70_refuted
#print axioms Verif.C70_back_links_partial
#print axioms Verif.C71_only_farthest_lost
#print axioms Verif.C72_entry_first
#print axioms Verif.C73_wellformed_partial
#print axioms Verif.C73_sorted_refuted
#print axioms Verif.C74_search_safe
#print axioms Verif.C74_answers_partial
#print axioms Verif.C74_sorted_refuted
#print axioms Verif.C75_data_file
#print axioms Verif.C76_map_any
#print axioms Verif.C77_layout
#print axioms Verif.C78_mapped_refuted
#print axioms Verif.C78_with_dist
#print axioms Verif.C78_reload
#print axioms Verif.C79_refuted
#print axioms Verif.C79_unmapped_partial
#print axioms Verif.C80_answers_partial
#print axioms Verif.C80_filter
#print axioms Verif.C81_no_panic
#print axioms Verif.C81_terminates
#print axioms Verif.C81_nonempty
#print axioms Verif.C82_undisturbed
#print axioms Verif.C82_search_enabled
#print axioms Verif.C82_no_infinite_schedule
#print axioms Verif.C82_progress_partial
#print axioms Verif.C83_parallel
#print axioms Verif.C84_snapshot_refuted
#print axioms Verif.C84_no_overlap_partial
#print axioms Verif.C85_fair_progress_partial
#print axioms Verif.C85_fair_completes_partial
#print axioms Verif.C86_iter_refuted
#print axioms Verif.C86_flatten_refuted
#print axioms Verif.C86_search_in_loop_refuted
#print axioms Verif.C86_no_deadlock_partial
#print axioms Verif.C86_readers_partial
#print axioms Verif.C86_completes_partial
#print axioms Verif.C86_exclusive
#print axioms Verif.C86_no_infinite_execution
#print axioms Verif.C87_refuted
#print axioms Verif.C87_refuted_empty
#print axioms Verif.C87_entry_refuted
#print axioms Verif.C87_never_more
#print axioms Verif.C87_unreadable
#print axioms Verif.C87_empty_vectors
#print axioms Verif.C87_reload_partial
#print axioms Verif.C88_ok_complete
#print axioms Verif.C88_prefix
#print axioms Verif.C88_reload
#print axioms Verif.C88_failed
#print axioms Verif.C88_possible
#print axioms Verif.C88_every_prefix
#print axioms Verif.C89_same
#print axioms Verif.C89_parts
#print axioms Verif.C89_cost
#print axioms Verif.C89_noted
#print axioms Verif.C90_graph_file
#print axioms Verif.C90_accepted_partial
#print axioms Verif.C90_accepted_with_dist_partial
#print axioms Verif.C90_accepted_mapped_partial
#print axioms Verif.C91_larger_ef
#print axioms Verif.C91_ties_needed
#print axioms Verif.C92_extensional
#print axioms Verif.C92_accept_all_partial
#print axioms Verif.C92_accept_all_refuted
#print axioms Verif.C93_iff
#print axioms Verif.C93_search_same
#print axioms Verif.C93_reload
#print axioms Verif.C93_reload_noData
#print axioms Verif.C94_history
#print axioms Verif.C94_concurrent
#print axioms Verif.C94_search
#print axioms Verif.C95_history
#print axioms Verif.C95_sequence
#print axioms Verif.C95_concurrent
#print axioms Verif.C96_navigable
#print axioms Verif.C96_complete
#print axioms Verif.C96_small
#print axioms Verif.C97_sections
#print axioms Verif.C97_schedule
#print axioms Verif.C98_reach
#print axioms Verif.C98_content
#print axioms Verif.C98_search
#print axioms Verif.C98_new
#print axioms Verif.C98_few_layers
#print axioms Verif.C98_ptr
#print axioms Verif.C99_stale_refuted
#print axioms Verif.C99_from_map
#print axioms Verif.C99_last_record_partial
