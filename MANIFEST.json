{
 "claims": [
  {
   "property": "C01",
   "status": "partial",
   "theorems": [
    "Verif.C01_bounded",
    "Verif.C01_sorted_bounded_partial",
    "Verif.C01_sorted_refuted"
   ],
   "note": "Sorted when no distance is a NaN. With a NaN the heap of the standard library loses the order without a panic: C01_sorted_refuted."
  },
  {
   "property": "C02",
   "status": "proved",
   "theorems": [
    "Verif.C02_true_answers"
   ],
   "note": ""
  },
  {
   "property": "C03",
   "status": "proved",
   "theorems": [
    "Verif.C03_distinct"
   ],
   "note": ""
  },
  {
   "property": "C04",
   "status": "proved",
   "theorems": [
    "Verif.C04_empty_nonempty",
    "Verif.C04_returned"
   ],
   "note": "With legal distances such a search returns; with any distances, an answer that is returned is not empty."
  },
  {
   "property": "C05",
   "status": "proved",
   "theorems": [
    "Verif.C05_no_panic",
    "Verif.C05_no_panic_filter",
    "Verif.C05_only_negative",
    "Verif.C05_terminates"
   ],
   "note": ""
  },
  {
   "property": "C06",
   "status": "partial",
   "theorems": [
    "Verif.C06_local_optimum_partial",
    "Verif.C06_local_refuted"
   ],
   "note": "Whenever a search returns and no distance is a NaN (distances may be negative). With a NaN: C06_local_refuted."
  },
  {
   "property": "C07",
   "status": "partial",
   "theorems": [
    "Verif.C07_exact_partial",
    "Verif.C07_exact",
    "Verif.C07_exact_refuted"
   ],
   "note": "Whenever a search returns and no distance is a NaN; with legal distances it returns. With a NaN: C07_exact_refuted."
  },
  {
   "property": "C08",
   "status": "partial",
   "theorems": [
    "Verif.C08_not_worse_partial",
    "Verif.C08_not_worse_than_pivots",
    "Verif.C08_worse_refuted"
   ],
   "note": "Whenever a search returns and no distance is a NaN; with legal distances it returns. With NaN distances: C08_worse_refuted."
  },
  {
   "property": "C09",
   "status": "partial",
   "theorems": [
    "Verif.C09_refuted",
    "Verif.C09_filter_partial"
   ],
   "note": "False as stated: C09_refuted. Proved under the restriction stated in C09_filter_partial."
  },
  {
   "property": "C10",
   "status": "partial",
   "theorems": [
    "Verif.C10_exact_partial",
    "Verif.C10_filter_exact",
    "Verif.C10_exact_refuted"
   ],
   "note": "Whenever a search returns and no distance is a NaN; with legal distances it returns. With a NaN: C10_exact_refuted."
  },
  {
   "property": "C100",
   "status": "proved",
   "theorems": [
    "Verif.C100_flat",
    "Verif.C100_search",
    "Verif.C100_full_refuted"
   ],
   "note": "C100_full_refuted: the condition on the lists is needed."
  },
  {
   "property": "C101",
   "status": "partial",
   "theorems": [
    "Verif.C101_exact_part",
    "Verif.C101_law",
    "Verif.C101_total",
    "Verif.C101_decreasing",
    "Verif.C101_default",
    "Verif.C101_redraw",
    "Verif.C101_smaller_scale",
    "Verif.C101_comment_refuted",
    "Verif.C101_one_connection_refuted"
   ],
   "note": "Proved for positive finite scales, that is max_nb_connection at least 2, with exact logarithm and product (the integer part and the second sample are those of the code, C101_exact_part). False for max_nb_connection = 1, where all levels are equally likely (C101_one_connection_refuted); the figure in the comment of the code is wrong (C101_comment_refuted)."
  },
  {
   "property": "C102",
   "status": "partial",
   "theorems": [
    "Verif.C102_search_partial",
    "Verif.C102_search_refuted",
    "Verif.C102_history",
    "Verif.C102_sequence",
    "Verif.C102_reload",
    "Verif.C102_ties_refuted"
   ],
   "note": "C102_ties_refuted: the condition on ties is needed; C102_search_refuted: NaN."
  },
  {
   "property": "C103",
   "status": "partial",
   "theorems": [
    "Verif.C103_header_refuted",
    "Verif.C103_cut_data",
    "Verif.C103_cut_graph",
    "Verif.C103_cut_mapped",
    "Verif.C103_cut_graph_mapped",
    "Verif.C103_dump_refuted",
    "Verif.C103_err_partial",
    "Verif.C103_c"
   ],
   "note": "False: an unreadable header panics (C103_header_refuted), a data file cut after its header exits the process (C103_dump_refuted). Proved: Err for missing files and other distances (C103_err_partial); what happens for every cut of files that can be loaded (C103_cut_data without map, C103_cut_mapped: never a read out of bounds; C103_cut_graph_mapped: with or without map); the null pointer is returned exactly for Err (C103_c)."
  },
  {
   "property": "C104",
   "status": "partial",
   "theorems": [
    "Verif.C104_settings",
    "Verif.C104_any_time",
    "Verif.C104_options_partial",
    "Verif.C104_threshold_refuted"
   ],
   "note": "set_mmap_threshold(0) is ignored (C104_threshold_refuted); proved for the settings of an index and for positive thresholds."
  },
  {
   "property": "C105",
   "status": "proved",
   "theorems": [
    "Verif.C105_std_lawful",
    "Verif.C105_nan_needed"
   ],
   "note": "C105_nan_needed: the condition on NaN is needed. Sorts of more than 20 elements use another algorithm, for which the laws stay an assumption."
  },
  {
   "property": "C106",
   "status": "partial",
   "theorems": [
    "Verif.C106_answers",
    "Verif.C106_no_panic",
    "Verif.C106_found_partial",
    "Verif.C106_nonempty_refuted",
    "Verif.C106_from_negative",
    "Verif.C106_sorted_refuted"
   ],
   "note": "False when layer 0 is empty (C106_nonempty_refuted) and for the order of the vector (C106_sorted_refuted)."
  },
  {
   "property": "C107",
   "status": "partial",
   "theorems": [
    "Verif.C107_formula",
    "Verif.C107_enough",
    "Verif.C107_enough_law",
    "Verif.C107_increasing",
    "Verif.C107_total_refuted",
    "Verif.C107_expected_total",
    "Verif.C107_one"
   ],
   "note": "False: an exp is missing in the formula, so that higher layers reserve more (C107_increasing) and 16 layers reserve more than 90 times max_elements (C107_total_refuted). Proved: never less than the expected number (C107_enough). Exact real arithmetic."
  },
  {
   "property": "C108",
   "status": "partial",
   "theorems": [
    "Verif.C108_prefix",
    "Verif.C108_complete_partial",
    "Verif.C108_old_points",
    "Verif.C108_no_panic_partial",
    "Verif.C108_refuted",
    "Verif.C108_panic_refuted"
   ],
   "note": "False: a point above the entry point is left out although the table has it (C108_refuted), and the first insertion makes a concurrent iteration panic (C108_panic_refuted). Proved: order and no repetition, all the points up to the level of the entry point at the moment the iterator is made, all the points of before, no panic if the index was not empty."
  },
  {
   "property": "C109",
   "status": "partial",
   "theorems": [
    "Verif.C109_written",
    "Verif.C109_place",
    "Verif.C109_parent",
    "Verif.C109_reload_partial",
    "Verif.C109_exit",
    "Verif.C109_refuted",
    "Verif.C109_no_dir",
    "Verif.C109_with_dist"
   ],
   "note": "False: with a memory map the directory is pushed twice onto the path of the graph file, so that the reload from a relative directory ends the process (C109_exit, C109_refuted); file_dump in a missing directory panics (C109_no_dir). Proved: which files are written (C109_written, C109_place), and the reload without map, or from an absolute or the working directory (C109_reload_partial); load_hnsw_with_dist from any directory (C109_with_dist)."
  },
  {
   "property": "C11",
   "status": "proved",
   "theorems": [
    "Verif.C11_vec_filter",
    "Verif.C11_vec_filter_sound"
   ],
   "note": ""
  },
  {
   "property": "C110",
   "status": "proved",
   "theorems": [
    "Verif.C110_lists",
    "Verif.C110_history",
    "Verif.C110_insert"
   ],
   "note": ""
  },
  {
   "property": "C111",
   "status": "partial",
   "theorems": [
    "Verif.C111_links_partial",
    "Verif.C111_exactly_once_partial",
    "Verif.C111_no_panic_partial",
    "Verif.C111_entry_partial",
    "Verif.C111_progress_partial",
    "Verif.C111_insert_partial",
    "Verif.C111_search_partial",
    "Verif.C111_levels_refuted",
    "Verif.C111_nan_refuted"
   ],
   "note": "False: the number of layers of the table is read from the file and levels are drawn up to 15, so that an insertion panics if the file has fewer layers than the level drawn (C111_levels_refuted); an insertion may panic and lists are not sorted if links of the files are NaN (C111_nan_refuted, C73_sorted_refuted). Proved for levels that the table has, for any files; only the absence of panics, and the order and length of a list, need that no link of the files, or of the list in the files, is a NaN (progress: same levels as for C32)."
  },
  {
   "property": "C112",
   "status": "partial",
   "theorems": [
    "Verif.C112_dump_ok_iff_partial",
    "Verif.C112_reload_graph_partial",
    "Verif.C112_reload_same_partial",
    "Verif.C112_nodata_partial",
    "Verif.C112_truncated_partial",
    "Verif.C112_again_partial"
   ],
   "note": "C112_dump_ok_iff_partial holds for any files; the theorems on the second reload are proved for files without a NaN link; all for levels that the table has; the graph if no vector is shorter than the one of the entry point (C40_refuted shows that this is needed), the vectors if all have one length, which is the case after a reload without map that is not of the oldest format (C112_again_partial)."
  },
  {
   "property": "C113",
   "status": "proved",
   "theorems": [
    "Verif.C113_possible",
    "Verif.C113_deadlock_levels"
   ],
   "note": "The restriction of C32, C82, C85 and C111 to certain levels is thus the best one."
  },
  {
   "property": "C114",
   "status": "partial",
   "theorems": [
    "Verif.C114_refuted",
    "Verif.C114_any_time_partial",
    "Verif.C114_history_partial",
    "Verif.C114_reloaded_partial"
   ],
   "note": "False for insertions in parallel in an empty index: several points can be left without any link (C114_refuted). Proved for every index that has a point when the calls start, and for indexes reloaded from any files."
  },
  {
   "property": "C115",
   "status": "proved",
   "theorems": [
    "Verif.C115_nan",
    "Verif.C115_lt",
    "Verif.C115_le",
    "Verif.C115_neg",
    "Verif.C115_legal"
   ],
   "note": "Relates the comparisons of bit patterns used in the model to the numbers the standard assigns to the patterns."
  },
  {
   "property": "C116",
   "status": "proved",
   "theorems": [
    "Verif.C116_only_short",
    "Verif.C116_used",
    "Verif.C116_short_record"
   ],
   "note": "For a new HnswIo and for one that was used before."
  },
  {
   "property": "C117",
   "status": "proved",
   "theorems": [
    "Verif.C117_reused",
    "Verif.C116_used"
   ],
   "note": "Files replaced while they are mapped are outside of the model (a map is a copy of the bytes)."
  },
  {
   "property": "C118",
   "status": "partial",
   "theorems": [
    "Verif.C118_refuted",
    "Verif.C118_drop_partial",
    "Verif.C118_no_link_partial",
    "Verif.C118_cycles_partial"
   ],
   "note": "False for a file whose entry point is not of the highest level: one changed byte is enough (C118_refuted). That drop does not panic, what it removes exactly, and that nothing is left if the entry point is of the highest level, are proved, also after insertions, for any files."
  },
  {
   "property": "C119",
   "status": "partial",
   "theorems": [
    "Verif.C119_refuted",
    "Verif.C119_again_partial"
   ],
   "note": "False for the graph file: the eight bytes of the level scale change (C119_refuted). The data file and all other bytes of the graph file are the same after any number of cycles; the lists of links must be in the order in which the dump sorts them (they are, C20) and max_nb_connection at most 255 (above, a reload does not have the same value)."
  },
  {
   "property": "C12",
   "status": "proved",
   "theorems": [
    "Verif.C12_parallel_search"
   ],
   "note": ""
  },
  {
   "property": "C120",
   "status": "proved",
   "theorems": [
    "Verif.C120_injective"
   ],
   "note": "max_nb_connection is written as one byte, so only its remainder modulo 256 is determined."
  },
  {
   "property": "C121",
   "status": "partial",
   "theorems": [
    "Verif.C121_refuted",
    "Verif.C121_prefix_partial",
    "Verif.C121_usual"
   ],
   "note": "False if more neighbours than ef are asked for (C121_refuted). Proved if the larger one of ef and knbn is the same, in particular for knbn <= knbn' <= ef."
  },
  {
   "property": "C122",
   "status": "proved",
   "theorems": [
    "Verif.C122_sizes"
   ],
   "note": ""
  },
  {
   "property": "C123",
   "status": "proved",
   "theorems": [
    "Verif.C123_same",
    "Verif.C123_work"
   ],
   "note": "ef_construction counts as 1 if it is 0. C123_same: the counted executions are the executions of the model of insertion."
  },
  {
   "property": "C124",
   "status": "partial",
   "theorems": [
    "Verif.C124_prefix_partial",
    "Verif.C124_complete_partial",
    "Verif.C124_no_panic_partial"
   ],
   "note": "Proved for all files and levels that the reloaded table has (see C111_levels_refuted)."
  },
  {
   "property": "C125",
   "status": "partial",
   "theorems": [
    "Verif.C125_never_more_partial",
    "Verif.C125_unreadable_partial",
    "Verif.C125_reload_partial"
   ],
   "note": "False when the number of points was read before an insertion (C125_unreadable_partial, with an example). Otherwise proved for files without NaN links (C125_never_more_partial: for any files) whose header says 16 layers (others are not dumped, C112), levels that the reloaded table has."
  },
  {
   "property": "C126",
   "status": "proved",
   "theorems": [
    "Verif.C126_batch",
    "Verif.C126_history",
    "Verif.C126_search"
   ],
   "note": "All the threads have returned (finished threads have, if the distances are legal: Exec.no_panic). C126_first_refuted, C126_level_refuted and C100_full_refuted: the conditions are needed."
  },
  {
   "property": "C127",
   "status": "partial",
   "theorems": [
    "Verif.C127_reload",
    "Verif.C127_resumed_partial"
   ],
   "note": "C127_reload: for the indexes made by the functions of the library, the index being non empty when the dump starts (otherwise the files have a wrong dimension, C87_refuted_empty) and vectors having one length. C127_resumed_partial: for those reloaded from any files without NaN links whose header says 16 layers."
  },
  {
   "property": "C128",
   "status": "proved",
   "theorems": [
    "Verif.C128_point_data",
    "Verif.C128_point",
    "Verif.C128_negative",
    "Verif.C128_layer_nb",
    "Verif.C128_found",
    "Verif.C128_counters"
   ],
   "note": "The functions that look at the index once (get_nb_point, get_max_level_observed, get_data_dimension) are one action each. Also C128_resumed_partial, for indexes reloaded from any files."
  },
  {
   "property": "C129",
   "status": "partial",
   "theorems": [
    "Verif.C129_content",
    "Verif.C129_points_partial",
    "Verif.C129_old_points",
    "Verif.C129_no_panic_partial",
    "Verif.C129_resumed_partial",
    "Verif.C129_refuted",
    "Verif.C129_panic_refuted"
   ],
   "note": "False for a point above the entry point when the iterator is made (C129_refuted) and during the first insertion (C129_panic_refuted). Proved for the other points, all the old ones included (C129_old_points), and for the content (C129_content). C129_resumed_partial: any files; no panic if they have no NaN link, and the links of a point are sorted if the files have no NaN for it."
  },
  {
   "property": "C13",
   "status": "partial",
   "theorems": [
    "Verif.C13_refuted",
    "Verif.C13_knbn_zero_partial"
   ],
   "note": "False as stated (panic with a filter and knbn = ef = 0): C13_refuted."
  },
  {
   "property": "C130",
   "status": "partial",
   "theorems": [
    "Verif.C130_insertions",
    "Verif.C130_contains",
    "Verif.C130_search",
    "Verif.C130_point_data",
    "Verif.C130_iter_partial",
    "Verif.C130_layer",
    "Verif.C130_dump",
    "Verif.C130_flatten",
    "Verif.C130_no_panic_partial",
    "Verif.C130_readers_enabled",
    "Verif.C130_no_infinite_schedule",
    "Verif.C130_completes_partial"
   ],
   "note": "C130_no_panic_partial: the index was not empty before (otherwise C108_panic_refuted). C130_iter_partial: as C108, points above the entry point can be left out. C130_completes_partial: levels of the insertions as in C32. Recursive reads of parking_lot are the subject of C86."
  },
  {
   "property": "C131",
   "status": "partial",
   "theorems": [
    "Verif.C131_search_partial",
    "Verif.C131_point_data_partial",
    "Verif.C131_iter_partial",
    "Verif.C131_layer_partial",
    "Verif.C131_dump_partial",
    "Verif.C131_flatten_partial",
    "Verif.C131_no_infinite_schedule_partial",
    "Verif.C131_completes_partial"
   ],
   "note": "All: levels that the reloaded table has (C111_levels_refuted). C131_flatten_partial: a NaN in the files may make the sort panic, and the result unsorted for its point. C131_iter_partial and C131_flatten_partial: points above the entry point can be left out (C108_refuted). C131_completes_partial: levels of the insertions as in C32."
  },
  {
   "property": "C132",
   "status": "partial",
   "theorems": [
    "Verif.C132_search_partial",
    "Verif.C132_insert_partial",
    "Verif.C132_sections_partial",
    "Verif.C132_bound_refuted"
   ],
   "note": "False for searches: the lists read in the descent have the length that the files give, and max_nb_connection is read from the header (C132_bound_refuted); the exact number is one for the entry point and one for each link of the lists read (C132_search_partial). The bounds on insertions hold for any files, for levels that the reloaded table has (see C111_levels_refuted)."
  },
  {
   "property": "C133",
   "status": "partial",
   "theorems": [
    "Verif.C133_local_optimum_partial",
    "Verif.C133_exact",
    "Verif.C133_filter_exact",
    "Verif.C133_larger_ef",
    "Verif.C133_filter_values_partial",
    "Verif.C133_navigable",
    "Verif.C133_whole_refuted"
   ],
   "note": "False as a whole: points that the links of the files do not lead to are missed, whatever ef (C133_whole_refuted); the answers are exact among the points that can be reached (C133_exact, C133_filter_exact). C133_local_optimum_partial and C133_filter_values_partial: no distance of the query is a NaN. The levels of the insertions are those that the reloaded table has (C111_levels_refuted)."
  },
  {
   "property": "C134",
   "status": "partial",
   "theorems": [
    "Verif.C134_table",
    "Verif.C134_no_overlap",
    "Verif.C134_serial",
    "Verif.C134_any_two_partial",
    "Verif.C134_reloaded_partial",
    "Verif.C134_links_refuted",
    "Verif.C134_entry_refuted"
   ],
   "note": "False for the links (C134_links_refuted: two close points inserted together do not link to each other) and for the entry point (C134_entry_refuted). Proved: the table and the counter are those of some order (C134_table); without overlap the whole state is (C134_no_overlap, C134_serial); the content of each layer does not depend on the schedule, nor does the level of the entry point if the index had a top entry point before (C134_any_two_partial, otherwise C31_refuted). C134_reloaded_partial: the same for reloaded indexes, at levels that the reloaded table has."
  },
  {
   "property": "C135",
   "status": "partial",
   "theorems": [
    "Verif.C135_outcome",
    "Verif.C135_empty",
    "Verif.C135_clamp",
    "Verif.C135_fits_partial",
    "Verif.C135_refuted",
    "Verif.C135_reloaded_outcome",
    "Verif.C135_reloaded_clamp"
   ],
   "note": "The first sentence is false (C135_refuted: in an index of one point a search for 2^60 neighbours panics and smaller requests abort for lack of memory); it holds for requests that are at most the number of points plus one (C135_fits_partial), and C135_clamp shows that larger ones give the same answers. Exact outcome: C135_outcome, C135_empty, C135_reloaded_outcome. Only the reservations of the two heaps of search_layer are modelled; ef_construction of insertions is not."
  },
  {
   "property": "C136",
   "status": "partial",
   "theorems": [
    "Verif.C136_same_partial",
    "Verif.C136_first",
    "Verif.C136_panics",
    "Verif.C136_stored",
    "Verif.C136_blind",
    "Verif.C136_refuted",
    "Verif.C136_reloaded_panics"
   ],
   "note": "The first sentence is false from ef_construction = 2^60 on (C136_refuted, C136_panics, C136_stored, C136_blind, C136_reloaded_panics); below, the insertion is exactly the one of the other theorems (C136_same_partial). Aborts of the allocator for lack of memory end the process and are not modelled for insertions."
  },
  {
   "property": "C137",
   "status": "partial",
   "theorems": [
    "Verif.C137_lengths_partial",
    "Verif.C137_total",
    "Verif.C137_concurrent_partial",
    "Verif.C137_reloaded",
    "Verif.C137_resumed_partial",
    "Verif.C137_no_layer_refuted"
   ],
   "note": "Proved for every index created with max_layer at least 1; with max_layer = 0 the report panics (C137_no_layer_refuted)."
  },
  {
   "property": "C138",
   "status": "partial",
   "theorems": [
    "Verif.C138_fits_partial",
    "Verif.C138_with_dist_partial",
    "Verif.C138_only",
    "Verif.C138_err",
    "Verif.C138_refuted"
   ],
   "note": "The first sentence is false for damaged files (C138_refuted: one byte of a graph file of 1165 bytes aborts the process or panics where reading on would give Err). For all accepted files it holds (C138_fits_partial). Blocks whose size is not read in a file, and the HashMap and IndexMap that grow with what has been read, are not counted."
  },
  {
   "property": "C139",
   "status": "proved",
   "theorems": [
    "Verif.C139_look",
    "Verif.C139_layer",
    "Verif.C139_point",
    "Verif.C139_report"
   ],
   "note": "Lock sections that take no other lock are one action of the model (DESIGN.md, Locks). C139_report is for max_layer at least 1; with 0 the report panics (C137_no_layer_refuted). Found missing by the mutation CB01."
  },
  {
   "property": "C14",
   "status": "partial",
   "theorems": [
    "Verif.C14_refuted",
    "Verif.C14_small_partial",
    "Verif.C14_small_exact"
   ],
   "note": "The full claim is false (C14_refuted: a point of level 1 inserted second). Proved while no list can be full: at most 2*max_nb_connection+1 points, all of level 0, ef_construction >= n."
  },
  {
   "property": "C140",
   "status": "partial",
   "theorems": [
    "Verif.C140_same_partial",
    "Verif.C140_checked",
    "Verif.C140_map",
    "Verif.C140_any",
    "Verif.C140_refuted"
   ],
   "note": "The first half is false for dimensions with which the size of a record does not fit in usize (C140_refuted: a release build reads beyond a record, a debug build panics); for all others it is proved (C140_same_partial), with checks the only other outcome is a panic (C140_checked). The second half holds for all files (C140_map, C140_any)."
  },
  {
   "property": "C141",
   "status": "partial",
   "theorems": [
    "Verif.C141_same_partial",
    "Verif.C141_with_dist_partial",
    "Verif.C141_ok_partial",
    "Verif.C141_dump",
    "Verif.C141_count",
    "Verif.C141_refuted"
   ],
   "note": "False for 2^63 announced points and, with a memory map, for dimensions whose record does not fit in usize (C141_refuted). Proved for all other files (C141_same_partial, C141_with_dist_partial); an index returned is right for any dimension (C141_ok_partial); it holds for all dumps of the library whose records fit (C141_dump); what a release build returns for 2^63 announced points is the index read with a right number (C141_count)."
  },
  {
   "property": "C15",
   "status": "partial",
   "theorems": [
    "Verif.C15_refuted",
    "Verif.C15_small_partial"
   ],
   "note": "The full claim is false (C15_refuted: six points, the last one unreachable). Proved in the regime of C14_small_exact."
  },
  {
   "property": "C16",
   "status": "proved",
   "theorems": [
    "Verif.C16_holds_inserted"
   ],
   "note": ""
  },
  {
   "property": "C17",
   "status": "proved",
   "theorems": [
    "Verif.C17_ids",
    "Verif.C17_stable",
    "Verif.C17_stable_insert"
   ],
   "note": ""
  },
  {
   "property": "C18",
   "status": "proved",
   "theorems": [
    "Verif.C18_count",
    "Verif.C18_count_layers"
   ],
   "note": ""
  },
  {
   "property": "C19",
   "status": "proved",
   "theorems": [
    "Verif.C19_entry_top"
   ],
   "note": ""
  },
  {
   "property": "C20",
   "status": "proved",
   "theorems": [
    "Verif.C20_degree"
   ],
   "note": ""
  },
  {
   "property": "C21",
   "status": "proved",
   "theorems": [
    "Verif.C21_lists"
   ],
   "note": ""
  },
  {
   "property": "C22",
   "status": "proved",
   "theorems": [
    "Verif.C22_link_distances",
    "Verif.C22_link_distances_concurrent"
   ],
   "note": ""
  },
  {
   "property": "C23",
   "status": "partial",
   "theorems": [
    "Verif.C23_refuted",
    "Verif.C23_exceptions_partial",
    "Verif.C23_top_first_partial",
    "Verif.C23_sequence_partial"
   ],
   "note": "False as stated: C23_refuted. Proved: in every history, also while insertions run, the points listed in a layer above their level are at most one per level and never above the entry point (C23_exceptions_partial); the property holds in full when no point is inserted above the level of the first one (C23_top_first_partial, C23_sequence_partial)."
  },
  {
   "property": "C24",
   "status": "partial",
   "theorems": [
    "Verif.C24_selection",
    "Verif.C24_selection_partial",
    "Verif.C24_diversified_partial",
    "Verif.C24_all_selected",
    "Verif.C24_diversified_refuted",
    "Verif.C24_nearest_refuted"
   ],
   "note": "False as soon as a distance is NaN, between two selected points (C24_diversified_refuted) or from the new point to a candidate of the extension (C24_nearest_refuted). C24_selection holds for every distance; the _partial theorems, without NaN, say everything."
  },
  {
   "property": "C25",
   "status": "proved",
   "theorems": [
    "Verif.C25_keep_pruned"
   ],
   "note": ""
  },
  {
   "property": "C26",
   "status": "partial",
   "theorems": [
    "Verif.C26_search_partial",
    "Verif.C26_search_refuted",
    "Verif.C26_insert_legal"
   ],
   "note": "Insertions: proved. Searches: a NaN can be reported (C26_search_refuted); proved when no distance is a NaN."
  },
  {
   "property": "C27",
   "status": "proved",
   "theorems": [
    "Verif.C27_level_range"
   ],
   "note": ""
  },
  {
   "property": "C28",
   "status": "proved",
   "theorems": [
    "Verif.C28_level_scale",
    "Verif.C28_sequence",
    "Verif.C28_rounded",
    "Verif.C28_observed"
   ],
   "note": "C28_observed was added after the mutation CD14."
  },
  {
   "property": "C29",
   "status": "proved",
   "theorems": [
    "Verif.C29_exactly_once"
   ],
   "note": ""
  },
  {
   "property": "C30",
   "status": "proved",
   "theorems": [
    "Verif.C30_always_ok"
   ],
   "note": ""
  },
  {
   "property": "C31",
   "status": "partial",
   "theorems": [
    "Verif.C31_refuted",
    "Verif.C31_lost_point",
    "Verif.C31_entry_top_partial"
   ],
   "note": "False on an empty index: C31_refuted. Proved when the index already has a top entry point."
  },
  {
   "property": "C32",
   "status": "partial",
   "theorems": [
    "Verif.C32_refuted",
    "Verif.C32_levels_refuted",
    "Verif.C32_progress_partial",
    "Verif.C32_no_infinite_schedule",
    "Verif.C32_completes_partial"
   ],
   "note": "False when levels differ: two insertions of levels 2 and 1, three insertions of levels 1, 0, 0 or 1, 0, 1 (C32_refuted, C32_levels_refuted). Proved for any number of points of equal level and for two points one of which is of level 0; no infinite schedule in general."
  },
  {
   "property": "C33",
   "status": "proved",
   "theorems": [
    "Verif.C33_insert_terminates",
    "Verif.C33_insert_returns"
   ],
   "note": ""
  },
  {
   "property": "C34",
   "status": "proved",
   "theorems": [
    "Verif.C34_iterates_all",
    "Verif.C34_iter_top",
    "Verif.C34_concurrent_refuted"
   ],
   "note": "For completed sequences of insertions and for any index whose entry point is on the top populated layer. After concurrent insertions into an empty index the iterator can miss points: C34_concurrent_refuted."
  },
  {
   "property": "C35",
   "status": "partial",
   "theorems": [
    "Verif.C35_refuted",
    "Verif.C35_no_panic_partial",
    "Verif.C35_exact_partial"
   ],
   "note": "False on an empty index and when called again after the end: C35_refuted. C35_exact_partial says which calls panic."
  },
  {
   "property": "C36",
   "status": "proved",
   "theorems": [
    "Verif.C36_layer_iter"
   ],
   "note": ""
  },
  {
   "property": "C37",
   "status": "proved",
   "theorems": [
    "Verif.C37_point_data",
    "Verif.C37_point_data_top",
    "Verif.C37_inserted",
    "Verif.C37_point",
    "Verif.C37_point_top"
   ],
   "note": ""
  },
  {
   "property": "C38",
   "status": "partial",
   "theorems": [
    "Verif.C38_refuted",
    "Verif.C38_refuted_name",
    "Verif.C38_reload_graph_partial"
   ],
   "note": "False as stated when a vector is shorter than that of the entry point (C38_refuted) and for type names over 256 bytes (C38_refuted_name). Proved otherwise, for numbers that fit the fields of the file."
  },
  {
   "property": "C39",
   "status": "proved",
   "theorems": [
    "Verif.C39_dump_ok_iff"
   ],
   "note": ""
  },
  {
   "property": "C40",
   "status": "partial",
   "theorems": [
    "Verif.C40_refuted",
    "Verif.C40_reload_same_partial"
   ],
   "note": "False for vectors of different lengths (C40_refuted). Proved for vectors of one length, with any reload options."
  },
  {
   "property": "C41",
   "status": "proved",
   "theorems": [
    "Verif.C41_truncated",
    "Verif.C41_truncated_no_ub",
    "Verif.C41_long_names"
   ],
   "note": "For numbers that fit the fields of the file; names longer than the 256 bytes accepted on reload are C41_long_names; C41_truncated_no_ub excludes undefined behaviour without map."
  },
  {
   "property": "C42",
   "status": "partial",
   "theorems": [
    "Verif.C42_refuted_mmap",
    "Verif.C42_trailing_partial",
    "Verif.C42_trailing_mmap_partial",
    "Verif.C42_trailing_noData"
   ],
   "note": "False with a map when the trailing bytes of the data file are at least one record long (C42_refuted_mmap). Proved without map, with a map for fewer bytes, and without vectors."
  },
  {
   "property": "C43",
   "status": "partial",
   "theorems": [
    "Verif.C43_header_partial",
    "Verif.C43_long_refused",
    "Verif.C43_old_header",
    "Verif.C43_magic",
    "Verif.C43_file"
   ],
   "note": "Refuted for names longer than 256 bytes, which are written all the same and refused on reload whatever the rest of the header (C43_long_refused, C38_refuted_name); proved for all other headers."
  },
  {
   "property": "C44",
   "status": "partial",
   "theorems": [
    "Verif.C44_refuted",
    "Verif.C44_scale_multiplied",
    "Verif.C44_scale_partial"
   ],
   "note": "False: the reloaded scale is the recorded one times the default one (C44_scale_multiplied, C44_refuted)."
  },
  {
   "property": "C45",
   "status": "partial",
   "theorems": [
    "Verif.C45_refuted",
    "Verif.C45_flags_lost",
    "Verif.C45_params_partial"
   ],
   "note": "False: the two flags are always reset (C45_flags_lost) and 256 connections become 0 (C45_refuted). Proved for the other parameters up to 255 connections."
  },
  {
   "property": "C46",
   "status": "partial",
   "theorems": [
    "Verif.C46_refuted",
    "Verif.C46_distance_partial",
    "Verif.C46_with_dist"
   ],
   "note": "False for the full names (C46_refuted): only the last segments are compared (C46_distance_partial, for arbitrary files). load_hnsw_with_dist compares the full names."
  },
  {
   "property": "C47",
   "status": "proved",
   "theorems": [
    "Verif.C47_type_name",
    "Verif.C47_dump"
   ],
   "note": ""
  },
  {
   "property": "C48",
   "status": "proved",
   "theorems": [
    "Verif.C48_no_overwrite"
   ],
   "note": ""
  },
  {
   "property": "C49",
   "status": "partial",
   "theorems": [
    "Verif.C49_refuted",
    "Verif.C49_overwritten",
    "Verif.C49_other_names_partial"
   ],
   "note": "False: C49_refuted, C49_overwritten. Files of other names stay."
  },
  {
   "property": "C50",
   "status": "partial",
   "theorems": [
    "Verif.C50_refuted",
    "Verif.C50_threshold_partial",
    "Verif.C50_dump_partial",
    "Verif.C50_no_threshold"
   ],
   "note": "False for t = 0 and t >= 2^63 (C50_refuted), proved for all others."
  },
  {
   "property": "C51",
   "status": "proved",
   "theorems": [
    "Verif.C51_datamap"
   ],
   "note": ""
  },
  {
   "property": "C52",
   "status": "partial",
   "theorems": [
    "Verif.C52_refuted",
    "Verif.C52_mmap_same_partial"
   ],
   "note": "False for duplicate ids (C52_refuted). Proved for distinct ids and vectors of one length."
  },
  {
   "property": "C53",
   "status": "partial",
   "theorems": [
    "Verif.C53_refuted",
    "Verif.C53_aligned_partial"
   ],
   "note": "False for alignment 8 (C53_refuted: every second slice of every dump). Proved for alignments 1, 2, 4."
  },
  {
   "property": "C54",
   "status": "partial",
   "theorems": [
    "Verif.C54_refuted",
    "Verif.C54_check_partial",
    "Verif.C54_same"
   ],
   "note": "False for names with path segments (C54_refuted). Proved for names without ::."
  },
  {
   "property": "C55",
   "status": "proved",
   "theorems": [
    "Verif.C55_nodata"
   ],
   "note": "With the default options; with a map the reload panics (example beside the theorem)."
  },
  {
   "property": "C56",
   "status": "proved",
   "theorems": [
    "Verif.C56_search_same"
   ],
   "note": "For numbers that fit the fields of the file; with a map, for distinct ids."
  },
  {
   "property": "C57",
   "status": "partial",
   "theorems": [
    "Verif.C57_refuted",
    "Verif.C57_flat_partial",
    "Verif.C57_sequential",
    "Verif.C57_nodata"
   ],
   "note": "False after a concurrent first batch that left a point above the entry level (C57_refuted: its id is unknown). Proved for every index with a top entry point, in particular sequential ones, and after a reload without vectors."
  },
  {
   "property": "C58",
   "status": "partial",
   "theorems": [
    "Verif.C58_refuted",
    "Verif.C58_description_partial"
   ],
   "note": "False: the number of points is always 0 and the mode always 1 (C58_refuted). Proved for all other fields and for the null results."
  },
  {
   "property": "C59",
   "status": "proved",
   "theorems": [
    "Verif.C59_search",
    "Verif.C59_parallel",
    "Verif.C59_negative_length"
   ],
   "note": "C59_negative_length: a negative vec_len is undefined behaviour."
  },
  {
   "property": "C60",
   "status": "partial",
   "theorems": [
    "Verif.C60_refuted",
    "Verif.C60_drop_partial",
    "Verif.C60_no_cycle_partial",
    "Verif.C60_drop_empties"
   ],
   "note": "The literal statement fails after a panicking insertion: C60_refuted. Proved for panic-free histories; that no cycle is left is proved for all histories."
  },
  {
   "property": "C61",
   "status": "proved",
   "theorems": [
    "Verif.C61_once",
    "Verif.C61_never"
   ],
   "note": ""
  },
  {
   "property": "C62",
   "status": "proved",
   "theorems": [
    "Verif.C62_histories"
   ],
   "note": "The reload step is for vectors of one length, and with a map for distinct ids."
  },
  {
   "property": "C63",
   "status": "partial",
   "theorems": [
    "Verif.C63_refuted",
    "Verif.C63_partial"
   ],
   "note": "False for a graph file without data file (C63_refuted); proved for all other files."
  },
  {
   "property": "C64",
   "status": "proved",
   "theorems": [
    "Verif.C64_insert_args"
   ],
   "note": ""
  },
  {
   "property": "C65",
   "status": "partial",
   "theorems": [
    "Verif.C65_refuted",
    "Verif.C65_dump_load_partial"
   ],
   "note": "False for an index that was itself loaded (C65_refuted); proved for the others, with vectors of one length and sizes that fit."
  },
  {
   "property": "C66",
   "status": "partial",
   "theorems": [
    "Verif.C66_refuted",
    "Verif.C66_loadable_partial",
    "Verif.C66_creatable_partial",
    "Verif.C66_creatable_refuted"
   ],
   "note": "False for f32/DistHellinger and u16/DistJaccard (C66_refuted); proved for all others. In the other direction, everything loadable except f32/DistCosine can be created."
  },
  {
   "property": "C67",
   "status": "partial",
   "theorems": [
    "Verif.C67_filter_refuted",
    "Verif.C67_count",
    "Verif.C67_filter_count"
   ],
   "note": "False with a filter and max(ef, knbn) = 1 (C67_filter_refuted). Proved without filter for every ef and with a filter for max(ef, knbn) >= 2."
  },
  {
   "property": "C68",
   "status": "proved",
   "theorems": [
    "Verif.C68_filter_local_optimum"
   ],
   "note": ""
  },
  {
   "property": "C69",
   "status": "proved",
   "theorems": [
    "Verif.C69_own_links",
    "Verif.C69_linked"
   ],
   "note": ""
  },
  {
   "property": "C70",
   "status": "partial",
   "theorems": [
    "Verif.C70_refuted",
    "Verif.C70_back_links_partial"
   ],
   "note": "False: the back link of a link made in a layer below the level of the new point is written in the layer of its level (C70_refuted). Proved: every linked point gets the back link in the layer of the new point's level, hence the property for that layer."
  },
  {
   "property": "C71",
   "status": "proved",
   "theorems": [
    "Verif.C71_only_farthest_lost"
   ],
   "note": ""
  },
  {
   "property": "C72",
   "status": "proved",
   "theorems": [
    "Verif.C72_entry_first"
   ],
   "note": ""
  },
  {
   "property": "C73",
   "status": "partial",
   "theorems": [
    "Verif.C73_wellformed_partial",
    "Verif.C73_sorted_refuted"
   ],
   "note": "Lists are sorted when they have no NaN; C73_sorted_refuted otherwise."
  },
  {
   "property": "C74",
   "status": "partial",
   "theorems": [
    "Verif.C74_search_safe",
    "Verif.C74_answers_partial",
    "Verif.C74_sorted_refuted"
   ],
   "note": "Sorted when no distance is a NaN; C74_sorted_refuted otherwise."
  },
  {
   "property": "C75",
   "status": "proved",
   "theorems": [
    "Verif.C75_data_file"
   ],
   "note": ""
  },
  {
   "property": "C76",
   "status": "proved",
   "theorems": [
    "Verif.C76_map_any"
   ],
   "note": "With the hypothesis that the size of a record does not overflow 64 bits; the arithmetic of the model is unbounded."
  },
  {
   "property": "C77",
   "status": "proved",
   "theorems": [
    "Verif.C77_layout"
   ],
   "note": ""
  },
  {
   "property": "C78",
   "status": "partial",
   "theorems": [
    "Verif.C78_mapped_refuted",
    "Verif.C78_with_dist",
    "Verif.C78_reload"
   ],
   "note": "False with a memory map (C78_mapped_refuted). Proved without map, for all files."
  },
  {
   "property": "C79",
   "status": "partial",
   "theorems": [
    "Verif.C79_refuted",
    "Verif.C79_unmapped_partial"
   ],
   "note": "False: C79_refuted. Proved: C48 covers the indexes made by load_hnsw; an index made by load_hnsw_with_dist has no mapped point if the reloader made no map before (C79_unmapped_partial)."
  },
  {
   "property": "C80",
   "status": "partial",
   "theorems": [
    "Verif.C80_answers_partial",
    "Verif.C80_filter",
    "Verif.C01_sorted_refuted"
   ],
   "note": "Sorted and legal when no distance is a NaN (C01_sorted_refuted). Reads of one list of links, of the entry point and of a layer of the table are the atomic actions."
  },
  {
   "property": "C81",
   "status": "proved",
   "theorems": [
    "Verif.C81_no_panic",
    "Verif.C81_terminates",
    "Verif.C81_nonempty"
   ],
   "note": ""
  },
  {
   "property": "C82",
   "status": "partial",
   "theorems": [
    "Verif.C82_undisturbed",
    "Verif.C82_search_enabled",
    "Verif.C82_no_infinite_schedule",
    "Verif.C82_progress_partial"
   ],
   "note": "The progress of insertions is proved when all the points inserted concurrently have drawn the same level or there are two of them, one of level 0; it is false otherwise (C32_refuted, C32_levels_refuted)."
  },
  {
   "property": "C83",
   "status": "proved",
   "theorems": [
    "Verif.C83_parallel"
   ],
   "note": ""
  },
  {
   "property": "C84",
   "status": "partial",
   "theorems": [
    "Verif.C84_snapshot_refuted",
    "Verif.C84_no_overlap_partial"
   ],
   "note": "False: C84_snapshot_refuted. Proved when the insertions have finished before the search starts."
  },
  {
   "property": "C85",
   "status": "partial",
   "theorems": [
    "Verif.C85_fair_progress_partial",
    "Verif.C85_fair_completes_partial"
   ],
   "note": "Proved when all the points inserted concurrently have drawn the same level or there are two of them, one of level 0; false otherwise (C32_refuted, C32_levels_refuted)."
  },
  {
   "property": "C86",
   "status": "partial",
   "theorems": [
    "Verif.C86_iter_refuted",
    "Verif.C86_flatten_refuted",
    "Verif.C86_search_in_loop_refuted",
    "Verif.C86_no_deadlock_partial",
    "Verif.C86_readers_partial",
    "Verif.C86_completes_partial",
    "Verif.C86_exclusive",
    "Verif.C86_no_infinite_execution"
   ],
   "note": "False for IterPoint and FlatNeighborhood::from with an insertion (refuted). Proved for all other calls when the links of inserted points lead to points known before (same level), and for all calls without insertion."
  },
  {
   "property": "C87",
   "status": "partial",
   "theorems": [
    "Verif.C87_refuted",
    "Verif.C87_refuted_empty",
    "Verif.C87_entry_refuted",
    "Verif.C87_never_more",
    "Verif.C87_unreadable",
    "Verif.C87_empty_vectors",
    "Verif.C87_reload_partial"
   ],
   "note": "False: C87_refuted (panic at reload), C87_refuted_empty (vectors lost). Proved when the number of points read before the table is locked is that of the table and the index was not empty."
  },
  {
   "property": "C88",
   "status": "proved",
   "theorems": [
    "Verif.C88_ok_complete",
    "Verif.C88_prefix",
    "Verif.C88_reload",
    "Verif.C88_failed",
    "Verif.C88_possible",
    "Verif.C88_every_prefix"
   ],
   "note": "C88_possible: the dump without failure is among the modelled executions. C88_every_prefix: so are failures after any number of bytes."
  },
  {
   "property": "C89",
   "status": "proved",
   "theorems": [
    "Verif.C89_same",
    "Verif.C89_parts",
    "Verif.C89_cost",
    "Verif.C89_noted"
   ],
   "note": "C89_noted: nothing is used that is not counted."
  },
  {
   "property": "C90",
   "status": "partial",
   "theorems": [
    "Verif.C90_graph_file",
    "Verif.C90_accepted_partial",
    "Verif.C90_accepted_with_dist_partial",
    "Verif.C90_accepted_mapped_partial"
   ],
   "note": "The equivalence supposes that the links have no NaN, or that sort_unstable does not panic on NaN (it may, above 20 elements). C90_graph_file holds with memory map too; C90_accepted_mapped_partial is the equivalence with a memory map, for a new HnswIo and records whose size does not overflow. The ids stored in links and for the entry point are not checked by the code (example)."
  },
  {
   "property": "C91",
   "status": "proved",
   "theorems": [
    "Verif.C91_larger_ef",
    "Verif.C91_ties_needed"
   ],
   "note": "C91_ties_needed: false without the condition that distances differ."
  },
  {
   "property": "C92",
   "status": "partial",
   "theorems": [
    "Verif.C92_extensional",
    "Verif.C92_accept_all_partial",
    "Verif.C92_accept_all_refuted"
   ],
   "note": "When no distance is a NaN; C92_accept_all_refuted otherwise."
  },
  {
   "property": "C93",
   "status": "proved",
   "theorems": [
    "Verif.C93_iff",
    "Verif.C93_search_same",
    "Verif.C93_reload",
    "Verif.C93_reload_noData"
   ],
   "note": "An empty index is not found equal to itself, nor is one created with max_layer < 16 (example)."
  },
  {
   "property": "C94",
   "status": "proved",
   "theorems": [
    "Verif.C94_history",
    "Verif.C94_concurrent",
    "Verif.C94_search"
   ],
   "note": ""
  },
  {
   "property": "C95",
   "status": "proved",
   "theorems": [
    "Verif.C95_history",
    "Verif.C95_sequence",
    "Verif.C95_concurrent"
   ],
   "note": "The hypothesis that both distances are zero for the same pairs follows from the order when the distance of a vector to itself is zero."
  },
  {
   "property": "C96",
   "status": "proved",
   "theorems": [
    "Verif.C96_navigable",
    "Verif.C96_complete",
    "Verif.C96_small"
   ],
   "note": ""
  },
  {
   "property": "C97",
   "status": "proved",
   "theorems": [
    "Verif.C97_sections",
    "Verif.C97_schedule"
   ],
   "note": "The steps of the model are the critical sections of insert_slice (DESIGN section 2)."
  },
  {
   "property": "C98",
   "status": "proved",
   "theorems": [
    "Verif.C98_reach",
    "Verif.C98_content",
    "Verif.C98_search",
    "Verif.C98_new",
    "Verif.C98_few_layers",
    "Verif.C98_ptr"
   ],
   "note": "Loading is for dumps whose reload is not refuted elsewhere (vectors of one length, at most 255 connections, sizes that fit). C98_ptr is stated for the last segments of the names of the distances."
  },
  {
   "property": "C99",
   "status": "partial",
   "theorems": [
    "Verif.C99_stale_refuted",
    "Verif.C99_from_map",
    "Verif.C99_last_record_partial"
   ],
   "note": "False for an HnswIo that has loaded before, when the new files cannot be mapped: the old map is used (C99_stale_refuted). Proved for a new HnswIo (C99_last_record_partial); C99_from_map says which map is used in general."
  }
 ]
}