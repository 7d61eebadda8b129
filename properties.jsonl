{"id": "C01", "title": "Search answers are sorted and bounded by knbn", "statement": "Hnsw::search / search_filter / search_possible_filter(data, knbn, ef, filter) return at most knbn neighbours, in non-decreasing order of the reported distance.", "quantifier": "every reachable index, query vector, knbn, ef, filter, distance function and every tie-breaking of the heap and sort", "why_tests_cant": "Order and size must hold for every graph shape and every pattern of ties; a test samples a few random graphs.", "anchors": ["src/hnsw.rs: search_filter, search, search_possible_filter, search_layer"]}
{"id": "C02", "title": "Every search answer denotes a stored point with its true id and distance", "statement": "Each Neighbour returned by a search names (p_id) a point present in the index, carries the origin id under which that point was inserted, and its distance is bit-for-bit the value of the distance function on (query, stored vector).", "quantifier": "every reachable index, query, knbn, ef, filter, distance function", "why_tests_cant": "A stale or mixed-up id/distance pair may appear only for particular graph shapes or insertion orders.", "anchors": ["src/hnsw.rs: search_filter, search_layer, Neighbour"]}
{"id": "C03", "title": "A search never returns the same point twice", "statement": "The p_id fields of the neighbours returned by one search are pairwise distinct.", "quantifier": "every reachable index, query, knbn, ef, filter", "why_tests_cant": "Duplicates would need a particular cycle structure in the graph; all cyclic graphs must be covered.", "anchors": ["src/hnsw.rs: search_layer (visited_point_id), search_filter"]}
{"id": "C04", "title": "Search on an empty index is empty, on a non-empty index it is not", "statement": "search on an index without any point returns the empty vector; an unfiltered search with knbn >= 1 on an index where some insert completed returns at least one neighbour.", "quantifier": "every reachable index, query, knbn >= 1, ef", "why_tests_cant": "Depends on which layers happen to be populated (random levels), e.g. all points above layer 0.", "anchors": ["src/hnsw.rs: search_filter (layer_to_search loop), search_layer"]}
{"id": "C05", "title": "Search terminates and never panics on legal distances", "statement": "If the distance function returns no NaN and no negative value on the query, every unfiltered search with any knbn, ef terminates without panic.", "quantifier": "every reachable index (arbitrary cyclic graph), query, knbn, ef", "why_tests_cant": "Termination on every cyclic graph and absence of panics in every branch cannot be sampled.", "anchors": ["src/hnsw.rs: search_layer, search_filter, PointWithOrder::cmp"]}
{"id": "C06", "title": "Search answers are locally optimal", "statement": "For an unfiltered search, every layer-neighbour (in the searched layer) of a returned point is either itself returned or is at least as far from the query as every returned point, when knbn >= 1.", "quantifier": "every reachable index, query, knbn, ef", "why_tests_cant": "It is the stopping guarantee of the greedy search; it must hold for every graph, not the sampled ones.", "anchors": ["src/hnsw.rs: search_layer (fast return), search_filter"]}
{"id": "C07", "title": "Search is exact when ef is at least the number of points", "statement": "If ef_arg (or knbn) is at least the number of stored points, an unfiltered search returns exactly the min(knbn, r) nearest points among the r points reachable through the searched layer's links from the pivot reached by the descent.", "quantifier": "every reachable index, query, knbn, ef >= nb_point", "why_tests_cant": "Requires that no reachable point is ever dropped, whatever the graph and order of exploration.", "anchors": ["src/hnsw.rs: search_layer, search_filter"]}
{"id": "C08", "title": "Search never answers worse than the entry point", "statement": "With knbn >= 1 the first neighbour returned by an unfiltered search is at most as far from the query as the index's entry point and as the pivot of each descent step.", "quantifier": "every reachable index, query, ef", "why_tests_cant": "Universal statement over graphs and queries.", "anchors": ["src/hnsw.rs: search_filter (pivot loop), search_layer"]}
{"id": "C09", "title": "Filtered search returns only accepted ids", "statement": "All neighbours returned by search_filter(data, knbn, ef, Some(f)) have a d_id accepted by f.", "quantifier": "every reachable index, query, knbn, ef >= 1, filter", "why_tests_cant": "Needs all filters, in particular filters rejecting everything near the entry point. (False in the code: the unaccepted entry point can be returned alone.)", "anchors": ["src/hnsw.rs: search_layer (filter branch), search_filter", "src/filter.rs: FilterT"]}
{"id": "C10", "title": "Filtered search with large ef returns every reachable accepted point", "statement": "If ef >= 2 and ef is at least the number of points, the filtered search returns the min(knbn, m) nearest among the m accepted points reachable from the pivot in the searched layer, when m >= 1: rejected points are still traversed.", "quantifier": "every reachable index, query, filter", "why_tests_cant": "Depends on rejected points acting as bridges in every possible graph.", "anchors": ["src/hnsw.rs: search_layer (filter branch)"]}
{"id": "C11", "title": "A sorted id vector used as filter accepts exactly its members", "statement": "For a sorted Vec<usize> v, v.hnsw_filter(&id) is true iff id occurs in v.", "quantifier": "every sorted vector and id", "why_tests_cant": "All lengths and all positions of the id, including absent ones.", "anchors": ["src/filter.rs: impl FilterT for Vec<usize>"]}
{"id": "C12", "title": "parallel_search answers in request order", "statement": "parallel_search(datas, knbn, ef)[i] = search(datas[i], knbn, ef) for every i, whatever order the worker threads deliver their answers.", "quantifier": "every index, request list and every arrival order of the answers on the channel", "why_tests_cant": "Arrival orders are schedule dependent.", "anchors": ["src/hnsw.rs: parallel_search, search_with_id"]}
{"id": "C13", "title": "Degenerate searches are harmless", "statement": "search_filter with knbn = 0 returns the empty vector and does not panic, for every ef and filter.", "quantifier": "every reachable index, ef, filter", "why_tests_cant": "Corner case needing a particular graph: (false in the code: knbn = 0, ef = 0 with a rejecting filter can panic on an emptied heap).", "anchors": ["src/hnsw.rs: search_layer (return_points.pop, peek().unwrap())"]}
{"id": "C14", "title": "Search returns knbn answers when the index holds that many points", "statement": "If the index holds at least knbn points and ef >= nb_point then search returns knbn neighbours.", "quantifier": "every reachable index", "why_tests_cant": "Depends on connectivity for all random levels. (False in the code: a level-0 point may have no layer-0 link to a point of level 1.)", "anchors": ["src/hnsw.rs: reverse_update_neighborhood_simple, search_filter"]}
{"id": "C15", "title": "An inserted point can be found again", "statement": "After insert((v, id)), search(v, 1, ef) with ef >= nb_point returns a neighbour at the distance of v to itself.", "quantifier": "every insertion history", "why_tests_cant": "Depends on the pruning decisions for all data sets. (False in the code: the reverse update can drop the only link to the new point; true in the unpruned regime.)", "anchors": ["src/hnsw.rs: reverse_update_neighborhood_simple (shrink), select_neighbours"]}
{"id": "C16", "title": "The index holds exactly the inserted items", "statement": "After any sequence of inserts the points of layer l are exactly the inserted (vector, id) pairs whose drawn level is l, in insertion order; nothing is lost, altered or merged (duplicate ids included).", "quantifier": "every sequence of insert calls and every sequence of drawn levels", "why_tests_cant": "All histories.", "anchors": ["src/hnsw.rs: insert, insert_slice, generate_new_point"]}
{"id": "C17", "title": "Internal ids are unique, dense and stable", "statement": "The point stored at rank r of layer l has get_point_id() = PointId(l, r), no two points share a PointId, and later inserts never change a stored point's PointId, id or vector.", "quantifier": "every history of inserts", "why_tests_cant": "All histories; all interleavings for the parallel version.", "anchors": ["src/hnsw.rs: generate_new_point, PointId"]}
{"id": "C18", "title": "get_nb_point counts the inserts", "statement": "get_nb_point() equals the number of insert calls made and equals the sum over layers of get_layer_nb_point(l).", "quantifier": "every history", "why_tests_cant": "All histories.", "anchors": ["src/hnsw.rs: get_nb_point, get_layer_nb_point, generate_new_point"]}
{"id": "C19", "title": "The entry point is on the highest populated layer", "statement": "After any non-empty sequence of completed inserts there is an entry point, it is a stored point, and get_max_level_observed() is the largest level among the stored points.", "quantifier": "every sequential history", "why_tests_cant": "Depends on the random levels drawn; all sequences must be covered.", "anchors": ["src/hnsw.rs: check_entry_point, get_max_level_observed, insert_slice"]}
{"id": "C20", "title": "Degree bound", "statement": "For every stored point get_neighborhood_id()[0] has at most 2*max_nb_connection entries and get_neighborhood_id()[l] at most max_nb_connection for l > 0.", "quantifier": "every history, every parameter setting", "why_tests_cant": "Any overflow would need particular insertion orders.", "anchors": ["src/hnsw.rs: select_neighbours, reverse_update_neighborhood_simple, insert_slice"]}
{"id": "C21", "title": "Neighbour lists are sorted, duplicate free, without self links and refer to stored points", "statement": "Every list of get_neighborhood_id() is in non-decreasing distance order, mentions each point at most once, never the owner itself, and every entry (d_id, p_id) denotes a stored point with that id.", "quantifier": "every history", "why_tests_cant": "Structural invariant over all histories.", "anchors": ["src/hnsw.rs: insert_slice, reverse_update_neighborhood_simple, get_neighborhood_id"]}
{"id": "C22", "title": "Stored link distances are true distances", "statement": "The distance stored for neighbour n in a list of point p is the value of the distance function on the two stored vectors (in the order later-inserted, earlier-inserted), bit for bit.", "quantifier": "every history and distance function", "why_tests_cant": "Sign flips happen along the way (negated distances in heaps); must hold for every value.", "anchors": ["src/hnsw.rs: search_layer, select_neighbours, from_positive_binaryheap_to_negative_binary_heap, reverse_update_neighborhood_simple"]}
{"id": "C23", "title": "Neighbours listed at layer l live at layer l or above", "statement": "As the comment on search_layer guarantees, an entry of get_neighborhood_id()[l] has p_id.0 >= l.", "quantifier": "every history", "why_tests_cant": "Depends on the order in which levels are drawn. (False in the code.)", "anchors": ["src/hnsw.rs: search_layer (NOTE comment), insert_slice"]}
{"id": "C24", "title": "Neighbour selection keeps the nearest candidate and is diversified", "statement": "With pruning active and keep_pruned false, the selected list contains the nearest candidate, and each selected candidate is strictly nearer to the new point than to every previously selected one; nothing outside the candidates is selected.", "quantifier": "every candidate set, distance function and size asked", "why_tests_cant": "Universal over candidate sets and metrics.", "anchors": ["src/hnsw.rs: select_neighbours"]}
{"id": "C25", "title": "keep_pruned fills the neighbour list", "statement": "With set_keeping_pruned(true) the selection returns exactly min(asked, number of candidates) neighbours.", "quantifier": "every candidate set, distance and size", "why_tests_cant": "Universal over candidate sets.", "anchors": ["src/hnsw.rs: select_neighbours, set_keeping_pruned"]}
{"id": "C26", "title": "Illegal distances never enter the graph", "statement": "If the distance function returns NaN or a negative value during an insert or search, the call panics or ignores it; no NaN or negative distance is ever stored in a neighbour list or returned by a search, also after the panic is caught.", "quantifier": "every history, every distance function (also ill-behaved ones), every panic point", "why_tests_cant": "Ill-behaved values can occur at any evaluation; every panic point leaves a partial state.", "anchors": ["src/hnsw.rs: search_layer asserts, PointWithOrder::cmp, select_neighbours asserts"]}
{"id": "C27", "title": "Generated levels are in range", "statement": "The level drawn for a point is always < max_layer, for every output of the random generator, including overflowing or non-finite intermediate values.", "quantifier": "every pair of random draws, every scale, every max_layer >= 1", "why_tests_cant": "Out of range draws have probability ~1e-13.", "anchors": ["src/hnsw.rs: LayerGenerator::generate"]}
{"id": "C28", "title": "modify_level_scale keeps the scale within [0.2, 1] of the old one", "statement": "modify_level_scale(f) multiplies the level scale by a factor in [0.2, 1] for every f including NaN, and by f itself when f is within the range; repeated calls compose.", "quantifier": "every f and every sequence of calls", "why_tests_cant": "All floating point arguments.", "anchors": ["src/hnsw.rs: modify_level_scale, set_scale_modification"]}
{"id": "C29", "title": "parallel_insert stores every item exactly once", "statement": "For every schedule of the worker threads, when parallel_insert returns the index contains the old points plus exactly the submitted items, each once, with unique dense PointIds and an exact get_nb_point.", "quantifier": "every start state, item list, drawn levels and interleaving", "why_tests_cant": "Schedules cannot be enumerated by tests.", "anchors": ["src/hnsw.rs: parallel_insert, parallel_insert_slice, generate_new_point"]}
{"id": "C30", "title": "parallel_insert preserves the link invariants", "statement": "For every schedule, at every moment, all neighbour lists are sorted, duplicate free, self-link free, degree bounded, refer to stored points and carry true distances.", "quantifier": "every interleaving, every intermediate state", "why_tests_cant": "Schedules.", "anchors": ["src/hnsw.rs: parallel_insert, insert_slice, reverse_update_neighborhood_simple"]}
{"id": "C31", "title": "After parallel_insert the entry point is on the highest populated layer", "statement": "For every schedule, when parallel_insert returns, get_max_level_observed() is the highest populated layer.", "quantifier": "every interleaving", "why_tests_cant": "Schedules. (False when the index was empty: the thread that got rank 1 may return without registering its point; true when the index was not empty.)", "anchors": ["src/hnsw.rs: insert_slice (point_rank == 1 early return), check_entry_point"]}
{"id": "C32", "title": "parallel_insert never deadlocks", "statement": "For every schedule some worker can always make progress until all are finished.", "quantifier": "every interleaving", "why_tests_cant": "Deadlocks need precise schedules. (False in the code: a read guard on the new point's neighbours is held while write guards on its neighbours are taken; true if no point above layer 0 is inserted.)", "anchors": ["src/hnsw.rs: reverse_update_neighborhood_simple"]}
{"id": "C33", "title": "A single insert never blocks on its own locks and terminates", "statement": "A sequential insert always runs to completion or panics: it never waits for a lock it holds and never loops forever.", "quantifier": "every reachable index, item, level", "why_tests_cant": "All graphs.", "anchors": ["src/hnsw.rs: insert_slice, reverse_update_neighborhood_simple, search_layer"]}
{"id": "C34", "title": "Iterating the index enumerates every point exactly once", "statement": "into_iter() on a non-empty PointIndexation yields every stored point exactly once, by increasing layer and rank, then None.", "quantifier": "every history of completed inserts", "why_tests_cant": "Depends on which layers are empty.", "anchors": ["src/hnsw.rs: IterPoint::next"]}
{"id": "C35", "title": "Iterators never panic", "statement": "Calling next() any number of times on the point iterator of any index returns Some or None and never panics.", "quantifier": "every index and number of calls", "why_tests_cant": "(False in the code: panics on an empty index, and after the end is passed far enough.)", "anchors": ["src/hnsw.rs: IterPoint::next"]}
{"id": "C36", "title": "The layer iterator enumerates exactly one layer", "statement": "get_layer_iterator(l), l < max_layer, yields exactly the get_layer_nb_point(l) points of level l in rank order, then None forever; get_layer_nb_point is 0 for a bad layer number.", "quantifier": "every history and layer", "why_tests_cant": "All histories.", "anchors": ["src/hnsw.rs: IterPointLayer, get_layer_nb_point"]}
{"id": "C37", "title": "get_point_data returns the inserted vector or None", "statement": "get_point_data(p) is Some(vector inserted) for the PointId of every stored point and None for every other PointId, including negative ranks.", "quantifier": "every history of completed inserts and every PointId", "why_tests_cant": "All ids.", "anchors": ["src/hnsw.rs: get_point_data, get_point"]}
{"id": "C38", "title": "Dump then reload restores the graph", "statement": "Reloading the two files written by file_dump yields an index with the same points (ids, PointIds), the same entry point, the same count, and the same neighbour lists (same entries and distances; ties may be permuted).", "quantifier": "every reachable non-empty index with 16 layers", "why_tests_cant": "All graphs, all ids and distances at byte level.", "anchors": ["src/hnswio.rs: dump_point, load_point_graph, load_point_indexation, PointIndexation::dump", "src/api.rs: file_dump"]}
{"id": "C39", "title": "file_dump succeeds exactly on non-empty 16-layer indexes", "statement": "file_dump returns Ok iff the index was created with max_layer >= 16 and holds at least one point (I/O errors aside).", "quantifier": "every reachable index", "why_tests_cant": "All parameter settings; README's own recommended max_layer makes it fail.", "anchors": ["src/hnswio.rs: Description::dump, PointIndexation::dump", "src/api.rs: file_dump"]}
{"id": "C40", "title": "Dump then reload restores every data vector", "statement": "After reload each point holds the vector it was inserted with.", "quantifier": "every reachable index, every data type with fixed size representation", "why_tests_cant": "(False in the code when vectors have different lengths: the entry point's length is applied to all, truncating or reading out of bounds; true for a uniform dimension.)", "anchors": ["src/hnswio.rs: load_point_data, Hnsw::dump"]}
{"id": "C41", "title": "A truncated dump is never reloaded as a valid index", "statement": "If either file of a dump is cut at any byte (crash during the dump), load_hnsw does not return Ok.", "quantifier": "every dump, every crash point in either file", "why_tests_cant": "Every crash point.", "anchors": ["src/hnswio.rs: load_hnsw, load_point_indexation, load_point"]}
{"id": "C42", "title": "Reload depends only on the dumped bytes", "statement": "Bytes following a complete dump in either file do not change the result of load_hnsw.", "quantifier": "every dump, every trailing garbage", "why_tests_cant": "All suffixes.", "anchors": ["src/hnswio.rs: load_hnsw"]}
{"id": "C43", "title": "The description header round-trips", "statement": "load_description on the header of a dump returns the dumped mode, connection count, level scale, layer count, ef, number of points, dimension, distance name and type name; headers of formats 2 and 3 are read with scale 1; any other magic is refused.", "quantifier": "every header content", "why_tests_cant": "All field values, name lengths and truncations.", "anchors": ["src/hnswio.rs: Description::dump, load_description"]}
{"id": "C44", "title": "The level scale survives dump and reload", "statement": "get_level_scale() of a reloaded index equals the one of the dumped index.", "quantifier": "every max_nb_connection and scale modification", "why_tests_cant": "(False in the code: the reload multiplies the dumped scale by 1/ln(max_nb_connection) a second time.)", "anchors": ["src/hnswio.rs: load_point_indexation", "src/hnsw.rs: LayerGenerator::new_with_scale, get_level_scale"]}
{"id": "C45", "title": "Construction parameters survive dump and reload", "statement": "max_nb_connection, ef_construction, max_layer, extend_candidates and keep_pruned of the reloaded index are those of the dumped index.", "quantifier": "every parameter setting accepted by Hnsw::new", "why_tests_cant": "(False in the code: max_nb_connection = 256 becomes 0, extend_candidates becomes true and keep_pruned false; the others survive for max_nb_connection <= 255.)", "anchors": ["src/hnswio.rs: load_hnsw", "src/hnsw.rs: get_max_nb_connection, Hnsw::new"]}
{"id": "C46", "title": "Reload refuses another distance", "statement": "load_hnsw::<T, D> returns Ok only if D is the distance named in the dump (T not NoData).", "quantifier": "every pair of distance type names", "why_tests_cant": "(False in the code: only the text after the last :: is compared; equal last components are guaranteed.)", "anchors": ["src/hnswio.rs: load_hnsw (rsplit_terminator), load_hnsw_with_dist"]}
{"id": "C47", "title": "Reload refuses another data type", "statement": "load_hnsw::<T, D> never returns Ok if T's type name differs from the dumped one, unless T is NoData.", "quantifier": "every dump and type name", "why_tests_cant": "All type names.", "anchors": ["src/hnswio.rs: load_point_indexation"]}
{"id": "C48", "title": "Dumping a reloaded index never overwrites an existing data file", "statement": "file_dump on an index obtained from load_hnsw leaves every pre-existing .hnsw.data file unchanged and reports the basename really used.", "quantifier": "every directory content, basename and random suffix", "why_tests_cant": "All directory contents and random draws.", "anchors": ["src/hnswio.rs: DumpInit::new", "src/api.rs: file_dump"]}
{"id": "C49", "title": "A failing dump leaves the previous dump intact", "statement": "If file_dump returns an error the files previously stored under that basename are unchanged.", "quantifier": "every index and directory content", "why_tests_cant": "(False in the code: files are truncated before the checks.)", "anchors": ["src/hnswio.rs: DumpInit::new, Description::dump", "src/api.rs: file_dump"]}
{"id": "C50", "title": "mmap threshold loads exactly the last points in memory", "statement": "With set_mmap_threshold(t) the reload keeps in memory exactly the last min(t, n) points in dump order (highest layers) and maps all the others.", "quantifier": "every n and t", "why_tests_cant": "Boundary at every n, t.", "anchors": ["src/hnswio.rs: load_point_indexation (nb_still_to_load), ReloadOptions"]}
{"id": "C51", "title": "DataMap returns the dumped vectors", "statement": "For a dump with uniform dimension and distinct ids, get_data(id) is the vector inserted under id, None for other ids, get_nb_data() is the number of points and get_dataid_iter() lists the ids in file order.", "quantifier": "every dump", "why_tests_cant": "All sizes, ids and record counts; offsets arithmetic at byte level.", "anchors": ["src/datamap.rs: from_hnswdump, get_data, get_dataid_iter, get_nb_data"]}
{"id": "C52", "title": "mmap reload and plain reload agree", "statement": "Reloading with mmap yields the same points and vectors as reloading without.", "quantifier": "every dump and threshold", "why_tests_cant": "(False in the code when two points share an id: both get the last vector; true for distinct ids.)", "anchors": ["src/hnswio.rs: load_point", "src/datamap.rs: get_data"]}
{"id": "C53", "title": "Mapped slices are correctly aligned", "statement": "The slices handed out by DataMap::get_data are aligned for T.", "quantifier": "every record index, dimension and element size", "why_tests_cant": "(False in the code for 8-byte types: every second record is misaligned; true for sizes 1, 2, 4.)", "anchors": ["src/datamap.rs: get_data, from_hnswdump", "src/hnswio.rs: dump_point"]}
{"id": "C54", "title": "check_data_type recognises exactly the dumped type", "statement": "DataMap::check_data_type::<T>() is true iff T's name is the dumped type name.", "quantifier": "every pair of type names", "why_tests_cant": "(False in the code: it compares the first path component only; exact for names without ::.)", "anchors": ["src/datamap.rs: check_data_type"]}
{"id": "C55", "title": "Graph-only reload keeps the topology", "statement": "load_hnsw::<NoData, NoDist> of any dump yields the same ids, PointIds, links and distances, with empty vectors.", "quantifier": "every dump, every data type and distance", "why_tests_cant": "All dumps.", "anchors": ["src/hnswio.rs: load_point_data, load_hnsw", "src/hnsw.rs: NoData"]}
{"id": "C56", "title": "Searches answer the same after dump and reload", "statement": "For uniform dimension, search on the reloaded index returns the same answers as on the dumped one (given the sort leaves sorted lists unchanged).", "quantifier": "every reachable index, query, knbn, ef, filter", "why_tests_cant": "All indexes and queries.", "anchors": ["src/hnswio.rs: load_hnsw", "src/hnsw.rs: search_filter"]}
{"id": "C57", "title": "FlatNeighborhood gives the sorted links of each id", "statement": "For distinct ids, FlatNeighborhood::from(&hnsw).get_neighbours(id) is the distance-sorted union of the point's lists over all layers, None for unknown ids.", "quantifier": "every reachable non-empty index", "why_tests_cant": "All indexes.", "anchors": ["src/flatten.rs: flatten_point, FlatNeighborhood"]}
{"id": "C58", "title": "The C description reports the dump's parameters", "statement": "load_hnsw_description returns the header's connection count, layers, ef, dimension, names and number of points.", "quantifier": "every header", "why_tests_cant": "(False in the code: nb_point is never copied and dumpmode is always 1.)", "anchors": ["src/libext.rs: load_hnsw_description, DescriptionFFI"]}
{"id": "C59", "title": "The C search API mirrors the Rust search", "statement": "search_neighbours_* returns, in order, the ids and distances of search, with nbgh the exact count; parallel_search_neighbours_* does so per request.", "quantifier": "every index and query", "why_tests_cant": "All lengths.", "anchors": ["src/libext.rs: generate_search_neighbours, generate_parallel_search_neighbours, Neighbour_api"]}
{"id": "C60", "title": "Dropping an index breaks every reference cycle", "statement": "After PointIndexation is dropped no stored point keeps a link to another one, so all points can be freed.", "quantifier": "every history", "why_tests_cant": "(False after a concurrent first insertion that left a point above the entry level; true for sequential histories.)", "anchors": ["src/hnsw.rs: Drop for PointIndexation"]}
{"id": "C61", "title": "HnswIo::set_values accepts exactly one initialisation", "statement": "set_values succeeds exactly once on a default-constructed HnswIo and never on one built by new/new_with_options; on failure nothing changes.", "quantifier": "every call sequence", "why_tests_cant": "All sequences.", "anchors": ["src/hnswio.rs: HnswIo::set_values, new, new_with_options"]}
{"id": "C62", "title": "Insertion after reload keeps all invariants", "statement": "Any sequence of inserts on a reloaded index (max_nb_connection <= 255) keeps all structural properties (ids, counts, degree bounds, sorted lists, entry point).", "quantifier": "every history alternating inserts, dumps and reloads", "why_tests_cant": "All histories.", "anchors": ["src/hnswio.rs: load_point_indexation", "src/hnsw.rs: insert_slice"]}
{"id": "C63", "title": "Dumping a reloaded index never overwrites any existing file", "statement": "file_dump on an index obtained from load_hnsw leaves every pre-existing file of the directory unchanged.", "quantifier": "every directory content, basename and random suffix", "why_tests_cant": "Needs a directory holding a graph file without its data file, under the name that is drawn.", "anchors": ["src/hnswio.rs: DumpInit::new", "src/api.rs: file_dump"]}
{"id": "C64", "title": "The C insertion calls pass on exactly what they are given", "statement": "insert_* inserts the first len values of the caller's memory under the given id; parallel_insert_* submits exactly nb_vec pairs, the i-th being the first vec_len values of the i-th pointer with the i-th id.", "quantifier": "every memory content, length, and number of vectors", "why_tests_cant": "All lengths and contents.", "anchors": ["src/libext.rs: generate_insert, generate_parallel_insert, insert_f32, parallel_insert_f32"]}
{"id": "C65", "title": "A successful C dump can be loaded by the same name", "statement": "When file_dump_*(h, name) returns 1, get_hnswio(name) followed by load_hnswdump_* gives an index with the points and links of h.", "quantifier": "every index, also one that was itself loaded; every directory content", "why_tests_cant": "Needs a dump of a reloaded index in the directory it comes from. (False in the code: another name is used and not returned.)", "anchors": ["src/libext.rs: generate_file_dump, generate_loadhnsw, get_hnswio", "src/api.rs: file_dump"]}
{"id": "C66", "title": "Every index created from C can be loaded from C", "statement": "For every element type and distance accepted by init_hnsw_*, there is a load_hnswdump_* function for this type and distance; the index created has the parameters given and 16 layers.", "quantifier": "every element type, distance name and parameters", "why_tests_cant": "Needs the comparison of two long lists of functions. (False in the code for f32/DistHellinger and u16/DistJaccard.)", "anchors": ["src/libext.rs: init_hnsw_*, load_hnswdump_*"]}
{"id": "C67", "title": "A search returns as many answers as asked whenever they can be reached", "statement": "A search returns exactly min(knbn, r) answers, where r is the number of points (accepted by the filter if there is one) that can be reached from the pivot through the links of the searched layer; for every ef.", "quantifier": "every reachable index with points, query with legal distances, knbn, ef, filter", "why_tests_cant": "Needs that the search cannot stop early or lose points whatever the graph and the width. (False with a filter and max(ef, knbn) = 1: the search stops at a rejected pivot.)", "anchors": ["src/hnsw.rs: search_layer, search_filter"]}
{"id": "C68", "title": "A filtered search is locally optimal", "statement": "In the searched layer, a neighbour accepted by the filter of a returned point is itself returned or is at least as far from the query as every returned point (max(ef, knbn) >= 2).", "quantifier": "every reachable index, query with legal distances, filter, knbn, ef", "why_tests_cant": "Universal statement over graphs, filters and orders of exploration.", "anchors": ["src/hnsw.rs: search_layer, search_filter"]}
{"id": "C69", "title": "An insertion links the new point by a search of each layer", "statement": "The list of a new point in each layer is: above its level, the single point found by a search of width 1; at and below its level, a selection by the heuristic (with the flags in force) among the points found by a search of width ef_construction of that layer, started at the nearest point selected in the layer above. In particular with max_nb_connection >= 1 the new point has a link in each populated layer up to its level and in its own layer, the first one being at most as far as the entry point.", "quantifier": "every reachable index with an entry point, new vector with legal distances, level, flags", "why_tests_cant": "Universal statement over graphs; a test sees only a few graphs and cannot tell a correct selection from a similar one.", "anchors": ["src/hnsw.rs: insert_slice, search_layer, select_neighbours"]}
{"id": "C70", "title": "Links are made in both directions in the layer where the link is made", "statement": "After an insertion each point q the new point p links to in a layer l <= level(p) has, in layer l, the nearest of its former links and of the link to p, as many as the bound allows.", "quantifier": "every reachable index, new point with legal distances, layer", "why_tests_cant": "Needs all graphs. (False in the code: the back link is always written in layer level(p), also for the links made in lower layers.)", "anchors": ["src/hnsw.rs: reverse_update_neighborhood_simple"]}
{"id": "C71", "title": "An insertion removes only the farthest link of a full list", "statement": "An insertion changes the list of another point only in the layer of the new point's level and only if the new point links to it; it can only add a link to the new point; it removes at most one link, from a list that stays full, and none of the remaining links is farther than the removed one.", "quantifier": "every reachable index, new point with legal distances, other point, layer", "why_tests_cant": "Needs all graphs and all lists, in particular full ones with ties.", "anchors": ["src/hnsw.rs: reverse_update_neighborhood_simple, insert_slice"]}
{"id": "C72", "title": "The entry point is the first point of the highest level", "statement": "After any sequence of completed inserts the entry point is the first inserted among the points of the highest level: a later point becomes entry point only if its level is greater than all previous ones.", "quantifier": "every sequential history", "why_tests_cant": "Depends on the random levels drawn; all sequences, with ties, must be covered.", "anchors": ["src/hnsw.rs: check_entry_point, insert_slice"]}
{"id": "C73", "title": "A reload of any files gives a well formed index or none", "statement": "Whatever the content of the two files, an index returned by load_hnsw has at most 16 layers, each point has the id of its position, the entry point is one of the points, the count is right, all lists are sorted, lead to points of the index and belong to points of the index and layers below 16.", "quantifier": "every content of the graph and data files, options, type, distance", "why_tests_cant": "The space of damaged files is unbounded; fuzzing sees a vanishing part of it.", "anchors": ["src/hnswio.rs: load_hnsw, load_point_indexation, load_point"]}
{"id": "C74", "title": "Searches in whatever was reloaded are safe", "statement": "Searches in an index returned by load_hnsw terminate, whatever the files; they do not panic when the distances to the query are legal (no filter, or ef or knbn positive); answers are sorted, distinct, at most knbn, stored points with their true distance, and there is at least one without filter.", "quantifier": "every content of the files, query, knbn, ef, filter", "why_tests_cant": "Damaged graphs have duplicate links, cycles on one point, points unreachable: all of them must be covered.", "anchors": ["src/hnswio.rs: load_hnsw", "src/hnsw.rs: search, search_filter, search_layer"]}
{"id": "C75", "title": "A reload checks the data file against the graph file", "statement": "load_hnsw returns an index only if the data file is the magic number, the dimension of the graph file, then for each point in order a record with the magic number, the id of the point, a length and as many bytes; each vector not mapped is decoded from the record of its point, which holds at least dimension elements.", "quantifier": "every content of the graph and data files", "why_tests_cant": "Needs all contents of both files, in particular those of different dumps.", "anchors": ["src/hnswio.rs: load_hnsw, load_point_data"]}
{"id": "C76", "title": "A memory map of any files is safe to read", "statement": "DataMap::from_hnswdump succeeds only for a graph file of format 3 or more with the type name asked for and a data file made of whole records of at least that dimension; ids are those of the records, each once and in order; get_data then never panics nor reads outside of the file, returns None for the other ids, and the vector of the last record of the id otherwise.", "quantifier": "every content of the graph and data files, id, element type", "why_tests_cant": "Unsafe slices: out of bounds reads are silent in tests.", "anchors": ["src/datamap.rs: from_hnswdump, get_data, get_dataid_iter, get_nb_data"]}
{"id": "C77", "title": "Byte layout of a dump", "statement": "After a successful file_dump the graph file and the data file are exactly, byte for byte, the documented sequence of fields (magic numbers, sizes, little endian), for the index dumped.", "quantifier": "every reachable index with sizes that fit, element type, names", "why_tests_cant": "A round trip test passes when writer and reader change together, and the files then cannot be read by other versions or programs.", "anchors": ["src/hnswio.rs: Description::dump, dump_point, PointIndexation::dump, Hnsw::dump"]}
{"id": "C78", "title": "load_hnsw_with_dist agrees with load_hnsw", "statement": "load_hnsw_with_dist returns an index exactly when load_hnsw does and the full name of the distance is the one in the file, and the index is the same apart from the mark of mapped indexes.", "quantifier": "every content of the files, options, distance name", "why_tests_cant": "Two long functions that were copied: tests use each on a few files. (False with memory map options: no map is made, the reload panics unless load_hnsw was called before.)", "anchors": ["src/hnswio.rs: load_hnsw_with_dist, load_hnsw"]}
{"id": "C79", "title": "A mapped data file is never written over by a dump of its index", "statement": "file_dump of an index with mapped points does not write to the file which is mapped.", "quantifier": "every way to get an index with mapped points", "why_tests_cant": "Depends on a sequence of calls no test makes. (False in the code: load_hnsw_with_dist after load_hnsw on the same HnswIo gives mapped points in an index not marked as mapped.)", "anchors": ["src/hnswio.rs: load_hnsw_with_dist, file_dump, DumpInit"]}
{"id": "C80", "title": "Answers of a search that runs during insertions", "statement": "A search running at the same time as any insertions, under any schedule, returns at most knbn answers by increasing legal distance, without repetition, each being the record (id, distance to the query, point id) of a point stored at that time: one that was in the index before or one being inserted. With legal distances and max(ef, knbn) > 0 a filtered search returns only accepted points, or a single answer.", "quantifier": "every reachable index, set of insertions and searches, schedule, distance function, filter", "why_tests_cant": "Needs all interleavings of reads of the links with the writes of several insertions.", "anchors": ["src/hnsw.rs: search_filter, search_layer, search, insert_slice, reverse_update_neighborhood_simple"]}
{"id": "C81", "title": "A search during insertions neither panics nor runs for ever", "statement": "A search running at the same time as insertions never exhausts a number of iterations equal to the final number of points plus one; with legal distances (and max(ef, knbn) > 0 if there is a filter) it does not panic, and if moreover the index was not empty and knbn > 0 it returns at least one answer.", "quantifier": "every reachable index, set of insertions and searches, schedule, distance function, filter", "why_tests_cant": "Links are replaced while the search follows them; a panic depends on rare interleavings.", "anchors": ["src/hnsw.rs: search_filter, search_layer, search"]}
{"id": "C82", "title": "Searches and insertions do not hinder each other", "statement": "Searches have no influence on insertions; a search can always perform its next action; no schedule is infinite; as long as an insertion is unfinished some insertion can make progress.", "quantifier": "every reachable index, set of insertions and searches, schedule", "why_tests_cant": "Liveness over all schedules. (The last part is false for insertions of different levels: C32.)", "anchors": ["src/hnsw.rs: search_filter, insert_slice, reverse_update_neighborhood_simple"]}
{"id": "C83", "title": "Parallel searches are independent", "statement": "Any number of searches running in parallel on an index that is not modified, under any schedule: each returns, or panics with, what it gives when run alone.", "quantifier": "every reachable index, set of searches, schedule", "why_tests_cant": "parallel_search is tested on single runs and data sets only.", "anchors": ["src/hnsw.rs: parallel_search, search_filter"]}
{"id": "C84", "title": "A search during insertions answers as on some state of the index", "statement": "The answer of a search is the one the same search gives when run alone on the index in one of the states it goes through.", "quantifier": "every reachable index, set of insertions and searches, schedule", "why_tests_cant": "Needs all interleavings and all states. (False in the code: the locks are released between the reads of the lists of links.)", "anchors": ["src/hnsw.rs: search_filter, search_layer"]}
{"id": "C85", "title": "Progress with task-fair locks", "statement": "With locks that refuse a new reader while a writer waits (the policy of parking_lot), as long as an insertion or a search is unfinished one of them can make progress, and from every state all of them can be completed.", "quantifier": "every reachable index, set of insertions and searches, schedule", "why_tests_cant": "A recursive read lock that deadlocks only when a writer arrives in between is hardly ever met in a test. (False for insertions of different levels: C32.)", "anchors": ["src/hnsw.rs: insert_slice, reverse_update_neighborhood_simple, search_filter"]}
{"id": "C86", "title": "No deadlock between insertions, searches, iterators and dumps", "statement": "With task-fair locks, calls that run at the same time (insertions, searches, dumps, iterators, accesses to points) never reach a state in which one is unfinished and none can go on; every execution ends.", "quantifier": "every number of threads, sequence of calls, visited points, schedule", "why_tests_cant": "A lock taken twice for reading by one thread deadlocks only if a writer arrives in between. (False in the code: IterPoint::next asks for the table again while its iterator holds it; also two insertions of different levels.)", "anchors": ["src/hnsw.rs: IterPoint, IterPointLayer, insert_slice, generate_new_point, search_filter", "src/hnswio.rs: PointIndexation::dump", "src/flatten.rs: FlatNeighborhood::from"]}
{"id": "C87", "title": "A dump made during insertions can be reloaded", "statement": "A dump that runs at the same time as insertions and says Ok can be reloaded; the reloaded index has all the points there were before the dump began, only points of the index, with their vectors, and lists of links these points had during the dump.", "quantifier": "every reachable index, set of insertions, schedule of the dump and of the insertions", "why_tests_cant": "Needs an insertion exactly between two reads of the dump. (False in the code: the number of points is read before the table is locked, and the reload panics if more points than that follow; a dimension read when the index was still empty gives empty vectors.)", "anchors": ["src/hnswio.rs: Hnsw::dump, PointIndexation::dump, load_point_indexation", "src/hnsw.rs: generate_new_point"]}
{"id": "C88", "title": "A dump that fails or is interrupted is never reloaded as an index", "statement": "If file_dump returns Ok, both files are complete even if writes have failed on the way; after a dump in which any write fails or is cut, or which is killed at any moment, other files are untouched, each of the two files is as before or holds a prefix of the bytes of the complete dump, and a reload returns Ok only if both are complete files of a dump that succeeds (or the dump changed nothing).", "quantifier": "every reachable index, buffer size, failure of any write or flush or open, moment of interruption, type and distance of the reload", "why_tests_cant": "A test would need to fail each write of each dump at each byte, and interrupt the process between any two instructions.", "anchors": ["src/api.rs: file_dump", "src/hnswio.rs: DumpInit, Description::dump, dump_point, PointIndexation::dump, Hnsw::dump, load_hnsw, load_hnsw_with_dist"]}
{"id": "C89", "title": "Work of a search", "statement": "A search in an index of n points whose entry point has level e computes at most n + 1 + e * max_nb_connection distances, reads at most n + e neighbour lists and calls the filter at most 2(n-1) times, whether it answers or panics; in the lowest layer it computes no distance twice, and only distances to points that can be reached there.", "quantifier": "every reachable index, query, knbn, ef, filter and distance function", "why_tests_cant": "A test counts the calls for some queries; the bound must hold for the worst graph and distance (NaN included).", "anchors": ["src/hnsw.rs: search_layer, search_filter"]}
{"id": "C90", "title": "Exactly the well-formed files are accepted by a reload", "statement": "Without memory map, load_hnsw (and load_hnsw_with_dist) returns an index if and only if the graph file is a header of format 2, 3 or 4, at most 16 layers of points each at its place and with nb_layer lists of links to points of the file, no more points than announced, and the position of an entry point, and the data file has a decodable record for each point in the same order, type and distance being those named in the header. The index has exactly the settings, points and links of the file.", "quantifier": "every pair of files (any bytes, shorter than 2^64), type, distance, type of elements", "why_tests_cant": "The set of files is infinite; a check that is missing shows only for a file damaged in one particular field.", "anchors": ["src/hnswio.rs: load_description, load_hnsw, load_hnsw_with_dist, load_point_indexation, load_point, load_point_graph, load_point_data"]}
{"id": "C91", "title": "A larger ef never gives a worse answer", "statement": "With a larger ef and at least as many neighbours asked for, an unfiltered search returns at least as many answers, and its i-th answer is at most as far as the i-th answer of the narrower search. (With ties of distance this is false.)", "quantifier": "every reachable index, query whose distances to the stored points are legal and pairwise different, knbn <= knbn', ef <= ef'", "why_tests_cant": "The two searches follow different candidates; monotonicity is a relation between two runs on every graph.", "anchors": ["src/hnsw.rs: search_layer, search_filter, search"]}
{"id": "C92", "title": "The filter matters only through its values on stored ids", "statement": "Two filters that agree on the ids of the stored points give the same result; a filter that accepts all of them gives exactly the result of the search without filter, be it an answer or a panic.", "quantifier": "every reachable index, filter, query, knbn, ef and distance function", "why_tests_cant": "The filtered search takes other branches (stop condition, replacement of a rejected first result); equality must hold on every path.", "anchors": ["src/hnsw.rs: search_layer, search_filter, search_possible_filter"]}
{"id": "C93", "title": "The graph comparison of the crate accepts exactly equal graphs", "statement": "check_graph_equality returns without panic if and only if both indexes have 16 layers, are not empty and have the same entry point, points and links (ids, point ids, order, distances). A reload of a dump passes when links of a list are at different distances or the sort keeps sorted lists. If it passes and the vectors are the same, all searches answer alike.", "quantifier": "every pair of reachable indexes, of possibly different element types; every dump", "why_tests_cant": "The comparison is itself the oracle of the crate's reload tests; that it misses nothing cannot be tested with itself.", "anchors": ["src/hnsw.rs: check_graph_equality"]}
{"id": "C94", "title": "Ids and vectors matter through the distances only", "statement": "If every vector is replaced by one with the same distances (possibly of another element type) and the ids are renumbered in any way, every history of insertions, concurrent or not, dumps and reloads gives the image of the index (same places, entry point, links, stored distances), with the same panics, and every search of it gives the same answers with the new ids.", "quantifier": "every map of vectors preserving the distances, every renumbering (injective or not), history, schedule, query, knbn, ef, filter, and containers that look at distances only", "why_tests_cant": "It is a relation between two executions on different data, for all data; a test compares a few.", "anchors": ["src/hnsw.rs: insert_slice, search_layer, select_neighbours, search_filter, reverse_update_neighborhood_simple"]}
{"id": "C95", "title": "Only the order of the distances matters", "statement": "If two distance functions are legal on the vectors used, put them in the same order and are zero for the same pairs (for example a distance and its square), the same insertions build the same graph with both, with the same panics, and searches answer the same points in the same order.", "quantifier": "every such pair of distance functions, sequence of insertions (then possibly a concurrent batch), query, knbn, ef, filter, and containers that look at the order of the distances only", "why_tests_cant": "It is a relation between two executions with different distances, for all graphs; an arithmetic use of a distance could be seen only in some of them.", "anchors": ["src/hnsw.rs: insert_slice, search_layer, select_neighbours, search_filter, reverse_update_neighborhood_simple, PointWithOrder::cmp"]}
{"id": "C96", "title": "Graphs in which every search is exact", "statement": "Whatever ef: if in the searched layer every point that is not a nearest one has a link to a strictly nearer point, the first answer is a nearest point of the whole index; if all pairs of points are linked there, the answers are the knbn nearest points of the whole index. The latter is so for at most 2 * max_nb_connection + 1 points of level 0 inserted one by one with a large enough ef_construction.", "quantifier": "every reachable index, query with legal distances, knbn, ef; every sequence of insertions of that size", "why_tests_cant": "Exactness for all graphs of a class and all queries and ef is not a finite check.", "anchors": ["src/hnsw.rs: search_layer, search_filter, search, insert_slice"]}
{"id": "C97", "title": "Bounded number of lock sections of an insertion", "statement": "Whatever the other insertions of a batch do, an insertion makes at most 4 + max_layer * (n + 4 * max_nb_connection + 6) accesses under locks (n: points stored before plus points of the batch); the whole batch makes at most that many times its size, so no schedule is infinite.", "quantifier": "every reachable index, batch of insertions, schedule and distance function", "why_tests_cant": "Work under contention cannot be bounded over all schedules by running some of them.", "anchors": ["src/hnsw.rs: insert_slice, search_layer, select_neighbours, reverse_update_neighborhood_simple, generate_new_point, check_entry_point"]}
{"id": "C98", "title": "Indexes made by C programs", "statement": "An index created by init_hnsw_*, new_hnsw_* or init_hnsw_ptrdist_*, filled by insert_* and parallel_insert_* and possibly dumped and loaded, is one the Rust interface can make; it contains exactly the vectors read from the caller's memory with their ids; what the caller reads in the answer of search_neighbours_* are ids it passed with the distance to the vector passed with them, sorted, at most knbn, not empty if something was inserted. new_hnsw_* accepts the distances of init_hnsw_* and makes the same index from 16 layers on; with fewer layers file_dump_* never answers 1; no load_hnswdump_* function gives an index with a C distance function back.", "quantifier": "every sequence of such calls on valid memory, schedule, query, knbn, ef", "why_tests_cant": "It is about all sequences of calls and all schedules of parallel_insert_*.", "anchors": ["src/libext.rs: init_hnsw_*, new_hnsw_*, init_hnsw_ptrdist_*, insert_*, parallel_insert_*, search_neighbours_*, file_dump_*, load_hnswdump_*", "src/api.rs: AnnT"]}
{"id": "C99", "title": "Vectors of mapped points come from the files", "statement": "Whatever the files, each point that load_hnsw leaves in the memory map has the vector of the last record of the data file with its id.", "quantifier": "every pair of files (dumps or not), reload options, state of the HnswIo and type", "why_tests_cant": "Needs all contents of both files and all earlier uses of the HnswIo.", "anchors": ["src/hnswio.rs: load_hnsw, load_point", "src/datamap.rs: from_hnswdump, get_data"]}
{"id": "C100", "title": "One layer: symmetric and connected until a list is full", "statement": "In an index built by insertions at level 0, as long as no list of layer 0 has reached 2 * max_nb_connection links, every link has its reverse and every point can be reached from every other one; a search then returns min(knbn, number of points) answers, and the knbn nearest of all points as soon as ef or knbn is at least the number of points.", "quantifier": "every sequence of insertions at level 0, max_nb_connection, ef_construction, flags, query, knbn, ef; legal distances", "why_tests_cant": "It concerns every data set and order of insertion.", "anchors": ["src/hnsw.rs: insert_slice, select_neighbours, reverse_update_neighborhood_simple, search_filter"]}
{"id": "C101", "title": "Law of the levels", "statement": "With a uniform sample and exact arithmetic the level of a new point is l < max_layer with probability exp(-l/S) - exp(-(l+1)/S) + exp(-max_layer/S)/max_layer, S the scale: the law of the comment of LayerGenerator, levels that are too large being spread evenly. The probabilities add up to 1 and decrease with l; for the default scale the layers shrink by the factor max_nb_connection; a smaller scale makes high levels less likely.", "quantifier": "every max_nb_connection, scale and max_layer", "why_tests_cant": "A law of probability for all parameters; tests can only sample it.", "anchors": ["src/hnsw.rs: LayerGenerator::new, generate, set_scale_modification"]}
{"id": "C102", "title": "Without ties results do not depend on the containers", "statement": "A search whose query has no two stored points at the same distance gives the same answer whatever the order in which the heaps, the unstable sorts and the hash tables treat equal elements or are iterated. If no vector is inserted twice and the inserted vectors have distinct distances from each of them, inserting them one after the other with given levels builds the same index, down to the order of the lists, although extend_candidates iterates a hash table with a random seed; a reload then gives the very lists that were dumped. With ties the containers decide.", "quantifier": "every sequence of insertions, levels, flags, query, knbn, ef, filter and implementation of the containers", "why_tests_cant": "The order in a hash table changes at each run and the standard library does not specify ties; tests run one implementation.", "anchors": ["src/hnsw.rs: insert_slice, select_neighbours, search_layer, search_filter", "src/hnswio.rs: load_point_graph"]}
{"id": "C103", "title": "Missing and damaged files are reported by Err", "statement": "load_hnsw reports files that are missing, cut or of another distance by returning Err: it does not panic, exit the process or read out of bounds; and the C loaders return the null pointer for such files.", "quantifier": "every content of the two files, every cut of loadable files", "why_tests_cant": "There are as many cuts as bytes, and a test cannot enumerate the contents.", "anchors": ["src/hnswio.rs: HnswIo::init, load_hnsw, load_hnsw_with_dist, load_description, load_point, load_point_data", "src/libext.rs: load_hnswdump_*"]}
{"id": "C104", "title": "Settings change only what they name", "statement": "After any sequence of calls of set_extend_candidates, set_keeping_pruned, set_searching_mode and modify_level_scale the points, links and other parameters are unchanged, each flag has the value it was last given and the scale was multiplied by the factors asked for brought into [0.2, 1]. After any sequence of calls of set_mmap and set_mmap_threshold, use_mmap() gives what was last asked for.", "quantifier": "every index, every sequence of calls and arguments", "why_tests_cant": "Sequences of calls are unbounded, and factors are arbitrary doubles.", "anchors": ["src/hnsw.rs: set_extend_candidates, set_keeping_pruned, set_searching_mode, modify_level_scale", "src/hnswio.rs: ReloadOptions"]}
{"id": "C105", "title": "The containers of the standard library", "statement": "BinaryHeap (push, pop, peek, into_sorted_vec) with its sift_up, sift_down_to_bottom and sift_down_range, and insertion sort, used with the partial order of PointWithOrder, never lose, duplicate or change an element; as long as no distance is a NaN the top of the heap is a maximum and both sorts sort. With a NaN none of the order is guaranteed and nothing panics.", "quantifier": "every sequence of pushes and pops, every list of elements", "why_tests_cant": "Sequences of operations are unbounded; a disordered heap shows only for some sequences.", "anchors": ["src/hnsw.rs: PointWithOrder::partial_cmp, cmp, search_layer, search_filter"]}
{"id": "C106", "title": "Unused functions: search_general and from_negative_binaryheap_to_sorted_vector", "statement": "search_general returns at most knbn different stored points with their distances in increasing order; with legal distances it does not panic, finds something in a non empty index if knbn >= 1, the first answer being at most as far as the entry point, and is exact on the reachable points when ef is large. from_negative_binaryheap_to_sorted_vector returns the content of the heap with opposite distances, sorted.", "quantifier": "every index, query, knbn, ef; every heap", "why_tests_cant": "The functions are private and called by nothing, so that no test reaches them; a later caller would rely on their comments.", "anchors": ["src/hnsw.rs: search_general, from_negative_binaryheap_to_sorted_vector"]}
{"id": "C107", "title": "Memory reserved for the layers", "statement": "PointIndexation::new reserves for each layer the expected number of its points under the law of the levels (rounded): never less, less for higher layers, and in total at most max_elements plus one per layer.", "quantifier": "every max_nb_connection >= 2, every max_elements, every number of layers", "why_tests_cant": "A wrong reservation changes no result; it shows as memory use, for large max_elements only.", "anchors": ["src/hnsw.rs: PointIndexation::new"]}
{"id": "C108", "title": "Iterating over the points during insertions", "statement": "An iteration over the points that runs at the same time as insertions does not panic, yields no point twice, by increasing layer and rank, and when it ends it has yielded every point that was in the table when the iterator was made, in particular all those stored before the insertions.", "quantifier": "every index, every set of concurrent insertions, every interleaving with the calls of next", "why_tests_cant": "The interleavings are unboundedly many; a point is missed only if its insertion has not yet changed the entry point.", "anchors": ["src/hnsw.rs: IterPoint::new, IterPoint::next, generate_new_point, check_entry_point"]}
{"id": "C109", "title": "The directory given to a dump and to a reload", "statement": "file_dump writes name.hnsw.graph and name.hnsw.data in the directory it is given, relative or absolute, changes no other file, and returns Err if the directory does not exist; a reload from the same directory and working directory under the returned name reads these two files, with or without memory map.", "quantifier": "every index, every path, every working directory, every content of the file system, every reload options", "why_tests_cant": "Tests dump in the working directory, where a wrong path computation is not seen.", "anchors": ["src/api.rs: file_dump", "src/hnswio.rs: DumpInit::new, HnswIo::init, load_hnsw", "src/datamap.rs: DataMap::from_hnswdump"]}
{"id": "C110", "title": "Lists of links only get better", "statement": "As time passes no list of links gets shorter or exceeds its capacity, its nearest, second nearest, ... link never get farther, and a link disappears only from a full list that then has no farther link.", "quantifier": "every point and layer, every two moments of every execution of insertions in parallel, and every history of insertions and reloads, panics included", "why_tests_cant": "The moments between which a link could be lost are those of a race; a list that loses a near link still gives plausible searches.", "anchors": ["src/hnsw.rs: insert_slice, reverse_update_neighborhood_simple, insert_data_slice"]}
{"id": "C111", "title": "Insertions in whatever was reloaded", "statement": "Whatever the files an index was reloaded from, insertions in it, concurrent or not and with searches at the same time, behave as in an index built by insertions: no panic with legal distances, no endless loop, every point stored once at its place, links to stored points in sorted lists, true distances and no self link or repetition except in links that the files had, no list longer than its bound or than in the files.", "quantifier": "every content of the two files for which a reload succeeds, every number of later batches of insertions, every schedule", "why_tests_cant": "Files are not under the control of the library; damaged links show only when later insertions read and sort them.", "anchors": ["src/hnswio.rs: load_point_indexation, load_hnsw, load_hnsw_with_dist", "src/hnsw.rs: insert_slice, reverse_update_neighborhood_simple"]}
{"id": "C112", "title": "Dumps of whatever was reloaded", "statement": "Whatever the files an index was reloaded from, and after insertions in it, file_dump returns Ok exactly when the header said 16 layers, and what it wrote is reloaded as the same graph, with the same vectors and parameters, or without vectors as the same graph; no part of it is reloaded as an index.", "quantifier": "every content of the two files for which a reload succeeds, every number of later batches of insertions, every setting, every directory the dump is made in, every reload option", "why_tests_cant": "An index that is reloaded, completed and dumped every day goes through this many times; a link that the reload tolerates but the dump does not would show only then.", "anchors": ["src/hnswio.rs: load_point_indexation, load_hnsw, dump of Point, PointIndexation and Hnsw", "src/api.rs: file_dump"]}
{"id": "C113", "title": "Which insertions can wait for each other for ever", "statement": "Insertions running at the same time can come to a state in which none can go on although one is not finished exactly if their points have not all drawn the same level and it is not a matter of two points one of which is on the bottom layer; otherwise one can always go on.", "quantifier": "every list of levels below 16; for the first part some index and schedule, for the second one every type, distance, parameters, index and schedule", "why_tests_cant": "A deadlock needs a rare schedule and rare levels; a test that never hangs says nothing about the others, and no test shows that a combination of levels is safe.", "anchors": ["src/hnsw.rs: insert_slice, reverse_update_neighborhood_simple, parallel_insert"]}
{"id": "C114", "title": "Every point but the first one has a link in its layer", "statement": "A point whose insertion returned has at least one link in its own layer, and in each lower layer that held a point before, and keeps one for ever; only the very first point of an index can be without link.", "quantifier": "every schedule of insertions in parallel, at every moment after the call returned, every history of calls and reloads, whatever other calls panic; every index reloaded from files; max_nb_connection >= 1", "why_tests_cant": "A point without links is lost for searches that reach it and cannot go on; it takes a particular schedule or a particular graph to leave one, and nothing reports it.", "anchors": ["src/hnsw.rs: insert_slice, search_layer, select_neighbours, reverse_update_neighborhood_simple"]}
{"id": "C115", "title": "Distances are compared as numbers", "statement": "Everywhere distances are compared, asserted to be non negative or negated, this is done on the numbers of the IEEE-754 standard: subnormal numbers, zeros of both signs and infinities are ordered as numbers, infinities are accepted as distances, and only NaN are not comparable.", "quantifier": "every pair of the 2^32 bit patterns", "why_tests_cant": "Pairs of patterns are too many to be tried, and tests hardly use infinities, subnormal numbers or negative zeros; all claims on sorted answers and on NaN rest on it.", "anchors": ["src/hnsw.rs: PointIdWithOrder::partial_cmp, PointWithOrder::cmp, search_layer, select_neighbours, from_positive_binaryheap_to_negative_binary_heap"]}
{"id": "C116", "title": "A reload reads out of bounds only if a record is too short", "statement": "Whatever the two files contain and whatever the options, the only way for a reload to make a slice outside of its buffer is a record of the data file with less bytes than a vector of the dimension in the header, in a file of format 3 or 4; and without a memory map every such record of an otherwise acceptable pair of files does it.", "quantifier": "every content of the two files, with and without a memory map, both reload functions", "why_tests_cant": "It is a statement on what unsafe code does for all contents of files; a test sees one file, and an out of bounds read usually goes unnoticed.", "anchors": ["src/hnswio.rs: load_point_data, load_point, load_hnsw, load_hnsw_with_dist", "src/datamap.rs: from_hnswdump, get_data"]}
{"id": "C117", "title": "Reloads through an HnswIo that has been used", "statement": "While the files do not change, load_hnsw through an HnswIo with which reloads were done before, whether they succeeded or not and whatever options were set in between, returns the same result as through a new HnswIo with the same name and the present options; and it reads out of bounds in no other case than a new one (C116), even if the files have changed.", "quantifier": "every sequence of reloads of vectors of one type, set_values and set_options", "why_tests_cant": "An HnswIo keeps the map of an earlier reload; tests make a new HnswIo for each reload.", "anchors": ["src/hnswio.rs: HnswIo, load_hnsw, set_values, set_options"]}
{"id": "C118", "title": "Dropping whatever was reloaded", "statement": "Whatever the files, dropping the index that a reload returned, at once or after insertions, does not panic and leaves no cycle of references between points.", "quantifier": "every content of the two files, every number of batches of insertions after the reload", "why_tests_cant": "(False in the code: only the points up to the level of the entry point named by the file are emptied.) Memory that is never freed is not seen by tests, and the files of tests are written by the crate.", "anchors": ["src/hnsw.rs: Drop for PointIndexation", "src/hnswio.rs: load_point_indexation"]}
{"id": "C119", "title": "Dump, reload, dump again", "statement": "Dumping an index that was reloaded from a dump writes the same bytes again, after any number of cycles of dump and reload.", "quantifier": "every index dumped in full, every number of cycles, every directory and base name", "why_tests_cant": "(False in the code for the graph file: the level scale of the header is multiplied by the default scale at each cycle. Everything else is the same.) Tests make one cycle and never compare files.", "anchors": ["src/hnsw.rs: get_level_scale, file_dump", "src/hnswio.rs: load_hnsw, Description::dump"]}
{"id": "C120", "title": "Different indexes have different dumps", "statement": "If two indexes are dumped to files with the same bytes then they have the same points at the same places with the same vectors, ids and links, the same entry point, level scale, ef_construction and distance.", "quantifier": "every two indexes dumped in full with vectors of one length each", "why_tests_cant": "The pairs of indexes are infinite; a field that is left out of the file shows only for two indexes that differ in it alone.", "anchors": ["src/hnsw.rs: file_dump", "src/hnswio.rs: Hnsw::dump, dump_point"]}
{"id": "C121", "title": "Asking for fewer neighbours", "statement": "With the same ef, the answer of a search for knbn neighbours is the beginning of the answer for more neighbours.", "quantifier": "every index, query, filter, ef and pair knbn <= knbn'", "why_tests_cant": "(False in the code if knbn' exceeds ef: the width of the search is the larger one of ef and knbn. True if knbn' <= ef.) Holds or fails by the shape of the graph, tests compare with exact answers only.", "anchors": ["src/hnsw.rs: search_filter"]}
{"id": "C122", "title": "Sizes of the dumped files", "statement": "The data file of a dump has 12 bytes and for each point 20 bytes and the vector; the graph file has 261 bytes, the names of distance and type, 145 bytes for each point and 17 for each link, hence at most 145 + 289 * max_nb_connection bytes for each point.", "quantifier": "every index dumped in full with vectors of one length", "why_tests_cant": "Sizes depend on the graph that was built; tests never look at sizes.", "anchors": ["src/hnswio.rs: Hnsw::dump, dump_point, Description::dump", "src/hnsw.rs: file_dump"]}
{"id": "C123", "title": "Work of an insertion", "statement": "An insertion computes at most 1 + max_layer * (n + 2 + 2 * max_nb_connection * ef_construction) distances, n being the number of points of the index with those inserted meanwhile, and n + 2 * max_nb_connection * (2 * max_nb_connection + n) more if candidates are to be extended; so no schedule makes an insertion revisit points without bound.", "quantifier": "every index, every batch of concurrent insertions, every schedule, every distance function", "why_tests_cant": "The number of distances depends on the graph seen while other threads change it; no test counts distance calls.", "anchors": ["src/hnsw.rs: insert_slice, search_layer, select_neighbours"]}
{"id": "C124", "title": "Iteration during insertions in a reloaded index", "statement": "An iteration over an index that was reloaded from any files (and possibly modified since), made while points are inserted, does not panic, yields points of the index, none twice, and when it ends it has yielded all the points that were in the table when the iterator was made and that are not above the entry point.", "quantifier": "every byte content of the two files that the reload accepts, every number of batches of insertions, every schedule", "why_tests_cant": "Needs damaged or foreign files together with a particular interleaving; tests iterate over indexes at rest that the library built.", "anchors": ["src/hnsw.rs: IterPoint::next, IntoIterator for &PointIndexation", "src/hnswio.rs: load_point_indexation"]}
{"id": "C125", "title": "Dump during insertions in a reloaded index", "statement": "A dump made while points are inserted in an index that was reloaded from any files writes files that can be reloaded; the result has all the points of the first files, only points of the index, and for each point the lists it had at one moment of the dump.", "quantifier": "every byte content of the two files that the reload accepts, every number of batches of insertions, every schedule, vectors of one length", "why_tests_cant": "(False in the code, as for C87, if the number of points is read before an insertion and the table after it.) Needs foreign files together with a particular interleaving.", "anchors": ["src/hnswio.rs: Hnsw::dump, PointIndexation::dump, load_point_indexation"]}
{"id": "C126", "title": "Points of level 0 inserted in parallel are all connected", "statement": "In an index whose first point was inserted alone and all whose points have level 0, inserted one by one or in parallel, if no list of layer 0 has reached its bound then links go both ways and every point can be reached from every other one; searches then return as many answers as asked for, and the exact ones with ef at least the number of points.", "quantifier": "every number of batches, every schedule of each, every number of threads, all parameters, with or without reloads in between", "why_tests_cant": "Whether a link back is lost or a point is left aside depends on the interleaving; a parallel test samples a few interleavings and compares recall.", "anchors": ["src/hnsw.rs: insert_slice, reverse_update_neighborhood_simple, check_entry_point, search"]}
{"id": "C127", "title": "Files of an interrupted dump made during insertions", "statement": "If a dump is made while points are inserted, writes may fail and the process may be killed, then the files left can be reloaded only if they are the previous ones, or every byte was written and the number of points in the header is that of the table written.", "quantifier": "every schedule of the insertions and the dump, every failing or short write, every moment of the kill, every type, distance, options given to the reload", "why_tests_cant": "Needs a fault of the disk at a chosen byte of a dump that runs at a chosen moment of an insertion.", "anchors": ["src/hnswio.rs: Hnsw::dump, PointIndexation::dump, load_hnsw, load_point_indexation", "src/api.rs: file_dump"]}
{"id": "C128", "title": "Accessors called during insertions", "statement": "get_point_data, get_point and get_layer_nb_point, called while points are inserted, do not panic and return what they would return on the index as it was at one moment of the call; a vector returned is the one inserted under that id, all the points stored before the insertions are found, and the number of points, the highest level observed and the numbers of points of the layers that a client sees never decrease.", "quantifier": "every index built by the library, every batch of insertions, every number of threads that read meanwhile, every schedule; the old points if the entry point was on the highest layer in use", "why_tests_cant": "The accessors look at the index several times without keeping a lock, and index a vector with a rank checked earlier: whether this goes wrong depends on the interleaving. The documentation advises against such calls, no test makes any.", "anchors": ["src/hnsw.rs: get_point_data, get_point, get_layer_nb_point, get_max_level_observed, get_nb_point"]}
{"id": "C129", "title": "Flattened neighbourhood computed during insertions", "statement": "FlatNeighborhood::from called while points are inserted does not panic; for each point that the table had when the loop started it gives the links this point had at one moment of the loop, sorted by distance, each leading to another point of the index at the right distance; and nothing for other ids.", "quantifier": "every index, built by the library or reloaded, every batch of insertions, every schedule, every sort", "why_tests_cant": "(False in the code for points above the entry point, as for C108, and on an empty index.) The lists change while the loop runs; tests flatten indexes at rest.", "anchors": ["src/flatten.rs: FlatNeighborhood::from, flatten_point", "src/hnsw.rs: get_neighborhood_id, IterPoint::next"]}
{"id": "C130", "title": "Everything at the same time", "statement": "Any number of searches, accessors, iterations, layer iterations, dumps and flattenings can run together with insertions: the insertions do what they would have done alone; each reader gets what it would get if it were alone with the insertions (answers that are stored points at their distances, points of the table each once, dumps with all the old points and only stored ones); a layer iteration gives all the old points of its layer; no reader panics; no schedule is infinite and every execution can be completed.", "quantifier": "every index built by the library, every batch of insertions, every list of readers, every schedule", "why_tests_cant": "(No panic only if the index was not empty; completion only for the insertions that cannot block each other, see C32.) The number of interleavings of readers of different kinds with writers is unlimited; no test runs two kinds of readers with insertions.", "anchors": ["src/hnsw.rs: search_filter, get_point_data, IterPoint::next, IterPointLayer::next, generate_new_point", "src/hnswio.rs: Hnsw::dump, PointIndexation::dump", "src/flatten.rs: FlatNeighborhood::from"]}
{"id": "C131", "title": "Everything at the same time, in a reloaded index", "statement": "In an index reloaded from any files, and after any insertions in it, searches, accessors, iterations, layer iterations, dumps and flattenings can run together with insertions: searches return records of stored points with their true distances; accessors return the data of the points asked for; iterations and flattenings do not panic and give all the points that are not above the entry point; a layer iteration gives all the old points of its layer; a dump writes all the old points and only stored points, with links among them; no schedule is infinite and every execution can be completed.", "quantifier": "every content of the files that can be reloaded (links without NaN), every history of insertions after it, every batch of insertions, every list of readers, every schedule", "why_tests_cant": "(Completion only for the insertions that cannot block each other, see C32; links that are NaN are excluded.) Tests neither reload damaged files nor use a reloaded index from several threads.", "anchors": ["src/hnswio.rs: load_hnsw, load_point_indexation, Hnsw::dump", "src/hnsw.rs: insert_slice, search_filter, get_point_data, IterPoint::next, IterPointLayer::next", "src/flatten.rs: FlatNeighborhood::from"]}
{"id": "C132", "title": "Work of searches and insertions in a reloaded index", "statement": "In an index reloaded from whatever files, also after further insertions: a search computes at most n + 1 + e * max_nb_connection distances (n points, entry point of level e), no distance twice in the lowest layer; an insertion computes at most 1 + layers * (n + 2 + 2 * max_nb_connection * ef_construction) distances (and n + 2 * max_nb_connection * (2 * max_nb_connection + n) more if candidates are extended) and enters at most 4 + layers * (n + 4 * max_nb_connection + 6) lock sections, under any schedule of any number of insertions. The lists of links of the files may be of any length and may name a point several times.", "quantifier": "all files that are accepted by a reload, all later insertions at levels that the table has, all schedules, queries, filters, distances", "why_tests_cant": "files with long or repeated lists of links are not produced by the library; a test cannot try all of them nor all schedules", "anchors": ["src/hnsw.rs:863-990", "src/hnsw.rs:1071-1200", "src/hnsw.rs:1370-1500", "src/hnswio.rs:560-760"]}
{"id": "C133", "title": "Quality of the answers in whatever was reloaded", "statement": "An index returned by load_hnsw, whatever the files (links damaged, one-way, repeated, with wrong distances), possibly extended by concurrent insertions afterwards, answers searches as well as one built in memory: with legal distances the number of answers is min(knbn, number of points reachable in the searched layer from the end of the descent), the first answer is no farther than any point of the descent, with ef or knbn at least the number of points the answers are the nearest reachable points (with a filter: the nearest accepted ones), a neighbour of a returned point is returned or at least as far as all answers, larger ef and knbn never make an answer worse when distances differ, only the values of the filter on stored ids matter, and a graph in which every point has a link towards the query gives exact answers. All nearest points of the index are found when ef is at least the number of points.", "quantifier": "all directories of files accepted by load_hnsw, element types, distances, later batches of insertions and schedules, queries, knbn, ef, filters", "why_tests_cant": "tests search in indexes they built or dumped themselves; the space of accepted files is unbounded and a damaged link changes which points are reachable", "anchors": ["src/hnsw.rs:911-1060", "src/hnsw.rs:1462-1560", "src/hnswio.rs:560-760"]}
{"id": "C134", "title": "Insertions in parallel compared with insertions one after the other", "statement": "When all the calls of a parallel insertion are over, the index is one that the same calls made one after the other, in some order, could have left: the same points with the same ids in every layer, the same counter, the same links and the same entry point. When no two calls overlap the index is exactly the one that these calls leave in that order. The number of points of each layer and the level of the entry point do not depend on the schedule.", "quantifier": "every index built by the library, every batch of insertions, every schedule, every distance and heap policy", "why_tests_cant": "(False in the code for links and entry point.) The possible schedules and orders cannot be enumerated; the tests compare recall figures, never the index built in parallel with one built sequentially.", "anchors": ["src/hnsw.rs: parallel_insert, insert_slice, generate_new_point, check_entry_point"]}
{"id": "C135", "title": "Memory reserved by a search", "statement": "A search needs memory in proportion to the number of points of the index, whatever is asked for: if 16 bytes can be given for each point, plus 16, it neither panics for capacity nor aborts when it reserves its heaps. Exactly: an empty index reserves nothing; in another one a search reserves 16 * max(2, ef, knbn) bytes, panics with a capacity overflow when ef or knbn is at least 2^60 and otherwise depends on the allocator only. Replacing knbn and ef by the number of points plus one when they are larger changes no answer. The same in an index reloaded from any files.", "quantifier": "every index built by the library or reloaded from any files, with any later insertions, every query, knbn, ef, filter, distance, heap policy and amount of memory", "why_tests_cant": "(The first sentence is false in the code.) Tests use an ef of a few hundreds and never an index smaller than what is asked for; the effect depends on the memory of the machine.", "anchors": ["src/hnsw.rs:911-955", "src/hnsw.rs:1462-1535"]}
{"id": "C136", "title": "Insertions whatever ef_construction", "statement": "Every insertion of a vector in an index returns, whatever ef_construction was given at creation or read from a file. Exactly: the first insertion does; below 2^60 the heaps reserved by the search of an insertion change nothing; from 2^60 on no other insertion returns (capacity overflow), its point stays counted and in the table, entry point, old points and links are unchanged, and searches in an index created like that answer the first point at most. The same in reloaded indexes.", "quantifier": "every index built by the library or reloaded from any files, every ef_construction, every batch of insertions, every schedule, distance and heap policy", "why_tests_cant": "(The first sentence is false in the code.) Tests use an ef_construction of at most some hundreds; a single damaged byte of a dump makes it 2^60, which no test reloads.", "anchors": ["src/hnsw.rs:911-955", "src/hnsw.rs:1055-1193", "src/hnswio.rs: load_description"]}
{"id": "C137", "title": "The report of the layers", "statement": "dump_layer_info never panics; with no insertion running it reports, for each layer from 0 to that of the entry point, the number of points of that layer, and these numbers add up to the number of points if the entry point is on the highest layer in use; made while points are inserted, it reports for each layer a number between that before the insertions and that at the end, for layers up to an entry point of that time. The same, with no insertion running, in indexes reloaded from any files.", "quantifier": "every index built by the library or reloaded from any files, every batch of insertions, every number of threads that report meanwhile, every schedule", "why_tests_cant": "(The report panics in an index created with max_layer = 0.) The report takes the lock of the table anew for each layer, the entry point having been looked at before: what is printed depends on the interleaving. Tests print it and check nothing.", "anchors": ["src/hnsw.rs: dump_layer_info, PointIndexation::debug_dump"]}
{"id": "C138", "title": "Memory asked by a reload", "statement": "load_hnsw never asks the allocator for a block that is not justified by the length of the files: no single request exceeds the length of the data file or twice that of the graph file, so damaged sizes in a small file are refused without panic for capacity and without abort. For files that are accepted: if blocks of these sizes can be given, the requests change nothing in the result. Whatever the allocator gives, a reload that succeeds returns what the files hold.", "quantifier": "every directory of files with any bytes, with or without memory map, every element type, distance, heap policy and largest block the allocator gives", "why_tests_cant": "(The first sentence is false in the code for files that are not accepted.) Tests reload their own dumps; a single damaged byte asks for 2^52 bytes, and whether that aborts depends on the machine.", "anchors": ["src/hnswio.rs:640-720", "src/hnswio.rs:1119-1290", "src/datamap.rs:163-208"]}
{"id": "C139", "title": "Accessors do not wait for insertions", "statement": "A call of get_nb_point, get_max_level_observed, get_data_dimension, get_layer_nb_point, get_point_data, get_point or dump_layer_info made while points are inserted is never held up by an insertion that holds or waits for the list of neighbours of a point: at any moment its next action is possible, and it is over after at most 1, 2, 4 or (dump_layer_info) number of layers plus 1 actions of its own, whatever the other threads do. (The short critical sections on the table, the counter and the entry point count as one action.)", "quantifier": "every index built by the library, every batch of insertions, every number of client threads, every schedule", "why_tests_cant": "a test sees some schedules only; a call that waits for a lock of a point would merely be slow in most of them", "anchors": ["src/hnsw.rs:469-494", "src/hnsw.rs:555-613", "src/hnsw.rs:1399-1401"]}
{"id": "C140", "title": "Arithmetic of the map", "statement": "DataMap::from_hnswdump gives in builds with overflow checks (debug) and without (release) the result that arithmetic without bound gives, for any files; in particular a map that is made has the records of the file and get_data never reads beyond the file, in both builds.", "quantifier": "every directory of files with any bytes (data files of less than 2^64 - 20 bytes), every element type, both kinds of builds", "why_tests_cant": "(The first half is false in the code.) Tests run in one of the two builds, on dimensions of a few units; a forged dimension of 2^64 - 1 is needed for the size of a record to wrap.", "anchors": ["src/datamap.rs:44-228"]}
{"id": "C141", "title": "A reload in debug and release builds", "statement": "load_hnsw and load_hnsw_with_dist give the same result in builds with overflow checks (debug) and without (release), for any files, with or without memory map; in particular both refuse a graph file that announces 2^63 points or more.", "quantifier": "every directory of files with any bytes, every reload options, element type, distance and heap policy, both kinds of builds", "why_tests_cant": "(False in the code for an announced number of exactly 2^63 points and, with a memory map, for forged dimensions.) Tests run in one of the two builds and reload their own dumps.", "anchors": ["src/hnswio.rs:431-613", "src/hnswio.rs:653-714", "src/datamap.rs:153-163"]}
