# Formal model of hnswlib-rs (hnsw_rs) in Lean 4

Everything lives in `lean/Verif`. `lake build` in `lean/` checks it.
The repository (`/repo`) is read as text only; nothing was executed.

## 1. Trusted base

* Lean 4.33.0 kernel. No axiom is added. Theorems depend at most on `propext`,
  `Classical.choice`, `Quot.sound` (`Verif/Axioms.lean` prints them at build time).
  No `sorry`, `admit`, `native_decide`, `bv_decide`, `unsafe`, `implemented_by`.
* The transcription Rust -> Lean. Every definition cites the lines it models.
* Assumptions on what is not modelled (see section 3).

## 2. What is modelled, and how

| Rust | Lean | remarks |
|---|---|---|
| `f32` values, `==`,`<`,`<=`, unary `-`, bit pattern | `F32` (sign, 31-bit magnitude) | exact; no arithmetic on distances exists in the crate; C115 relates the comparisons to the numbers of IEEE-754 |
| `Distance::eval` | an arbitrary function `List T -> List T -> F32` | may return NaN, negatives, be asymmetric; assumed pure and non panicking |
| `Arc<Point>` | `Ref` (PointId, origin id, vector: the immutable part); neighbour lists are a map in the state | an `Arc` clone is the same value |
| `PointIndexation` | `Idx` (layers, nb_point, entry point, neighbour lists) | capacity hints ignored, except those of the heaps of `search_layer` (C135, C136) |
| `BinaryHeap`, `sort_unstable`, `HashMap` iteration order | an arbitrary *lawful* `Policy` (push/pop/iteration order/sort/hash order) | every theorem holds for every tie-breaking; on NaN the order is arbitrary and a panic possible. `stdPolicy` is the heap of the standard library itself |
| panics (`assert!`, `unwrap`, index, NaN) | explicit `Panic` results; the state reached stays | stack unwinding drops guards |
| `RwLock`s and threads | programs (`Prog`) made of atomic lock sections; arbitrary interleavings | guards that are held across other lock operations are explicit; sequential semantics is the one-thread schedule of the same program |
| files | byte lists; writers append, readers are parsers with explicit error / panic / out-of-bounds outcomes | little endian, 64 bit `usize` |
| `LayerGenerator` | levels are an arbitrary input `< max_layer` of insertion; the generator's range logic and scale handled apart | the probability law is apart, in exact arithmetic (C101) |

## 3. Not modelled, and assumptions

Logging, timing, `println!`, failing allocations, memory reservation (apart from the sizes asked by
`PointIndexation::new`, C107, by searches and insertions, C135, C136, and by a reload, C138), the numeric distance kernels (`anndists`), rayon's scheduler (replaced by
*all* interleavings), Rust weak-memory effects (all shared data is behind locks), read errors of the
operating system, the loss of written data by a power failure, `serde`/`bincode` details of `anndists`, deallocation of the memory given to C callers.

Assumptions that the theorems rest on, beside the transcription:

* **Containers.** `Policy.Lawful` is a contract of `BinaryHeap`, `sort_unstable` and `HashMap`: whatever the
  distances nothing is lost, duplicated or changed; as long as no NaN has been pushed (`Policy.Built`) a pop gives
  a maximum, a sort gives a sorted permutation, nothing panics. With NaN nothing is assumed on the order, and
  an operation may panic or not. The standard library compares with `<`, `<=`, `>=` (`partial_cmp`, false on NaN)
  and never reaches the panic of `cmp`. C105 proves the contract for the algorithm of `BinaryHeap` and for
  insertion sort (`stdPolicy`, StdHeap.lean); sorts of more than 20 elements and the hash table remain assumptions.
  `NSortLawful` is the same contract for `Vec<Neighbour>` in `flatten.rs`.
* **Locks.** A `read()` or `write()` section that contains no other lock operation is one atomic step. A
  guard held across other operations is explicit (`held`). A lock may be granted in any order: no fairness
  and no writer preference of `parking_lot` is assumed. For safety this covers more executions. C32 and
  C82 are about mutual waiting among holders only. C85 adds the policy of `parking_lot`: while an insertion
  waits for writing, no action that may be a read of a lock is allowed (`FairStep`, which refuses more than
  the real locks do).
* **Ghost state.** `CSt.pub` records which points are already published. No step of the model reads it to
  decide anything.
* **`binary_search`** is the loop of the standard library (`bsLoop`). **`Uniform::sample(0, n)`** gives some
  number `< n` (`draw`). **`-ln(u) * scale`** is an arbitrary input `level`.
* **Scale.** `defScale m` stands for `1 / ln(m)`, an arbitrary function to bit patterns. Multiplication of
  doubles is exact on the real values followed by rounding to nearest even (`F64.mul`).
* **Sizes announced by a file.** `Vec::with_capacity(n)` and `vec![0; n]` with an `n` read from a forged file panic or
  abort if `n` is too large for memory; the model goes on reading and fails later, except in `LoadMem.lean` (C138). `nb_point = 2^63` makes
  `nb_still_to_load -= 1` overflow: a panic in debug builds as in the model, a wrap in release builds (`LoadArith.lean`, C141).
* **Paths.** Other modules see one directory by the names in it (`Dir`); Paths.lean tells how paths lead there, without
  symbolic links and permissions.
* **Files.** Little endian, 64 bit `usize`. A file is not changed while it is read. In `fileDump` a
  write appends all its bytes; `DumpsTo` (C88) is the dump when any write may fail or be cut and the process
  may be killed, with the `BufWriter` of the standard library. A memory map is as long as the file and starts at a page boundary. Ranks are
  `< 2^31` (`Sizes`). Multiplication of dimension and element size does not overflow (such a vector could
  not have been in memory; for files of any content it is a hypothesis of C76, which C140 removes). Bit patterns read back
  are valid values of `T`. The buffer `Vec<u8>` of `load_point_data` is taken to be aligned for `T` (the allocator aligns to 16 bytes in practice).
* **Reload in histories.** `HReach.reload` (`load_hnsw`) and `HReach.reloadWithDist` (`load_hnsw_with_dist`)
  continue a history with the reloaded index; the ghost part of the
  state stays. `C40_reload_same_partial`, `C78_reload` and `HReach.ok` show that this state is legal.
* **C callers** (`Ffi.lean`) give pointers to memory at least as long as they announce; this is a hypothesis
  of the theorems, and `Fail.ub` otherwise. A panic in an `extern "C"` function ends the program.

## 4. Properties: plan

Conventions: "refuted" means that the negation is proved on a concrete history and the part which
does hold is proved under a `_partial` name.

* **C01-C08** (search): functional model of `search_layer`/`search_filter`; loop invariant
  (visited / returned / candidate / expanded) over an arbitrary graph; termination by the measure
  (unvisited points + candidates). A negative distance is met as a panic only, so the invariants assume that
  there is no NaN and that the search returned; with a NaN C06, C07, C08 and C10 are refuted, with the heap of
  the standard library.
* **C09, C10, C13** filter variant: same loop. C09 refuted (singleton pivot), C13 refuted for ef = 0.
* **C11** binary search model of `[T]::binary_search`. **C12** permutation argument over arrival orders.
* **C14, C15** refuted by concrete histories; partial: unpruned regime (complete graph).
* **C16-C22, C26, C29, C30, C33** invariants of the insertion program, proved once by a rely/guarantee
  argument over all interleavings; sequential insertion is the special case of one thread.
* **C19, C31** entry point: sequential and "parallel on a non-empty index" proved; parallel on an empty
  index refuted by a schedule.
* **C23** refuted by a two point history. What holds is proved by an invariant over programs (`Keeps`,
  LevelLinks.lean) indexed by the list of successive entry points, which only grows: every list of layer
  l leads to points of level at least l or to former entry points. **C24, C25** direct induction on the selection loops; C25 for every distance, C24
  completely without NaN only.
* **C27, C28, C44** level generator. Multiplication of doubles is modelled bit by bit (`F64.mul`);
  `1 / ln` and the random numbers are arbitrary inputs.
* **C32** deadlock: refuted by schedules; partial: all inserted points have the same level, or there are two
  of them one of which is of level 0. `SafeB` records for a waiting thread whom it waits for, that this point
  is in its list and, for a point of level 0, that no younger point has it in a list.
* **C34-C37, C60** iterators, point access and drop on the model state.
* **C38-C43, C45-C47, C50-C56, C62** byte level dump and reload. Crash points: parser
  prefix argument. mmap: byte offsets.
* **C48, C49** directory model of `DumpInit`/`file_dump`.
* **C67, C68** number of answers and local optimum with a filter: two more fields of the loop invariant.
* **C69-C71** what one insertion does to the graph: the program run alone is described step by step
  (`InsertSpec.lean`), in the vocabulary of `LinkSpec.lean`. C70 refuted. **C72** entry point.
* **C73-C76** files of any content: inversion lemmas of the readers (`AnyLemmas.lean`,
  `AnyMapLemmas.lean`); the search lemmas need only `Navig`, which such an index satisfies. **C77** the files
  against a second, literal description of the format. **C78, C79** `load_hnsw_with_dist`; both refuted.
* **C80-C84** searches running with insertions: the search as a program (`SearchConc.lean`), shown to be the
  function of `Search.lean` when nothing else moves; its invariant uses only what every state of the
  insertions satisfies and that stored points stay. C84 refuted. **C85** the same with task-fair locks: an insertion that holds the
  read guard of its own point never waits for a read (`Disc.lean`).
* **C86** a model of the locks alone (`Locks.lean`): sequences of lock operations of each function, with the
  task-fair policy; threads that take locks in an increasing order cannot deadlock. Refuted for `IterPoint`.
  The hypothesis `LockCall.olderLinks` is the fact that makes C32 hold for one level; it is proved in the
  model of insertions (`Older`), not carried over by a theorem.
* **C87** a dump running with insertions (`DumpConc.lean`): it reads dimension, number of points, table, lists
  and entry point at different moments; what it writes is well formed at each of them, because the table does
  not change meanwhile (`IdxOK.mix`). The reader is the one of C38. Refuted without two conditions.
* **C88** a dump whose writes fail, or that is killed (`Writes.lean`): one operation per `write_all`; the
  sum of file and buffer is a prefix of the bytes of `Hnsw.dump` (`Runs.prefix`). A reload of prefixes reads
  the shape of the files to its end (`LoadsOk.whole`, from the lemmas of C41), also for the dumps that fail
  by themselves. `C88_every_prefix`: the failures modelled are not too few, each number of bytes may be left.
* **C89** work of a search (`Cost.lean`): the search written once more in a monad that notes each distance,
  list and call of the filter; its result is proved to be that of `searchFilter`. The visited points bound
  the distances of the lowest layer. `C89_noted`: the result depends only on what is noted, so nothing is
  used without being counted.
* **C90** the files accepted by a reload: one direction by inverting the readers (`GraphLemmas.lean`), the
  other by reading the described bytes (`GraphParse.lean`). The description (`GraphFile`, `DataFile`,
  `Readable`) mentions no reader. With a memory map (`Props/MapFiles.lean`) the description `MappedFile` adds
  what the map needs.
* **C91** two searches with different `ef` (`SearchMono.lean`): as long as the narrow one goes on both expand
  the same points (`Sync`); afterwards the wide one only improves. **C92** the filtered loop is compared with
  the unfiltered one step by step; while results are fewer than `ef`, candidates are among them (`CandRet`).
* **C93** `check_graph_equality` (`GraphEq.lean`): its loops are turned into one condition
  (`checkGraph_ok`); searches read only points and ends of links (`searchFilter_pts`).
* **C94, C95** relations between two indexes (`Param.lean`, `ParamInsert.lean`): a relation of vectors, ids and
  distances that respects comparisons carries over to heaps, searches, programs (`ProgR`), executions and
  histories. C94 takes equal distances, C95 distances in the same order (`Image.lean`). Both assume
  `OrderOnly`: heap and sorts choose by comparing distances, and a hash map iterates over related keys in the
  same order (true of the Rust containers up to the seed of `HashMap`; `listPolicy_orderOnly` for lists).
* **C96** exact searches follow from C06 (local optimality), C67 (number of answers) and the complete graphs
  of C14.
* **C97** number of lock sections: structural bound `Depth` on the insertion program, given that the lists are
  bounded and the entry point is below `max_layer` in every state (C30). `StepsBy` is `Steps` with the schedule.
* **C98** histories of C calls (`CHist`) are histories of the Rust interface (`HReach`); content by C29, C40, C64,
  answers by C01, C02, C04, C05, C59.
* **C99** vectors of mapped points on arbitrary files: C75 and C76 combined.
* **C100** one layer, no full list: induction on the insertions, backwards from the final index (C71: no link
  is lost while the list is not full; C70: the link back is there; C69: the new point has a link).
* **C101** law of the levels: Lebesgue measure of the sampled numbers that give each level, in exact real
  arithmetic (the rounding of `ln` and of the product is not modelled; the rest of `generate` is).
* **C102** no ties: two lawful `Policy` values give heaps with the same elements (`HR`), pops and sorts that
  agree when keys are distinct, hence equal searches and insertions; histories by induction.
* **C103** failures of a load: `Cut R F m` (on a cut file the reader gives the same value or fails in one of the
  ways `F`) and `FailsBy`, compositional; with C41 for dumps. With a map the
  two maps differ, so the readers are compared side by side (`Cut2`, `Props/CutMap.lean`).
* **C104** settings: induction on the calls, with C28.
* **C105** the algorithms of `BinaryHeap` on the list of the elements: permutation lemmas, then the heap invariant
  except at one place for each sift; refutations with NaN by evaluation of `stdPolicy` (Props/NaN.lean).
* **C106** unused functions (Dead.lean): the lemmas on `search_layer` used for C01-C08, without the search of the lowest
  layer; evaluation of `stdPolicy` for the order of the vector.
* **C107** reservation (Reserve.lean): real arithmetic with Mathlib's `log` and `exp`.
* **C108** iteration during insertions (IterConc.lean): the table is fixed by the guard, what remains to be yielded is a
  suffix of it; the level of the entry point never decreases.
* **C109** directories (Paths.lean): `PathBuf::push`, resolution of `.` and `..`, and a file system by places; the
  reload is that of the other modules when both computations of the path of the graph file agree.
* **C110** lists as time passes (`Improves` in Spec.lean, a transitive relation): part of what every thread guarantees for
  each of its steps (`Guar.imp` in Conc.lean); an own list is written once, when it is empty, before the point is visible.
* **C111** insertions in what was reloaded (Inherit.lean): the invariants of Conc.lean and Sys.lean are relative to a `Base`,
  the links and lengths inherited from files, for which nothing is claimed but that they lead to stored points; everything
  built by insertions is the case `Base.none`. A list that has a NaN in the files is `wild`: its order and its length are
  not known, and a sort of it may panic; everything else is known of it too.
* **C112** dumps of what was reloaded (AnyDump.lean): the round trip of IoLemmas.lean needs only `Coherent` (ids are positions,
  links lead to points, lists are sorted, no NaN), which the states after a reload of any files and insertions have.
* **C57** flatten: induction on the iterator. **C58, C59, C64-C66** C interface glue. **C61** `set_values`.
* **C113** which levels can deadlock (Deadlock.lean): the executions of `Props/Deadlock.lean` are computed for all
  levels (`stuck_two`, `stuck_low`, `stuck_high`, a finite number of cases); they are executions of any
  larger batch (`runSched_embed`; `Refuel`: the bound on loops does not matter), whatever the other threads do
  the guards are kept (`sysInv_stepAt`, `Closing`), and no execution is infinite. The converse is C32.
* **C114** no point without links (Linked.lean): a lighter reasoning on threads (`Ends`), the only facts used of the
  other threads being that lists do not become empty (C110), layers do not become empty, and the entry point stays.
* **C115** comparisons of distances (`Props/Float.lean`): the number of a pattern is decoded as in the standard;
  its absolute value is strictly increasing with the pattern.
* **C116** out of bounds reads (`Props/Bounds.lean`): `ByRecords` says that what a reader takes from the data
  file is made of whole records and that its only undefined behaviour is a short one; it goes through `load_point`,
  the layers, and separately through the making of the map (`mapRecords_ub`). The converse follows the reader up
  to the first short record (`Fails2`).
* **C117** an `HnswIo` that was used (`Props/Reuse.lean`): the map it has, if any, is the one `from_hnswdump` gives
  for the present files; without the option the map is not looked at.
* **C118** drop of a reloaded index (`Props/DropAny.lean`): the exact effect of the destructor on a table whose points are at
  their places; cycles that are left only go through points above the entry point; witness: one byte of a dump.
* **C119** dump after reload (`Props/Again.lean`): by induction on the cycles, the reloaded index is the dumped one except for
  the scale (C39); the dump is `A ++ scale ++ B` with `A`, `B` functions of the rest.
* **C120** dumps determine the index (`Props/Again.lean`): both indexes are what the reload of the same files returns (C39).
* **C121** fewer neighbours (`Props/Prefix.lean`): `knbn` occurs in `search_filter` only in the width and in the cut of
  the answer.
* **C122** file sizes (`Props/Prefix.lean`): sum of the lengths in the layout of C77, with the bound on degrees C20.
* **C123** work of an insertion (`InsertCost.lean`, `Props/InsertCost.lean`): the insertion with a counter incremented at every
  call of the distance; forgetting the counter gives the insertion (`insertN_forget`), and executions correspond both
  ways. `PostI`: what holds of the result if all states met satisfy an invariant (links lead to points of the final
  state); `search_layer` computes a distance once per visited point.
* **C124, C125** iterations and dumps during insertions in what was reloaded (`Props/AnyConc.lean`): the lemmas of C87 and C108
  relative to a `Base` (`dumpOKB`, `iterOKB`), as for C111; a reloaded index has an entry point, so the iteration of it does
  not panic.
* **C126** C100 for insertions in parallel (`FlatConc.lean`, `Props/FlatConc.lean`): the last state is fixed. No list being full in it, none
  was full before (lists only grow, C110), so a link of layer 0 seen at any time is still there in the end. Each thread is shown to create
  only links that have, or will have when it returns, a link back in the last state (`Fair`, `Will`), and to make its point visible only when
  it is joined to the old points (`FlatInv`).
* **C127** C88 for the dumps of C87 and C125 (`Props/TornCut.lean`): the bytes of a dump interrupted during insertions are the first ones
  of those of an execution where it ends; the shape of the latter is read to the last byte (`parses_skel`), or refused for its number of
  points (`fails_skel_count`), and a successful reload of prefixes would be one of the whole.
* **C128** Accessors as programs of their looks at the index, one lock each (`AccessConc.lean`), next to insertions and other
  readers. `Lin` is a predicate on programs: whatever the evolution of the index (`Grown`: points stay, the level of the entry point
  and the count do not decrease), the value returned is that of a function of the index at the moment of one of the actions.
  `get_point_data` satisfies it because each of its tests stays true.
* **C129** `FlatNeighborhood::from` next to insertions (`FlattenConc.lean`): the iteration of C108, between two calls of `next` of which
  the lists of the point yielded are read under its lock. Projected on the iteration alone it is an execution of C108; the map is
  the one of the points read, each with a witness moment. False where C108 is.
* **C130** All the kinds of readers next to insertions (`Together.lean`): an insertion may add to the table only when no reader has
  it; readers act as in the files of C80, C87, C108, C128, C129, the layer iterator is new. `UExec.tasks`: seen by one of
  its readers, an execution is one of the system of this reader alone with the insertions, so that the theorems on these
  systems apply. Termination: the trees of programs, and the number of points left for the loops. Progress: a reader
  can always act, and when all have finished nobody has the table. `C130_contains`: the converse inclusion, nothing was lost.
* **C131** The same in an index reloaded from any files (`Props/TogetherAny.lean`): `UExec.tasks` does not need a reachable index, so
  that the theorems of C111, C124, C128 and C129 on reloaded indexes apply to each reader; the layer iterator and
  termination are redone with inherited links (`WasIdx.layer`, `UExec.wf`).
* **C132** the work in what was reloaded (`Props/AnyCost.lean`): the bounds of C123 and C97 do not depend on the lengths of lists
  of old points (`work_leB`, `sections_le`), so that they hold for all files; the descent of a search computes one distance for
  each link of the lists that it reads, whose lengths the files decide.
* **C133** the quality of the answers in what was reloaded (`Props/AnySearch.lean`): the theorems on searches need only that the
  index can be searched (`Navig`), so their proofs are in `Verif/SearchNav.lean` and used both for reachable indexes and for
  reloaded ones (`Resumed.navig`).
* **C134** parallel insertions and insertions one after the other (`Linear.lean`, `Props/Linear.lean`): `inOrder` makes the calls one
  after the other.  The table of any finished execution is that of `inOrder` on a permutation of the calls: by C29 each layer is the
  old one followed by the calls of that level in some order, the orders of different layers do not interact, and ids are positions.
  A schedule whose thread numbers never decrease is peeled thread by thread (`runSched_first`) and gives exactly `inOrder`; `Refuel`
  shows that the step budgets, which depend on the number of calls, do not matter.  Links and entry point: two witnesses.
  The lemmas are about `GoodCB B`, so that they also hold in reloaded indexes (`C134_reloaded_partial`).
* **C135** memory reserved by a search (`Capacity.lean`, `Props/Capacity.lean`): `searchFilterMem avail` is `search_filter` with the
  two `BinaryHeap::with_capacity(ef.max(2))` of `search_layer` (8 bytes for each `Arc`), which overflow above `isize::MAX` bytes
  and abort above `avail`. `searchFilter_clamp`: when `ef` exceeds the number of points the tests on the length of the returned
  heap never depend on it (`InvA`: returned points are visited, and visited points are distinct stored points), so that the loops
  for two such `ef` are step by step the same. Not modelled: the growth of heaps by pushes.
* **C136** insertions whatever `ef_construction` (`CapInsert.lean`, `Props/CapInsert.lean`): `insertCapP` is `insertP` with the
  reservation of `search_layer`. Below `2^60` both are the same program. Above, `Prog.Barren J` (all actions keep `J`, no
  `return`) holds for each call, `J` (`Stays`) saying what remains unchanged; hence for any schedule.
* **C137** the report of the layers (`LayerInfo.lean`, `Props/LayerInfo.lean`): `layerInfoP` is a thread that looks at the entry point,
  then at the table once per layer. `Tells Q` says that a program, whatever the growth of the index between its looks, returns
  something that satisfies `Q` at that moment; `tells_general` carries it through any schedule. What is printed is modelled as a
  list of numbers; the text is not.
* **C138** memory asked by a reload (`LoadMem.lean`, `Props/LoadMem.lean`): `loadHnswMem room` is `load_hnsw` with a request before each
  `Vec::with_capacity(n)` and `vec![0; n]` whose `n` was just read in a file. `Fit K w c m m'` relates a reader to the one with
  requests: `m` consumes at least `c` bytes, so a request of a multiple of `c` fits when `m` is going to succeed.
* **C139** accessors do not wait (`NoWait.lean`, `Props/NoWait.lean`): `Quick K t n` says that all actions of `t` are possible in every
  state and that there are at most `n`; `GTurns i k` counts the actions of one client in a schedule. The mutation CB01 (an accessor that
  waits until no list is locked) showed that C128 does not speak of waiting.
* **C140** arithmetic of the map (`MapArith.lean`, `Props/MapArith.lean`): `fromDumpU checks` is `from_hnswdump` with the size of a record
  computed in `usize`, a panic on overflow with checks, modulo `2^64` without. When the size wraps, any record that is there is too
  short for the dimension, so a map is made only without records, as with exact arithmetic.
* **C141** a reload in both kinds of builds (`LoadArith.lean`, `Props/LoadArith.lean`): `loadHnswU checks` is `load_hnsw` with
  `nb_still_to_load` an `i64` that wraps or panics (`decI64`) and with `fromDumpU`. Only the least `i64` is concerned, since a negative
  counter panics after one point.

## 5. Disagreements between code and documented intent

Each line is a theorem: a concrete history or file for which the claim of `properties.jsonl` fails.

| property | theorem | what happens |
|---|---|---|
| C09 filter respected | `C09_refuted` | a filtered search of a one point index returns the point though the filter rejects it |
| C13 no panic of filtered search | `C13_refuted` | `knbn = 0`, `ef = 0` with a filter: `unwrap` on an empty heap |
| C14 k answers | `C14_refuted` | two points, the second of level 1: one answer instead of two |
| C15 point found again | `C15_refuted` | six points, the last one is unreachable although `ef` exceeds the number of points |
| C23 lists at layer l hold points of level >= l | `C23_refuted` | a point of level 1 has a level 0 point in its layer 1 list; `C23_exceptions_partial`, `C23_top_first_partial`, `C23_sequence_partial` give what holds |
| C31 entry point on top | `C31_refuted` | two concurrent insertions in an empty index: a point stays above the entry level, without links |
| C32 no deadlock | `C32_refuted`, `C32_levels_refuted` | two insertions of levels 2 and 1 wait for each other; so do three insertions of levels 1, 0, 0 or 1, 0, 1 |
| C34 iterator complete | `C34_concurrent_refuted` | after the execution of C31 the iterator misses a point |
| C35 iterator does not panic | `C35_refuted` | panic on an empty index, and when called after the end, once `max_layer - level of the entry point` times `None` have been given (`C35_exact_partial`) |
| C24 selection is diversified | `C24_diversified_refuted`, `C24_nearest_refuted` | two candidates at distance NaN of each other are both selected; a NaN in the extended candidates disorders the heap and the nearest one is not selected |
| C38 dump can be reloaded | `C38_refuted` | a vector shorter than that of the entry point: `file_dump` is `Ok`, the reload reads out of its buffer |
| C38 | `C38_refuted_name` | type names of more than 256 bytes: dumped, then refused with a panic |
| C43 header read back | `C43_long_refused` | a header with a name of more than 256 bytes is written and always refused on reload (`C41_long_names`) |
| C40 same vectors | `C40_refuted` | a longer vector comes back cut, without error |
| C42 trailing bytes ignored | `C42_refuted_mmap` | with a map, one record of zero bytes after the data makes the reload panic |
| C44 scale restored | `C44_scale_multiplied`, `C44_refuted` | the recorded scale is multiplied by the default one at each reload |
| C45 parameters restored | `C45_flags_lost` | `extend_candidates` is always true and `keep_pruned` always false after a reload |
| C45 | `C45_refuted` | 256 connections come back as 0 |
| C46 other distances refused | `C46_refuted` | only the last path segment of the distance name is compared by `load_hnsw` |
| C49 failed dump harmless | `C49_refuted`, `C49_overwritten` | a dump that fails has already destroyed the previous one |
| C50 threshold | `C50_refuted` | 0 is ignored; 2^63 and more become negative |
| C52 mapped = not mapped | `C52_refuted` | two points with one id get the same vector |
| C53 alignment of mapped slices | `C53_refuted` | for elements aligned to 8, every second slice is misaligned |
| C54 type check of the map | `C54_refuted` | only the first path segments are compared |
| C57 flattened neighbourhood | `C57_refuted` | after the execution of C31 a stored id is unknown |
| C58 C description | `C58_refuted` | the number of points is 0 and the mode 1, whatever the file |
| C60 drop frees everything | `C60_refuted` | after an insertion that panicked a cycle may stay; an index with 0 layers panics on drop |
| C63 no file overwritten | `C63_refuted` | the dump of a reloaded index overwrites a graph file that has no data file |
| C65 C dump found by its name | `C65_refuted` | the dump of a reloaded index goes to another name, which the C caller is not told; loading the name gives the old index |
| C66 C indexes can be loaded | `C66_refuted` | no function to load `f32`/`DistHellinger` and `u16`/`DistJaccard` (and none to create `f32`/`DistCosine`) |
| C67 number of answers | `C67_filter_refuted` | with a filter and `max(ef, knbn) = 1` the search stops at a rejected pivot |
| C70 links in both directions | `C70_refuted` | a back link is written in the layer of the new point's level, also for a link made in a lower layer |
| C78 `load_hnsw_with_dist` | `C78_mapped_refuted` | with map options it returns no index, because it makes no map |
| C79 mapped file kept | `C79_refuted` | an index of `load_hnsw_with_dist` has mapped points but is not marked so: its dump writes over the mapped file |
| C84 searches are snapshots | `C84_snapshot_refuted` | a search overlapping one insertion gives an answer that no state of the index gives |
| C86 no deadlock with iterators | `C86_iter_refuted`, `C86_flatten_refuted` | `IterPoint` holds the table and locks it again at the end of each layer: with an insertion that waits for the table both wait for ever; `FlatNeighborhood::from` uses it |
| C86 | `C86_search_in_loop_refuted` | the same for a search made in the loop over a layer iterator |
| C87 dump during insertions | `C87_refuted` | the number of points is read before the table is locked: an insertion in between gives a dump whose reload panics |
| C87 | `C87_refuted_empty` | the dimension was read when the index was empty: the reload is `Ok` with empty vectors |
| C87 | `C87_entry_refuted` | the reload gives an index whose entry point is below the highest layer in use |
| C99 mapped vectors | `C99_stale_refuted` | if the files cannot be mapped, `load_hnsw` goes on with the map of the previous load of the same `HnswIo`: `Ok`, with the vectors of files that are no longer there |
| C101 law of the levels | `C101_one_connection_refuted` | with `max_nb_connection = 1` the scale is infinite and every level is drawn again: all layers are equally likely |
| C101 law of the levels | `C101_comment_refuted` | the comment of `generate` gives 1.E-13 as the probability of a second draw for 10 connections and 10 levels; it is 1.E-10 |
| C103 damaged files give `Err` | `C103_header_refuted` | the result of `load_description` is unwrapped: any graph file whose header cannot be read makes `load_hnsw` panic (abort from C) |
| C103 | `C103_dump_refuted` | if the data file of a dump is cut anywhere after its header, `load_hnsw` calls `std::process::exit` |
| C01, C06, C07, C08, C10, C26, C74, C80, C92, C102 with NaN | `C01_sorted_refuted`, `C06_local_refuted`, `C07_exact_refuted`, `C08_worse_refuted`, `C10_exact_refuted`, `C26_search_refuted`, `C74_sorted_refuted`, `C92_accept_all_refuted`, `C102_search_refuted` | `PointWithOrder::cmp` panics on NaN, but `BinaryHeap` calls `partial_cmp` only: a search that meets a NaN may panic by an `assert!`, or return unsorted answers, among them the NaN, and miss the nearest point |
| C73 lists sorted after a reload | `C73_sorted_refuted` | the same for `sort_unstable`: a file with a NaN among the distances of links is accepted, and the list is left unsorted |
| C104 options of a reload | `C104_threshold_refuted` | `set_mmap_threshold(0)` is ignored, although 0 means that no data is to be loaded in memory |
| C106 unused functions | `C106_nonempty_refuted`, `C106_sorted_refuted` | `search_general` searches layer 0 even if it is empty; `from_negative_binaryheap_to_sorted_vector` iterates the heap, which is not sorted, contrary to its comment |
| C107 memory reserved | `C107_increasing`, `C107_total_refuted` | line 454 computes `exp(-i/s) - (-(i+1)/s)` where `exp(-i/s) - exp(-(i+1)/s)` is meant: the reservation of layer `i` is about `(i+1) ln(m) max_elements`; with 16 layers and `m = 24` more than 400 times `max_elements` slots of 8 bytes |
| C108 iteration during insertions | `C108_refuted`, `C108_panic_refuted` | `next` reads the entry point at the end of each layer: a point of a higher layer whose insertion is not finished is left out; during the first insertion `unwrap` panics |
| C129 flattening during insertions | `C129_refuted`, `C129_panic_refuted` | the same iterator: such a point is unknown to the result; during the first insertion it panics |
| C109 directories | `C109_refuted`, `C109_exit` | `from_hnswdump` pushes the directory twice (datamap.rs 49-50): for a relative directory `data` the map looks for `data/data/x.hnsw.graph` and ends the process if it is not there |
| C111 insertions after a reload | `C111_levels_refuted` | the number of layers of the table is the one of the file, the level generator draws up to 15 (hnswio.rs 646-656, 771-777): a file with four layers is accepted and a later insertion panics by an index out of bounds |
| C111 insertions after a reload | `C111_nan_refuted` | a file with a NaN for distance of a link is accepted; a later insertion sorts the list with it (hnsw.rs 1255), which the documentation of `sort_unstable` allows to panic |
| C132 work of a search after a reload | `C132_bound_refuted` | `max_nb_connection` and the lengths of the lists are read from the file and not compared (hnswio.rs 560-760), so that a search may compute more distances in its descent than `max_nb_connection` allows |
| C133 answers after a reload | `C133_whole_refuted` | `load_hnsw` does not check that links are mutual or that points can be reached (hnswio.rs 560-760): after a changed byte of the graph file, a search for the four points of the index finds one |
| C134 a parallel insertion is equivalent to some sequential one | `C134_links_refuted`, `C134_entry_refuted` | a point is put in the table before it is linked (hnsw.rs 1060-1062) and searches of other threads do not see it before its first reverse link: two close points inserted together need not link to each other; the entry point is changed last (hnsw.rs 1190), so that the second point of a layer may become the entry point |
| C135 the memory of a search is bounded by the size of the index | `C135_refuted` | `search_layer` reserves both heaps for `max(ef, knbn)` elements before it looks at the number of points (hnsw.rs 929-931, 949-950, 1506): asking for `usize::MAX` neighbours panics, 10^10 neighbours reserve 160 GB, even in an index of one point. `C135_clamp` shows that a minimum with the number of points plus one would change no answer. |
| C136 insertions work whatever `ef_construction` | `C136_refuted`, `C136_panics`, `C136_blind` | `search_layer` reserves `ef_construction` elements (hnsw.rs 929-931, 1137): from `2^60` on each insertion but the first panics, after its point has been put in the table (1060-1062); the point is counted and dumped but never found. `Hnsw::new` and `load_hnsw` accept such values. |
| C137 `dump_layer_info` never panics | `C137_no_layer_refuted` | `Hnsw::new` accepts `max_layer = 0` (hnsw.rs 775); layer 0 is indexed without a test (487-491). |
| C138 a reload asks for no more memory than the size of the files justifies | `C138_refuted` | `load_point_indexation`, `load_point_graph`, `load_point_data`, `skip_point_data` and `from_hnswdump` reserve what the file announces before reading it (hnswio.rs 669, 1259, 1153, 1208; datamap.rs 202): one damaged byte aborts the process or panics, also where the next read would give `Err`. |
| C140 `from_hnswdump` computes the same in debug and release builds | `C140_refuted` | the size of a record `20 + dimension * size_of::<T>()` (datamap.rs 153-155) wraps in release builds for a forged dimension: `2^64 - 1` for bytes gives records of 19 bytes, and `from_raw_parts` (208) with that dimension is undefined behaviour; `2^64 - 20` divides by zero (163). |
| C141 a reload gives the same in debug and release builds | `C141_refuted` | a graph file that announces `2^63` points makes `nb_still_to_load` the least `i64`; `-= 1` (hnswio.rs 713) panics in debug builds, in release builds it wraps to `2^63 - 1`, the assertion (714) holds and the file is accepted; with a map the first point alone is then read into memory. Dimensions: see C140. |
| C114 links of every point | `C114_refuted` | two insertions in parallel in an empty index: the thread that becomes entry point and the thread of rank 1 both return without linking (hnsw.rs 1066-1086): two points without any link |
| C109 | `C109_no_dir` | `file_dump` in a directory that does not exist panics instead of returning `Err` |
| C118 drop after a reload | `C118_refuted` | the destructor stops at the level of the entry point (hnsw.rs 428-434), which a reload takes from the file (hnswio.rs 739-762) without comparing it with the levels of the points: the points above keep each other alive |
| C119 dump again | `C119_refuted` | a reload calls `new_with_scale` with the dumped scale as a factor (hnswio.rs 773-777, hnsw.rs 337-349), so the scale in the header of the next dump is the product with the default scale |
| C121 fewer neighbours | `C121_refuted` | `ef = max(ef_arg, knbn)` (hnsw.rs search_filter): asking for more neighbours than `ef_arg` widens the search and can change the first answer |
| C125 dump during insertions after a reload | `C125_unreadable_partial` and the example after it | as for C87: `get_nb_point` is called before the table is locked (hnswio.rs 1366-1387) |

Other observations made while reading:

* A dump writes over the files of the previous one from its first operation on and never renames: if it is
  killed both the old and the new index are lost (example beside C88; C49).
* `file_dump` may return `Err` although both files are complete: the drop of the `BufWriter`s writes again.

* A file damaged in the right places may be reloaded without error, with other vectors or links
  (examples beside C73 and C75): nothing in the format detects it.
* C90 tells exactly which files are accepted. The ids stored with the links and with the entry point are
  read and dropped: only positions count, so a reload does not notice that they are wrong.
* With a memory map bytes after the last record of the data file are accepted only if they are fewer than a
  record has, even if no point is mapped (example beside `C90_accepted_mapped_partial`).
* In `DataMap::from_hnswdump` the product of dimension and element size may overflow for a forged file;
  C76 excludes it, C140 treats it.
* `load_hnsw` marks every index it returns as mapped, so that each later dump looks for a new name.
* `check_graph_equality` (test helper) locks entry point then table, `dump` the other way round: with two
  insertions waiting for these locks, a check and a dump can block each other.
* `check_graph_equality` tests the first entry point twice instead of both; two empty indexes make it panic,
  as do indexes created with `max_layer < 16` (example beside C93).
* With ties of distance a larger `ef` may give a worse answer (`C91_ties_needed`).
* `DataMap::from_hnswdump` fails for `NoData`; with a map the reload of the graph only panics.

## 6. Mutation tests

`seeded/LOG.jsonl` has one line per wrong program. Each edit was made in a copy of `lean/` outside this
directory, and the copy was built.

* `definition`, `edit`, `old`, `new`: what was changed. `claim_broken`, `properties`: the English claims that
  are false (or were thought to be) for the wrong program.
* `first_failures`: the declarations whose proofs no longer compile. `theorems_failed`: the theorems of
  `MANIFEST.json` that depend on one of them.
* A failing lemma does not tell that the theorem is false. So `statement_check` says whether instances of
  the *statements* fail on concrete cases for the wrong program.
* `rerun`: for edits whose failures hide each other, the failing proofs were replaced by `sorry` in the copy
  and the build was continued; these are all the failures.
* `theorems_tightened`: theorems that were added or made stronger because the edit was not noticed, or only
  by a proof that could have been repaired.
* `note`: among others, edits that turned out to be equivalent to the program.
