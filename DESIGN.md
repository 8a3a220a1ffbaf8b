# Formal model of LibGeoDecomp – design

All Lean code lives in `lean/Verif/`. Each sub-directory holds
* `*Model.lean` – definitions that follow the C++ function by function (each with a file/line citation),
* helper lemma files,
* `Props/Cxx.lean` – property theorems, separate from lemmas, with non-vacuity examples.

## Trusted base

* The Lean 4.33.0 kernel; the axioms `propext`, `Classical.choice`, `Quot.sound` only (checked by `#print axioms`).
* The reading of the C++ text: the theorems are about the model. The C++ is never executed here.
* `std::vector`, `std::upper_bound`, `std::lower_bound`, `std::sort`, `std::set`, `std::map` are modelled by their
  standard specification (e.g. `upper_bound` on a sorted range = number of leading elements that are not greater).
* C++ `int` is modelled by unbounded `Int`, `std::size_t` by `Nat` (or `Int`), so the theorems hold for inputs where no
  intermediate result overflows. Floating point is modelled by exact rationals where it appears, or by
  rationals with IEEE 754 rounding and gradual underflow (`Ieee/RoundModel.lean`), as noted per property. Overflow and NaN are not
  modelled unless noted.
* MPI point-to-point operations follow `Comm/MpiModel.lean` (what the standard promises: messages of one channel do not
  overtake each other, a pending operation owns its memory, any message may be buffered or not); other properties only
  use message order per link (FIFO).
* HPX: tasks run at any time after their futures are ready, messages arrive at any time in any order, `receive_buffer` and
  `sliding_semaphore` as described in `Hpx/DataflowModel.lean`.
* Not modelled: the remainder of the HPX/CUDA runtimes, serialization, threads, memory allocation,
  SIMD/SoA layouts, logging, profiling, CUDA simulators, file formats.

## General modelling decisions

* A coordinate is a function `Nat → Int` (axis ↦ component); axes ≥ DIM are ignored. This makes all region code
  generic in DIM and the C++ cases DIM = 1, 2, 3 are instances.
* Loops become structural recursion, folds, or fuelled recursion together with a termination theorem.
* Undefined behaviour (dereferencing `end()`, index out of range), exceptions and non-termination are distinct outcomes
  (`Option`/`Except`/inductive results) where the code can reach them.

## Per property plan

| id | what is modelled | how it is proved |
|----|------------------|------------------|
| C01 | `Region` index vectors per level, insert/remove/lookup helpers with start/end offsets | index-vector level refined by a nested tree (encode), tree level by sets, induction over histories |
| C02 | `operator==` on index vectors | canonical form invariant; uniqueness of canonical trees |
| C03 | the two-cursor loops of `-`, `&`, `+=`, `merge2way`, `merge3way` on streak lists | loop invariants over streak lists |
| C04 | lazy geometry cache as state | invariant over all interleavings |
| C05 | streak iterator as tuple of positions | simulation of iterator against flattened tree |
| C06 | `operator[](size_t)`, `planeStreakIterator` | same |
| C07 | `streakIteratorOnOrAfter` | proved for 1D/2D; 3D branch is wrong: negation by witness |
| C08 | `expand`, `expandInOneDimension` | loop invariant (width = covered window) |
| C09 | `splitStreak`, `trimStreak`, `normalizeStreak` | per-streak set equation; needs width ≤ dim on periodic axes (negation otherwise) |
| C10 | BFS passes of `expandWithAdjacency` | induction over width |
| C11 | region list, limits, split | refinement to edge set |
| C12 | box iterators | hang for zero extents: negation by witness; positive theorem otherwise |
| C13 | `wrap`, `OutOfBounds`, `normalize`, `locate` | arithmetic |
| C14 | `toIndex`, `indexToCoord` | arithmetic, div/mod |
| C15 | striping partition | refinement to index intervals |
| C16–C18 | recursive curve traversals as stack machines | structural induction on boxes; H-indexing random access refuted by witness |
| C19 | recursive bisection | recursion with termination argument; zero weights: non-termination witness |
| C20 | checkerboarding | factor loop, interval products |
| C21, C22 | ghost zone construction | set algebra over abstract expansion operator |
| C23 | offset helper per axis | arithmetic |
| C24, C25 | patch buffers/links as state machines | invariants over histories |
| C26 | vanilla stepper phases over abstract grids | phase invariant, induction on steps |
| C27, C28 | request sets of adapters | invariant, induction on steps |
| C29 | event map | invariant on event map |
| C30 | serial simulator double buffering | refinement to iterate |
| C31 | striping simulator as product of ranks | global invariant |
| C32 | load balancers over rationals with a rounding function, IEEE rounding | sum invariants, error bounds |
| C33 | grid vectors with topology | refinement to maps |
| C34 | line pointer assembly and neighborhood access | case analysis |
| C35–C40 | containers | refinement to lists/maps |
| C43 | N steppers (C26) with regions of the partition managers (C21, C22) and links (C25) as a transition system | global invariant over all interleavings |
| C45 | neighborhoods of unstructured grids, iterators | offsets computed like getRow's (C38), chunk layout (C38), loop peeling (C40) |
| C46 | unstructured grid, update functor, serial simulation | refinement to cells indexed by logical IDs, using C38, C39, C45 |
| C44 | serial and striping simulators, re-run | serial: refinement; striping: negation by witness |
| C47 | SoAGrid: memory with padding, index computation, SetContent, streak/region/member access | well-formedness invariant (sizes, padding holds the edge cell); every operation is a list of writes to logical cells, replayed on reads; witnesses for deviations |
| C48 | SoA update: flags, peeled first/last cell of a streak, FixedNeighborhood offsets | neighbor index equals the index of the wrapped coordinate (or lies in the padding); streaks split into first, middle, last; effects composed as in C47; witnesses for deviations |
| C49 | `Store/ThreadModel.lean`: the tasks created by the selector macros (planes via iterators, tranches with truncating `%`), the update of single cells as steps, interleavings as an inductive relation, on top of the grids of C33/C34 | planes and tranches tile the streaks of the region (iterator positions, induction over the loop); a body equals the sequence of its steps; each step equals a cell update which reads the old grid and writes its own location, so that any permutation of steps yields the same memory; witness for negative coordinates |
| C50 | IO/FileModel | all writes agree with one ideal file, hence their order is irrelevant; streak-wise reads against the row-major index; negation theorems for boxes across the periodic border (reading: wrong cells, writing: out of bounds) and for padded cells read with a different decomposition |
| C51 | IO/FileModel | all writes agree with the ideal brick; rows of the bounding box partition the cell vector; negation theorems for array members (truncated) and for the member pointer constructor (communicator not initialized) |
| C52 | small-step semantics of MPI point-to-point operations with request ownership of memory; programs of the ranks | confluence: one canonical schedule decides all executions; invariants over pairs of ranks and calls |
| C53 | the same semantics; buffer, global grid, delegate calls as events | confluence; invariants over senders and rounds; painting of regions as reference |
| C54 | transition system of all tasks: construction, launching of chunks, semaphore, `setupDataflow`, `receive_buffer`, updates, messages in flight | inductive invariant with auxiliary state relating it to the synchronous simulation; progress from the minimal outstanding update; decreasing size; negations by constructed executions and by invariants |
| C55 | `MeshlessAdapter` over rationals, on top of the `Grid` model with topologies | floors of close numbers differ by at most one, also across periodic borders; invariant on the contents of all container cells; smallest image distance; loop bounds for back-off and bisection |
| C56 | programs of the ranks (links charged, stepper created, put/get at synchronisation points, cleanup, destructors) in the small-step MPI semantics; `VanillaStepper` from C43 as local computation | one round-robin execution is constructed from a view per link and rank; confluence extends it to all executions; result by refinement to the invariant of C43 |
| C57 | `Hpx/GroupModel.lean`: state of all groups, parcels underway and receive buffers; steps for start-up, arrival of any parcel and nano steps with any order of steerers | invariant: unconsumed patches are underway or in the receive buffer in some order, counters add up to the number of steps; refinement to the cluster of C43; progress via the slowest group |
| C58 | `Tune/ParamModel.lean`: parameters with index and value, names, references; the loops of PatternOptimizer with a record of all evaluated points | clamping lemma; values on a grid, where steps of one granularity can be undone; loop invariants; measure for the end; explicit cycle for plateaus |
| C59 | `Tune/SimplexModel.lean`: vertices with fitness and sentinel, all moves, restart, convergence test; record of evaluated and of dropped points | index of worst and best vertex by induction over the folds; replacing the worst vertex keeps the maximum; merging the best vertex with itself is the identity on a grid |
| C60 | `Tune/AutoModel.lean`: proxy with 32 bit arithmetic, registry of factories, step normalization, tests with both optimizers, choice of the best simulator; existence of writers | fitness of both optimizers never exceeds the bound of the evaluator (invariant of the searches); fold of the choice; induction over deletions |
| C61 | `Cuda/KernelModel.lean`: addresses, launch configuration, kernels thread by thread as lists of updates with their corrections for periodic axes, execution with bounds checks; `Cuda/SimModel.lean`: device and host grids, steerers, writers | closed form of the updates of all threads as list of cells, injective addresses; neighbors' addresses by case analysis per axis; invariant of the simulation's loop |
| C62 | `Mesh/PolytopeModel.lean`: planes, cut points with the sentinel and range checks, insertion, diameter, cells of the mesher; `Mesh/ShapeModel.lean`: angles and the map of getShape; exact arithmetic | first plane hit by a ray, bounds of edges by their cut points, convexity; invariant of insertions: inner point, bounded, no limit without points on the boundary |
| C63 | `Store/SelectorModel.lean`: memory as bytes, pointers as indices, all filters as loops, constructors of Selector, loops over streaks in Grid and SoAGrid, registration of members | transfers between lists of byte addresses, composed along loops, buffers and streaks; induction on the nesting of selectors |
| C64 | `Part/ScotchModel.lean`: construction of the graph, loop of createRegions with the value behind the array as a parameter, single-precision arithmetic, exchange of fragments on top of the MPI semantics | loop invariants over runs of cells; counting of edges; one complete run of the exchange plus confluence; monotonicity of rounding |
| C65 | `Comm/LayerModel.lean`, `Comm/LayerVec.lean` | Prefix sums and placement by induction over ranks; an invariant of all histories which relates handles, live requests and events; order of messages on one channel via the MPI semantics of C50ff. |
| C66 | `Image/ImageModel.lean` | Loop invariants for the pixels; a reader defined from the format; insertion into sorted maps; the hue as a function of the position. |
| C67 | `Store/CudaGridModel.lean` | Refinement: each operation commutes with the map to the model of `Grid` (C33), whose theorem on histories is transferred. |
| C68 | `Chrono/ChronoModel.lean` | A trace semantics in which each piece of work carries the open timers; induction over programs; linear inequalities between open timers carry over to totals. |
| C69 | `Text/TextModel.lean` | Sorted sets with the same members are equal, so both position sets are known; induction over the delimiters' positions against an inductive description of splitting, which is unique. Everything else composes from that. |
| C70 | `Sim/OmpModel.lean` | Executions are relations; an induction over loops shows that they're functional and agree with the serial model. For parallel loops over steerers, an access of one program commutes with everything the others do, so the sequential result is an invariant of interleavings. |
| C71 | `Ieee/RoundModel.lean`, `Mesh/MesherModel.lean` | Rounding to nearest even is defined on rationals and proved to be monotone, exact on doubles and nearest; loops by induction. Containment needs only monotonicity and exact halves, distances need the relative error of differences. |
| C72 | `Misc/RandomModel.lean` | Loop invariant of the in-place reload with three moving pointers, refinement of an infinite sequence defined by the published recurrence; all reachable states by induction; injectivity of tempering and of the recurrence bit by bit. |
| C73 | `Unstr/SoaGridModel.lean`, on top of `Store/SoaModel.lean` and `Store/GridModel.lean` | Simulation of the two grid classes by the history theorems of C33 and C47; negations outside the nodes, for resize and for the comparison. |
| C74 | `Sim/CacheBlockModel.lean` | Lexicographic order of the tasks of the three loops, planes per stage by induction, residues of buffer slots; loop invariant of run. Negations for the planes which are really written. |
| C75 | `Store/SoaVectorModel.lean` | Simulation between memory, dimension and extent on the one hand and a list on the other, by induction on the history; growth by 1.2 with IEEE doubles. Negations for small reservations, small extents, elements which reappear and copies. |
| C76 | `Store/LoopPeelModel.lean` | Closed form of the three loops by induction on the number of passes, truncated remainders. Negations for ends before the next multiple and for negative ends. |
| C77 | `Store/AllocModel.lean` | Invariant between chunks, arrays and the bytes of stored pointers, for arbitrary answers of the system allocator and arbitrary writes to arrays. Negations for alignments below 4 and for overflow. |
| C78 | `Misc/TestCellModel.lean` | Simulators as terms built of initial cells and updates; structural induction shows that validity of the test cell determines the value for any model. Positions by induction along axes with constant boundaries. Negations for positions, tori and overflow. |
| C79 | `Store/SoaArrayModel.lean` | Refinement of programs to a bounded list by induction (including states after exceptions); loops of load by induction on the count; negations with witnesses or for whole classes of arguments. |
| C80 | `Hpx/StartModel.lean` | Transition system of all localities and remote actions; inductive invariant for agreement, case analysis for progress, strictly increasing bounded rank for termination. Lists of indices by induction. Negation for repeated names. |
| C81 | `Misc/UTestCellModel.lean` | Simulators as terms; structural induction over them shows that validity of the test cell determines the value for any model. Rows by induction up to permutation. Negations with witnesses. |
| C82 | `Store/MultiCellModel.lean` | Loop invariant for one container, induction over members; negation for insertions into members declared later. |

The section at the end lists the state of each property.

## Status per property

| id | status | theorems | remarks |
|----|--------|----------|---------|
| C01 | proved | `C01.region_is_set` | All dimensions, all histories; index-vector level algorithm modelled. |
| C02 | proved | `C02.region_eq_iff`, `C02.region_row_canonical` | Equality of index vectors iff equal sets. |
| C03 | proved | `C03.set_algebra`, `C03.set_algebra_eq` | Arbitrary nested expressions over insert, remove, +, +=, -, -=, &, &=; the two-cursor loops, merge2way, merge3way and the append shortcut are modelled. Iterators are represented by the streak lists that C05 proves they deliver. |
| C04 | proved | `C04.cache_correct`, `C04.card_unique` | Programs over several regions with interleaved insert, remove, clear, copy, +, -, & and queries. |
| C05 | proved | `C05.streak_iteration`, `C05.coord_iteration` | Iterator state machine (one position per level) modelled; streak and coordinate iteration terminate, are complete, ordered and duplicate-free. |
| C06 | proved | `C06.index_access`, `C06.plane_access` | operator[] and planeStreakIterator. |
| C07 | partial | `C07.finds_first_partial`, `C07.finds_first_1d_2d`, `C07.not_finds_first_3d` | Proved in full for 1D and 2D. The 3D branch is wrong in the code (region.h:1402-1412): not_finds_first_3d is the negation; finds_first_partial covers 3D queries that do not run past the end of a plane. |
| C08 | proved | `C08.expand_neighborhood`, `C08.expand_expand` | All dimensions, all non-negative radii; tripling loop and both final merges modelled. |
| C09 | partial | `C09.expandWithTopology_partial`, `C09.inside_and_extensive`, `C09.cube_expansion`, `C09.wide_expansion_wrong` | Any combination of periodic and constant axes, provided width does not exceed the extent of any periodic axis; wide_expansion_wrong proves that the statement fails beyond (2x2 torus, width 3 yields coordinates outside the grid). |
| C10 | proved | `C10.adjacency_khop`, `C10.adjacency_add` | Arbitrary adjacency function; the incremental re-expansion of only new nodes is modelled. |
| C11 | proved | `C11.adjacency_correct` | All insertion histories and split thresholds; nodes must fit below Limits<int>::getMax(). std::lower_bound and std::sort are modelled by their specification. |
| C12 | partial | `C12.coords_partial`, `C12.streaks_partial`, `C12.coords_zero_extent_hangs`, `C12.streaks_zero_extent_hangs`, `C12.bounds_checks` | All dimensions. The statement holds unless a non-last axis (streak iteration: an inner axis) has extent 0 while the last one has not; then the iteration never terminates (proved: *_hangs). |
| C13 | proved | `C13.normalize_spec`, `C13.marker_distinct`, `C13.locate_spec`, `C13.torus_periodic`, `C13.normalize_two_periods` | Any set of periodic axes; normalize in any dimension, locate in 1D-3D. normalize_two_periods shows that the one-period hypothesis is needed. |
| C14 | proved | `C14.index_bijection` | 1D, 2D, 3D; integers are unbounded (no overflow). |
| C15 | proved | `C15.striping_partition`, `C15.unstructured_striping`, `C15.striping_overflow` | 1D to 3D, all boxes with non-negative extents; the weights must fit into the grid (offset + sum <= volume), striping_overflow shows that the hypothesis is needed (the iterator does not saturate). |
| C16 | proved | `C16.traversal`, `C16.partition`, `C16.morton` | All dimensions, cache off or filled for any maximum dimension; on cubes with power-of-two edges the order is the Morton order. int/unsigned overflow is not modelled. |
| C17 | proved | `C17.traversal`, `C17.partition`, `C17.continuous` | Any cache size (17 in the code), all 2D boxes; on power-of-two squares consecutive coordinates are neighbors. int/unsigned overflow is not modelled. |
| C18 | partial | `C18.traversal`, `C18.random_access_partial`, `C18.partition_partial`, `C18.random_access_wrong`, `C18.partition_wrong` | Sequential iteration is proved for all boxes and cache sizes. Random access (and hence getRegion) is wrong in the code for narrow boxes (random_access_wrong, partition_wrong: digDownTrivial ignores the counter for the cursor); it is proved for boxes with both extents >= 2 and aspect ratio at most 4. The memoisation of triangle lengths is not modelled. |
| C19 | partial | `C19.cuboids_partial`, `C19.regions_partial`, `C19.exactRound_rounds`, `C19.zero_weight_overlap`, `C19.zero_weight_hangs`, `C19.flat_cuboid_hangs`, `C19.doubleRound_rounds`, `C19.cuboids_double_partial` | All dimensions, all positive weights, any rounding of the floating point ratio that stays within [0, extent]; exact rounding does, and IEEE double arithmetic does for all extents which fit an int (doubleRound_rounds). The claim is false of the code for weights 0: zero_weight_overlap (two nodes own the same cells) and zero_weight_hangs (infinite recursion); in 3D a flat cuboid hangs in the Region insertion (flat_cuboid_hangs). |
| C20 | partial | `C20.node_grid`, `C20.cuboids`, `C20.regions_partial`, `C20.regions_2d`, `C20.flat_cuboid_hangs` | 2D in full; 3D: the cuboids always tile the grid, the regions do if the y-extent is at least the number of nodes (otherwise inserting a flat cuboid may hang: flat_cuboid_hangs). The floating point sqrt is an arbitrary limit. |
| C21 | proved | `C21.fragments_match`, `C21.fragments_exact`, `C21.outer_rim_covered` | Any neighborhood relation; instances proved for structured topologies (any wrapping, any dimension; ghost zone width at most the extent of a periodic axis) and unstructured grids. Bounding box prefilter, region cache, erasure of empty entries and outgroup fragments are modelled; MPI allGather is modelled as a list of boxes. |
| C22 | partial | `C22.own_regions`, `C22.rim_and_kernel_partial`, `C22.nesting`, `C22.inner_sets_own_partial`, `C22.inner_ghosts_in_rim_partial`, `C22.volatile_kernel`, `C22.local_adjacency_wrong` | Structured topologies in full (ghost zone width at most the periodic extents); unstructured grids if the width is 1 or the adjacency lists the whole graph. With an adjacency restricted to the given region, as the interface documents, the rim is too small for widths above 1 (local_adjacency_wrong). inner_sets_own_partial needs a symmetric neighborhood. |
| C23 | proved | `C23.offset_fits`, `C23.unstructured_offset_fits` | All dimensions, all combinations of periodic and constant axes; regions inside the simulation area. Gap search via Region insertion and intersection is modelled. |
| C24 | proved | `C24.patchbuffer_queue`, `C24.patchbufferfixed_queue`, `C24.patchbuffer_history`, `C24.patchbufferfixed_history`, `C24.unordered_requests_wrong` | All call histories whose requests go forward in time (unordered_requests_wrong shows the hypothesis is needed). Grids are functions, regions duplicate-free coordinate lists. |
| C25 | proved | `C25.patches_match`, `C25.all_steps`, `C25.progress` | Labelled transition system of accepter, provider and MPI; both protocols. MPI is modelled by FIFO matching per link; reading of send buffers and delivery happen at arbitrary times. One charge per link; the INT_MAX check for buffers is not modelled. |
| C26 | proved | `C26.stepper_serial`, `C26.stepper_own`, `C26.order_of_events` | Any regions satisfying the interface of C22, any local update function, any cell-wise steerers with positive periods (adapters of C28 for rim and inner set); buffers are the PatchBufferFixed of C24. The update of a region is cell-wise (C34). Writers see the initial grid after, all later grids before the steering of that step. |
| C27 | proved | `C27.writer_calls`, `C27.writer_silent` | adapter notified about consecutive nano steps (as C26 proves of the stepper): exactly the due calls; a single ALL_DONE call if first = last |
| C28 | proved | `C28.steerer_calls` | adapter notified without gaps, possibly repeatedly; step numbers unbounded |
| C29 | proved | `C29.step_events`, `C29.run_events`, `C29.run_nothing`, `C29.after_end_undefined` | event loop of HierarchicalSimulator/HiParSimulator: exact positions of load balancing events, end at maxSteps; calls after the end are undefined behavior |
| C30 | proved | `C30.run_serial`, `C30.step_serial`, `C30.run_after_steps`, `C30.no_allDone` | exact grid, writer calls and steerer calls of run() and of k calls of step(); hypothesis: steerers do not write outside of the simulation area (e.g. the edge cell: only one of the two buffers would change) |
| C31 | proved | `C31.stripes`, `C31.step_serial`, `C31.run_serial`, `C31.nano_serial`, `C31.progress`, `C31.step_progress`, `C31.completes`, `C31.messages_match`, `C31.ghost_sizes`, `C31.invalid_balancer`, `C31.second_run_differs`, `C31.grid_ok`, `C31.grid_run` | Any interleaving of the ranks' nano steps and messages; generic grids plus an instance for structured grids of any dimension and topology (grid_ok, grid_run). Holds for runs from a freshly constructed simulator; second_run_differs proves that a second run() reads stale ghost zones. |
| C32 | partial | `C32.initialWeights_sum`, `C32.initialWeights_zero`, `C32.initialWeights_none`, `C32.ooze_sum`, `C32.ooze_returns`, `C32.random_sum`, `C32.random_exact`, `C32.random_overflow`, `C32.bias_sum`, `C32.noOp_sum`, `C32.initialWeights_double`, `C32.ooze_throws`, `C32.random_double` | doubles are rationals with a rounding function; IEEE 754 rounding with gradual underflow (no overflow) in the theorems named _double. initialWeights: proved for up to 2^51 items. RandomBalancer: proved for items * (ranks + 3) <= 2^52; beyond, random_overflow tells what happens. OozeBalancer: in exact arithmetic it never throws, for any rounding the result is right if it returns, but with doubles it throws std::logic_error for valid loads (ooze_throws, default newLoadWeight, weights 3 0 1, loads 1 0 0.5), which violates the property. |
| C33 | partial | `C33.history`, `C33.fresh`, `C33.streak_reads`, `C33.save_spec`, `C33.roundtrip`, `C33.displaced_plain`, `C33.displaced_write_read`, `C33.displaced_save`, `C33.displaced_load`, `C33.displaced_streak_partial`, `C33.displaced_streak_partial_negation`, `C33.displaced_save_partial_negation` | Grid: all histories of cell, streak, region and edge writes; region transfer between grids. DisplacedGrid without topological correctness: the same at displaced coordinates. DisplacedGrid with it: cell accesses, saveRegion and loadRegion for regions of cells stored in the grid, streak accessors within the box. The code deviates from the property: streak accessors do not normalize (displaced_streak_partial_negation), and saveRegion loses cells of a row after a streak outside (displaced_save_partial_negation). |
| C34 | partial | `C34.update_grid_partial`, `C34.update_displaced_partial`, `C34.stencils`, `C34.source_offset_negation` | Radius 1 stencils (Moore, von Neumann, 1-3 dimensions), any topology, Grid and DisplacedGrid; one result for the vanilla and the line pointer path. The line pointer path ignores sourceOffset when it assembles pointers (witness: source_offset_negation), so it is covered for offset 0 only; streaks must not cross the border of a displaced grid on a periodic x axis. Serial loop over streaks; updateLineX is assumed to equal the loop over update. SoA grids and threading variants are not covered here. |
| C35 | partial | `C35.history_partial`, `C35.construct`, `C35.concatenation`, `C35.comparison`, `C35.append_self_negation`, `C35.unchecked_size_negation` | Any history of push_back, +=, erase/remove, element assignment, clear, reserve, resize. The code violates the property for a += a (always throws unless empty, after filling the array), and the constructor and resize(negative) do not check the size; both are proved as negations and excluded from history_partial. Capacity below 2^31 (template parameter of type int). |
| C36 | proved | `C36.history`, `C36.neighborhood`, `C36.update` | Any history, any key order, any capacity (below 2^31). std::upper_bound is modelled by its contract. The cargo's update function is a function of lookups and its own value (no side effects). |
| C37 | proved | `C37.gather`, `C37.conservation`, `C37.update`, `C37.update_later`, `C37.two_boxes_negation` | 1D to 3D, any topology, any capacity, any number of particles. Positions are elements of a linear order with an addition; the boxes are assumed to fit together (origin + dimension of a box equals the origin of the next one), which rounding in user code could violate. With fewer than three boxes on a periodic axis particles are duplicated (two_boxes_negation). |
| C38 | partial | `C38.stores_partial`, `C38.presorted`, `C38.sigma_one`, `C38.layout`, `C38.comparison`, `C38.comparison_same`, `C38.getRow_negation`, `C38.reinit_negation`, `C38.equality_negation`, `C38.padding_negation`, `C38.empty_negation` | SIGMA = 1 and presorted matrices: the full statement is proved (sigma_one, presorted). For SIGMA > 1 the full statement is false: getRow takes the physical row (getRow_negation); stores_partial proves that the rows are all there, permuted inside their sorting scope. Comparison, chunk layout proved; deviations of re-initialization, operator== and the empty container proved as negations. |
| C39 | partial | `C39.history_partial`, `C39.readers`, `C39.weights`, `C39.unknown`, `C39.edge_negation`, `C39.matrices_negation`, `C39.offset_negation`, `C39.negative_negation` | Proved for arbitrary histories of set, setEdge, loadRegion, setWeights on known nodes (AoS delegate). False in the code and proved so: setWeights loses the edge cell and all other matrices, saveRegion/loadRegion ignore the offset, node sets with negative IDs only have undefined behaviour in saveRegion, set of an unknown node and get beyond the largest node are undefined. Not modelled: the struct-of-arrays delegate grid. |
| C40 | partial | `C40.visits`, `C40.exact_partial`, `C40.overshoot_negation` | Proved for all streaks which begin at a chunk boundary or reach the next one (exact_partial); visits characterizes the processed cells for all streaks, arities and offsets. The full statement is false for streaks inside of a single chunk: the prologue runs to the end of the chunk (overshoot_negation). |
| C41 | proved | `C41.stencil_sum`, `C41.moore_eq_expand` | The stencil is an arbitrary list of relative coordinates. |
| C42 | partial | `C42.box_insert_remove_partial`, `C42.box_insert_remove_low_dim`, `C42.box_insert_hangs` | Complete in 1D and 2D. In 3D the y extent must be positive (or z zero); otherwise the code loops forever (box_insert_hangs). |
| C43 | proved | `C43.distributed_serial`, `C43.distributed_shown`, `C43.never_throws`, `C43.slowest_ready`, `C43.completes`, `C43.starts`, `C43.pmCluster_ok`, `C43.structured_distributed` | Composition of C21, C22, C24, C25 (links as FIFO lists), C26 and C28 (steerers); any symmetric neighborhood relation that satisfies the interface of C21/C22, structured_distributed is the instance for structured grids. One update1 is atomic; steerers are cell-wise functions. |
| C44 | partial | `C44.rerun_partial`, `C31.second_run_differs` | Proved for SerialSimulator and any history of calls; StripingSimulator violates it (second_run_differs is the negation with a witness). |
| C45 | proved | `C45.cell_weights`, `C45.cell_row`, `C45.chunk_weights`, `C45.streak`, `C45.padding_harmless`, `C45.add_negation` | add_negation: operator+= of UnstructuredNeighborhood (not used by the library's update functor) does not update the chunk. |
| C46 | proved | `C46.update`, `C46.serial`, `C46.reweigh_negation` | Array-of-structs grid, no threading, one matrix used by the cell. Order of neighbors is unspecified (sorted by physical position), so the run theorem is for update functions of the multiset of neighbors. reweigh_negation: a steerer that sets new weights during a run corrupts the simulation, since only the current grid gets the new layout. |
| C47 | proved | `C47.history`, `C47.fresh`, `C47.resize_spec`, `C47.streak_reads`, `C47.save_spec`, `C47.save_member_spec`, `C47.load_short`, `C47.roundtrip`, `C47.roundtrip_member`, `C47.region_wrap_negation`, `C47.plain_wrap_negation`, `C47.streak_padding_negation` | One list of cells instead of one array per member; buffers are lists of cells. region_wrap_negation: saveRegion and friends never wrap coordinates, even for topologically correct grids. plain_wrap_negation: other grids don't wrap single cells either, so accesses leave the memory. streak_padding_negation: a streak written beyond a constant boundary destroys the padding. |
| C48 | partial | `C48.update_partial`, `C48.update_dims`, `C48.mixed_negation`, `C48.radius_negation` | update_partial holds unless one of the two deviations applies. The cell's updateLineX is assumed to be a loop over the cells of the line; no threading. Preconditions include that neighbors are stored in the old grid. mixed_negation: with periodic and constant axes and topological dimensions, a streak starting in the last column loses its wrapping and leaves the memory. radius_negation: stencils of radius 2 do not wrap. |
| C49 | partial | `C49.body_steps`, `C49.tasks_partial`, `C49.granularity`, `C49.threads_grid_partial`, `C49.threads_displaced_partial`, `C49.fine_negation` | Partial because the code violates the claim: fine grained parallelism updates cells outside of the region if x coordinates are negative (`fine_negation`), so that `_partial` theorems require x ≥ 0 and a granularity > 0 in that mode. Memory is sequentially consistent at the level of cells, which is justified by the proved absence of write conflicts; the source grid is assumed to be a different object than the target. AoS grids only. |
| C50 | partial | `C50.parallel_snapshot`, `C50.metadata`, `C50.restart_partial`, `C50.checkpoint_restart_partial`, `C50.serial_roundtrip`, `C50.restart_partial_negation`, `C50.padding_negation`, `C50.parallel_snapshot_negation` | Restart is proved for boxes which do not cross the periodic x border and for unpadded cells; for the remaining cases the code is wrong, which the negation theorems show with witnesses. MPI-IO itself is modelled by positions and transferred bytes; I/O errors and overflow of offsets are not. |
| C51 | partial | `C51.parallel_brick_partial`, `C51.serial_brick`, `C51.parallel_eq_serial_partial`, `C51.gridMembers_get`, `C51.dispMembers_get`, `C51.arity_negation`, `C51.member_negation` | Positive results for BOVWriter are restricted to arity 1 and the selector constructor, as the code is wrong otherwise (negation theorems). The text header is not modelled. |
| C52 | proved | `C52.parallelMemoryWriter_gathers`, `C52.overlapping_regions_race` | proved for every interleaving and every choice of eager/rendezvous via a diamond lemma for the MPI semantics (Comm/Confluence.lean). Static (AoS) cells; conversion of sizes to int not modelled. |
| C53 | proved | `C53.collectingWriter_collects`, `C53.collectingWriter_complete` | proved for every interleaving and every choice of eager/rendezvous. Static (AoS) cells; globalDimensions equal in all calls. |
| C54 | partial | `C54.dataflow_partial`, `C54.dangling_semaphore`, `C54.asymmetric_never_returns`, `C54.empty_locality_undefined`, `C54.zero_chunk_never_returns`, `C54.double_send_throws` | All of it is proved except for the absence of undefined behaviour, which is false: the continuation of the last chunk refers to a semaphore on the stack of run() and may run after run() has returned (dangling_semaphore, for every valid simulation with at least one step). Behaviour outside of the assumptions is proved as well: asymmetric adjacencies and chunk size 0 keep run() from returning, a locality without cells is undefined behaviour, double sends may throw. startStep() of the initializer is ignored by the code (steps count from 0). HPX is modelled by its documented behaviour. |
| C55 | partial | `C55.search_exact`, `C55.check_sound`, `C55.optimum`, `C55.no_edges_throws`, `C55.outside_missed`, `C55.double_exact`, `C55.search_misses`, `C55.cells_double` | search_exact, check_sound, optimum: double is modelled by exact rationals, int by unbounded integers. With IEEE rounding, the search misses vertices closer than the box size (search_misses: domain 1 x 1, box size 0.1, predecessors of 0.8 and 0.9), but vertices closer by a billionth are stored in adjacent cells (cells_double). no_edges_throws: for graphs all of whose edges have length 0 (e.g. no edges at all) findOptimumBoxSize throws instead of returning one of the valid sizes. outside_missed: vertices outside of the simulation space on periodic axes are missed. insert() compiles for DIM = 2 only; findAllPositions and reportFillLevels don't compile when instantiated and are not modelled. |
| C56 | partial | `C56.links_always_end`, `C56.mpi_simulation`, `C56.mpi_structured`, `C56.cleanup_races` | Holds for fixed size buffers; for variable size only with a `wait()` added to Provider::cleanup(), which the code lacks: cleanup_races exhibits the race. Left out: collectives at start-up, load balancing (C44), parallel writers (C52, C53), int overflow of counts; local computations between the loads of patches of one synchronisation point are moved behind them. |
| C57 | partial | `C57.hpx_simulation`, `C57.hpx_ends`, `C57.hpx_structured`, `C57.steerers_race` | At most one steerer; for two steerers the property is false (steerers_race). HPX itself (actors, receive_buffer, basenames, broadcast) is modelled by its documented behaviour; allGather only by its blocking behaviour; one update1 of a group is atomic; data races between two concurrent steerer calls on the same cell are not modelled beyond their order; simulators which share a basename are left out. |
| C58 | partial | `C58.interval_domain`, `C58.set_domain`, `C58.pattern_search`, `C58.pattern_local`, `C58.pattern_ends`, `C58.names_found`, `C58.copy_independent`, `C58.set_ignored`, `C58.maximum_reached`, `C58.below_minimum`, `C58.plateau_cycles`, `C58.typo`, `C58.assign_aliases` | double is modelled by rationals (no rounding, overflow or NaN); evaluators are functions. Local optimality and the end are proved for domains whose extent is a multiple of the granularity and step widths not below it. Six parts of what users would expect are false, with witnesses. |
| C59 | partial | `C59.simplex_search`, `C59.discrete_stuck`, `C59.better_dropped`, `C59.negative_worst`, `C59.negative_first` | double is modelled by rationals (no rounding), evaluators are functions; one call of operator() on a new optimizer; at least one parameter. better_dropped, negative_worst and discrete_stuck show which expectations are false. |
| C60 | proved | `C60.proxy_steps`, `C60.proxy_overshoots`, `C60.run_throws`, `C60.run_never`, `C60.failures_win`, `C60.writers_deleted` | The positive part is proxy_steps, the others are the negations. Execution times are arbitrary functions; normalization of steps may go on forever, which is an outcome of its own. |
| C61 | partial | `C61.kernel_update`, `C61.kernel_once`, `C61.simulation`, `C61.steering_ignored`, `C61.soa_frozen`, `C61.idle_threads`, `C61.single_layer`, `C61.torus1`, `C61.distance_two`, `C61.load`, `C61.stepper_small`, `C61.stepper_large` | Proved for configurations without idle threads on a periodic last axis, and radius 1; all others are covered by negations only by the theorems idle_threads, single_layer, torus1 and distance_two. Addresses are integers without overflow. Of CUDAStepper only the update kernel is modelled, not the exchange of ghost zones. |
| C62 | partial | `C62.includes_iff`, `C62.includes_perm`, `C62.corners_spec`, `C62.diameter_ok`, `C62.shape_spec`, `C62.voronoi`, `C62.voronoi_disjoint`, `C62.neighbors_lost`, `C62.points_ignored` | Rational (angles: real) numbers instead of double: rounding isn't covered. Also not covered: area (random sampling), shapes of cells whose center is on the boundary of the simulation space. |
| C63 | proved | `C63.save_aos`, `C63.save_soa`, `C63.load_aos`, `C63.load_soa`, `C63.save_agree`, `C63.load_save`, `C63.load_save_soa`, `C63.offset_found`, `C63.offset_unknown`, `C63.layout`, `C63.wrong_type`, `C63.device`, `C63.nested_made`, `C63.nested_load` | Members are trivially copyable; streaks are given by the memory index of their first cell (C33 and C47 connect indices and coordinates). CUDA filters aren't modelled. |
| C64 | partial | `C64.graph_correct`, `C64.regions_partial`, `C64.reads_behind_end`, `C64.unstructured`, `C64.distributed`, `C64.same_everywhere`, `C64.ranges`, `C64.covered`, `C64.partition_small`, `C64.cells_lost_and_invented`, `C64.answers_exist` | regions_partial assumes that the read behind the end of the array yields some value (reads_behind_end shows that it always takes place). Answers of SCOTCH are arbitrary assignments to existing parts; the number of weights equals the number of ranks in the distributed case. The graphs built from an Adjacency aren't modelled; the quality of partitions is out of scope. |
| C65 | partial | `C65.allGatherV_to`, `C65.allGatherV_to_eq`, `C65.allGatherV_eq`, `C65.allGatherV_nothing`, `C65.allGather_eq`, `C65.gather_eq`, `C65.gatherV_eq`, `C65.gatherVPtr_root`, `C65.gatherVPtr_no_lengths`, `C65.broadcastVector_eq`, `C65.broadcastVectorTo_eq`, `C65.history_ok`, `C65.wait_completes`, `C65.waitAll_completes`, `C65.destroy_completes`, `C65.test_completes`, `C65.copy_new`, `C65.copy_after_wait_throws`, `C65.assign_double_wait`, `C65.assign_leaks`, `C65.cancel_after_test`, `C65.vectors_in_order`, `C65.tags_mixed_up` | Violated by the code in these points, for which the negation is proved: allGatherV of nothing at all takes front() of an empty vector; the pointer version of gatherV needs lengths on all ranks although only the root's are documented as relevant; a layer without pending requests can't be copied after any use of wait (exception about pending requests); copy assignment duplicates pending requests (double MPI_Wait) and leaks those of the target; cancel after a successful test is an MPI error; the tags passed to sendVec/recvVec aren't used on the wire, so that vectors are matched by order only. |
| C66 | partial | `C66.ppm_shows_grid`, `C66.ppm_period`, `C66.names_differ`, `C66.viewport_shows_excerpt`, `C66.negative_viewport_gap`, `C66.slice_exact`, `C66.slice_throws`, `C66.paste_exact`, `C66.slice_paste`, `C66.palette_defined`, `C66.palette_at`, `C66.palette_below`, `C66.palette_above`, `C66.palette_between`, `C66.quickPalette_hue`, `C66.quickPalette_point`, `C66.component_overflow` | Violated by the code: viewports with a negative origin which is no multiple of the tile size leave a gap (negative_viewport_gap); QuickPalette(m, m), the default, has no defined color for m (quickPalette_point); components beyond 255 change the neighboring channel instead of being clipped (component_overflow). Everything else is proved. Floating point arithmetic is exact in the model, NaN isn't covered; integers don't overflow. |
| C67 | partial | `C67.fine_cube`, `C67.fine_torus`, `C67.fine_box`, `C67.agrees_with_host`, `C67.reads_last_write`, `C67.fresh`, `C67.streak_reads`, `C67.save_spec`, `C67.load_too_small`, `C67.torus_same`, `C67.resize_keeps_index`, `C67.resize_uninitialised`, `C67.torus_out_of_bounds`, `C67.outside_streak_overruns`, `C67.outside_streak_desyncs`, `C67.streak_continues_in_next_row`, `C67.part_of_torus` | Violated by the code: a CUDAGrid which isn't topologically correct accesses memory out of bounds next to periodic boundaries (torus_out_of_bounds), also a part of a torus (part_of_torus); streaks outside of the box overrun the single edge cell (outside_streak_overruns) or change it without getEdge() noticing (outside_streak_desyncs); streaks which leave a row continue in the next one (streak_continues_in_next_row); resize leaves new cells uninitialized (resize_uninitialised). Everything else is proved. CUDA's error codes aren't modeled. |
| C68 | partial | `C68.accounts`, `C68.compute_covers_parts`, `C68.serial_step`, `C68.serial_run`, `C68.striping_step`, `C68.striping_loads`, `C68.vanilla_updates`, `C68.vanilla_startup`, `C68.serial_startup`, `C68.cuda_without_total`, `C68.nested_counts_twice`, `C68.intervals`, `C68.merging`, `C68.addTime_spec` | Violated by the code: the constructor of VanillaStepper computes ghost zones outside of the total (vanilla_startup), so do the first input and output of SerialSimulator::run (serial_startup); CUDAStepper never measures the total (cuda_without_total); a timer for a part nested in one for the whole counts twice (nested_counts_twice; doesn't happen in the modeled simulators). Everything else is proved. Times are exact rationals instead of rounded doubles, clocks don't go backwards. |
| C69 | partial | `C69.tokens`, `C69.join_tokenize`, `C69.commands`, `C69.input_safe`, `C69.requests`, `C69.typed_to_handled`, `C69.blank_request_undefined`, `C69.pipes_lose_everything`, `C69.get_reads_wrong_cell`, `C69.get_reads_wrong_cell_3d`, `C69.get_undefined`, `C69.set_help_wrong`, `C69.file_words`, `C69.file_lines`, `C69.rows_indistinguishable`, `C69.file_steps`, `C69.file_names`, `C69.durations_partial`, `C69.duration_undefined`, `C69.estimate`, `C69.trace_prints`, `C69.trace_2038`, `C69.trace_beyond` | Violated by the code: Pipe drops all requests and feedback as its functions are commented out (pipes_lose_everything), GetHandler reads from (0, X) instead of (X, Y) (get_reads_wrong_cell), SetAction's key isn't the documented one (set_help_wrong), rows can't be told apart if the bounding box doesn't start at x = 0 (rows_indistinguishable), times from 2^31 s on are undefined (duration_undefined, trace_2038), also in steps beyond maxSteps, which is 1 by default (trace_beyond). Missing: negative durations, rounding of doubles. |
| C70 | partial | `C70.step_iff`, `C70.run_iff`, `C70.results`, `C70.parallel_output`, `C70.interleavings`, `C70.parallel_input_partial`, `C70.parallel_input_race` | OpenMPSimulator's handleInput and handleOutput don't override anything since they're not virtual in SerialSimulator, so step and run never call them. Were they called, steerers which modify the same cells would race (parallel_input_race). Missing: exceptions thrown by cells, writers or steerers in parallel regions; order of updates as in C49. |
| C71 | partial | `C71.extents`, `C71.defined_iff`, `C71.line_undefined`, `C71.inside`, `C71.points_inside`, `C71.tight`, `C71.neighbors_partial`, `C71.neighbors_double`, `C71.neighbors_negation`, `Ieee.rnd_nearest`, `Ieee.rnd_mono`, `Ieee.rnd_double` | Violated by the code: with double, neighbors may be two container cells apart as their distance is rounded down (neighbors_negation), though never more (neighbors_double); points on a line parallel to an axis, the example given in the code's comment, cause a division by zero whose result is converted to int (line_undefined). neighbors_partial covers exact arithmetic. Overflow of doubles and NaN aren't modeled. |
| C72 | partial | `C72.sequence`, `C72.unseeded`, `C72.defined`, `C72.genUnsigned_spec`, `C72.genDouble_range`, `C72.genDouble_max`, `C72.same_numbers`, `C72.seedRNG_same`, `C72.seedRNG_pairs`, `C72.seedRNG_neighbors`, `C72.balancer_undefined` | Violated by the code: seedMT sets the lowest bit of the seed, so cells with the indices 2 i, 2 i + 1 always get identical numbers (seedRNG_pairs, seedRNG_neighbors); genDouble may return 0, for which RandomBalancer on one rank divides 0 by 0 (balancer_undefined); for subnormal max the result may equal max (genDouble_max). Statistical quality and the period aren't covered; `left` and the counters don't overflow as they stay in [-2, 624]. |
| C73 | partial | `C73.padded_spec`, `C73.padded_zero`, `C73.fresh`, `C73.agree`, `C73.save_spec`, `C73.get_negative`, `C73.get_padding`, `C73.set_edge`, `C73.resize_spec`, `C73.aosResize_spec`, `C73.resize_origin`, `C73.resize_loses`, `C73.equal_spec`, `C73.equal_empty`, `C73.equal_edge`, `C73.equal_padding` | Violated by the code: reads with negative indices are undefined, reads in the padding return the default element instead of the edge element (get_negative, get_padding), writes outside never set the edge element (set_edge), resize overwrites all nodes with node 0 (resize_spec, resize_loses) and accepts negative origins, the comparison includes the padding (equal_padding) and ignores the edge elements of empty grids (equal_empty). operator[], the comparison with other classes and toString don't compile if used and aren't modelled; contents of the matrices are C38. |
| C74 | partial | `C74.defined`, `C74.planes`, `C74.order`, `C74.tile_unique`, `C74.tile_deps`, `C74.even_planes`, `C74.even_sources`, `C74.plane_lost`, `C74.beyond_buffer`, `C74.run_steps`, `C74.run_exact`, `C74.run_endless` | The schedule is right if the grid has at least 2 P - 3 planes, else frames are accessed beyond their end (defined). Violated by the code: offsets are added to coordinates which already contain them, so odd planes are never updated (even_planes, plane_lost) and the buffer is exceeded (beyond_buffer); maxSteps is exceeded unless P divides the number of nano steps (run_exact). Flushing doesn't reset planes (the code is commented out), writers are notified at the start and end only, steerers never; step() does nothing. Regions are described per axis, the expansion itself is C09; updates of cells which don't use the vanilla functor (fixed coordinates) aren't covered. |
| C75 | proved | `SoaVec.C75_step`, `SoaVec.C75_history`, `SoaVec.C75_make`, `SoaVec.C75_makeValue`, `SoaVec.C75_get`, `SoaVec.C75_room`, `SoaVec.C75_default`, `SoaVec.C75_assign`, `SoaVec.C75_copy_lost`, `SoaVec.C75_copy_push`, `SoaVec.C75_reserve_undefined`, `SoaVec.C75_small_extent`, `SoaVec.C75_reappear`, `SoaVec.C75_capacity` | Holds for all histories in which reserve isn't asked for less than the size and resize doesn't enlarge a vector which was shrunk, for extents of at least 6 (history, default). Violated by the code otherwise: reserve below the size writes outside of the memory (reserve_undefined), with extents up to 4 push_back does (small_extent), elements reappear (reappear), capacity() may be less than size() (capacity), copies lose elements beyond the dimension and have an uninitialised extent (copy_lost, copy_push). Members are assumed to be trivially copyable: for others push_back assigns to memory in which no element was constructed. |
| C76 | proved | `C76.visits`, `C76.exact`, `C76.exact_long`, `C76.nextStop_near`, `C76.overshoot`, `C76.overshoot_negative`, `C76.pairs` | visits states exactly which elements are processed. Violated by the code: elements behind the end are processed if the end lies before the next multiple of the arity (overshoot) or is negative and no multiple (overshoot_negative); hence the SPH example pairs particles beyond the last one unless their number is a multiple of the arity (pairs). The variant for unstructured grids is C40. |
| C77 | proved | `C77.step_ok`, `C77.history`, `C77.start`, `C77.aligned`, `C77.inside`, `C77.disjoint`, `C77.no_leak`, `C77.pointer_aligned`, `C77.allocated`, `C77.small_alignment`, `C77.overflow` | Proved for alignments of at least 8 and sizes without overflow. Violated by the code otherwise: with alignment 1 or 2 the pointer is written in front of the chunk (small_alignment), and sizes which overflow yield chunks smaller than the array instead of an exception (overflow; containers of the standard library check max_size() before). |
| C78 | partial | `C78.check_iff`, `C78.update_iff`, `C78.update_fields`, `C78.sound`, `C78.grid_sound`, `C78.no_false_alarm`, `C78.init_cells`, `C78.init_valid`, `C78.edge_valid`, `C78.positions`, `C78.assert_ignores_position`, `C78.torus_shift`, `C78.counter_overflow` | sound holds in full as long as cycle counters don't overflow. The last part is false of the code: the assertions ignore the positions of cells (assert_ignores_position), so grid_sound needs them as an assumption; a further update reveals wrong positions along axes with constant boundaries (positions), but never along periodic ones (torus_shift). counter_overflow: false alarm after 2^32 cycles. Not covered: testValue (never checked), the CUDA variants, which accept invalid neighbors on 1D tori, and UnstructuredTestCell. |
| C79 | partial | `C79.refine`, `C79.run_refines`, `C79.observed`, `C79.make_contents`, `C79.make_too_large`, `C79.copy_contents`, `C79.swap_contents`, `C79.loadAt_contents`, `C79.loadAt_throws`, `C79.load_gap`, `C79.load_reveals_removed`, `C79.load_overflow`, `C79.self_load_get`, `C79.self_load_forward`, `C79.self_load_overlap`, `C79.bytes`, `C79.byte_size_full`, `C79.byte_size_too_small` | False of the code: the constructor doesn't check the capacity (make_too_large); load checks num + offset modulo 2^64 (load_overflow); load behind the last element reveals removed elements (load_reveals_removed); loads from the array itself repeat elements if source precedes target (self_load_get, self_load_overlap); byte_size() bytes don't hold partially filled arrays with more than one member (byte_size_too_small). The rest is proved for all programs. Elements are trivially copyable; CUDA device code, where checks are left out, isn't modelled. |
| C80 | partial | `C80.agreement`, `C80.progress`, `C80.terminates`, `C80.gather_eq`, `C80.indices_get`, `C80.indices_length`, `C80.speeds_length`, `C80.owner`, `C80.speed_of_group`, `C80.same_basename_throws` | The last sentence is false of the code: promises are kept per basename (which has a default) and never reset, so that another simulator with the same name throws (same_basename_throws). The rest is proved for all schedules. Maps of promises are taken to be accessed atomically; the code guards only one of four by its mutex, so simulators with different names which start at the same time race. hpx::broadcast is taken to return results in the order of locality ids. |
| C81 | partial | `C81.verify_iff`, `C81.sound`, `C81.no_false_alarm`, `C81.verify_perm`, `C81.order_not_checked`, `C81.edge_update_accepted`, `C81.too_many`, `C81.assemble_perm`, `C81.assemble_lookup`, `C81.line_update`, `C81.zero_edge_lost`, `C81.expected_ok`, `C81.expected_mem`, `C81.reverse_complete`, `C81.reverse_inexact`, `C81.reverse_exact` | sound is proved for models which don't depend on the order of neighbors, as long as cycle counters don't overflow; for others it is false (order_not_checked). Updates of the edge cell are accepted (edge_update_accepted). updateLineX takes an edge of weight 0 to column 0 for padding (zero_edge_lost), line_update covers all other rows with distinct columns. The reverse adjacency contains all edges (reverse_complete) but also others where ids wrap around (reverse_inexact); it is exact elsewhere (reverse_exact). Weights are values of a linear order, NaN isn't modelled. |
| C82 | partial | `C82.cargo`, `C82.backward`, `C82.no_spawns`, `C82.all_members`, `C82.forward_updated`, `C82.backward_not_updated`, `C82.update_eq` | Holds for insertions into the particle's own member or ones declared before it (backward, update_eq). It is false for members declared later: the particle is updated at once (forward_updated), but wouldn't be if the declarations were swapped (backward_not_updated). Updates depend on the old grid only (not on what other particles inserted), capacities aren't exceeded, insertion doesn't invalidate iterators (FixedArray, not std::vector). ContainerCell, whose loop has no fixed end, isn't covered. |
