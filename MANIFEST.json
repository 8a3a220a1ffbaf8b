{
 "claims": [
  {
   "property": "C01",
   "status": "proved",
   "theorems": [
    "LGD.C01.region_is_set"
   ],
   "note": "All dimensions, all histories; index-vector level algorithm modelled."
  },
  {
   "property": "C02",
   "status": "proved",
   "theorems": [
    "LGD.C02.region_eq_iff",
    "LGD.C02.region_row_canonical"
   ],
   "note": "Equality of index vectors iff equal sets."
  },
  {
   "property": "C03",
   "status": "proved",
   "theorems": [
    "LGD.C03.set_algebra",
    "LGD.C03.set_algebra_eq"
   ],
   "note": "Arbitrary nested expressions over insert, remove, +, +=, -, -=, &, &=; the two-cursor loops, merge2way, merge3way and the append shortcut are modelled. Iterators are represented by the streak lists that C05 proves they deliver."
  },
  {
   "property": "C04",
   "status": "proved",
   "theorems": [
    "LGD.C04.cache_correct",
    "LGD.C04.card_unique"
   ],
   "note": "Programs over several regions with interleaved insert, remove, clear, copy, +, -, & and queries."
  },
  {
   "property": "C05",
   "status": "proved",
   "theorems": [
    "LGD.C05.streak_iteration",
    "LGD.C05.coord_iteration"
   ],
   "note": "Iterator state machine (one position per level) modelled; streak and coordinate iteration terminate, are complete, ordered and duplicate-free."
  },
  {
   "property": "C06",
   "status": "proved",
   "theorems": [
    "LGD.C06.index_access",
    "LGD.C06.plane_access"
   ],
   "note": "operator[] and planeStreakIterator."
  },
  {
   "property": "C07",
   "status": "partial",
   "theorems": [
    "LGD.C07.finds_first_partial",
    "LGD.C07.finds_first_1d_2d",
    "LGD.C07.not_finds_first_3d"
   ],
   "note": "Proved in full for 1D and 2D. The 3D branch is wrong in the code (region.h:1402-1412): not_finds_first_3d is the negation; finds_first_partial covers 3D queries that do not run past the end of a plane."
  },
  {
   "property": "C08",
   "status": "proved",
   "theorems": [
    "LGD.C08.expand_neighborhood",
    "LGD.C08.expand_expand"
   ],
   "note": "All dimensions, all non-negative radii; tripling loop and both final merges modelled."
  },
  {
   "property": "C09",
   "status": "partial",
   "theorems": [
    "LGD.C09.expandWithTopology_partial",
    "LGD.C09.inside_and_extensive",
    "LGD.C09.cube_expansion",
    "LGD.C09.wide_expansion_wrong"
   ],
   "note": "Any combination of periodic and constant axes, provided width does not exceed the extent of any periodic axis; wide_expansion_wrong proves that the statement fails beyond (2x2 torus, width 3 yields coordinates outside the grid)."
  },
  {
   "property": "C10",
   "status": "proved",
   "theorems": [
    "LGD.C10.adjacency_khop",
    "LGD.C10.adjacency_add"
   ],
   "note": "Arbitrary adjacency function; the incremental re-expansion of only new nodes is modelled."
  },
  {
   "property": "C11",
   "status": "proved",
   "theorems": [
    "LGD.C11.adjacency_correct"
   ],
   "note": "All insertion histories and split thresholds; nodes must fit below Limits<int>::getMax(). std::lower_bound and std::sort are modelled by their specification."
  },
  {
   "property": "C12",
   "status": "partial",
   "theorems": [
    "LGD.C12.coords_partial",
    "LGD.C12.streaks_partial",
    "LGD.C12.coords_zero_extent_hangs",
    "LGD.C12.streaks_zero_extent_hangs",
    "LGD.C12.bounds_checks"
   ],
   "note": "All dimensions. The statement holds unless a non-last axis (streak iteration: an inner axis) has extent 0 while the last one has not; then the iteration never terminates (proved: *_hangs)."
  },
  {
   "property": "C13",
   "status": "proved",
   "theorems": [
    "LGD.C13.normalize_spec",
    "LGD.C13.marker_distinct",
    "LGD.C13.locate_spec",
    "LGD.C13.torus_periodic",
    "LGD.C13.normalize_two_periods"
   ],
   "note": "Any set of periodic axes; normalize in any dimension, locate in 1D-3D. normalize_two_periods shows that the one-period hypothesis is needed."
  },
  {
   "property": "C14",
   "status": "proved",
   "theorems": [
    "LGD.C14.index_bijection"
   ],
   "note": "1D, 2D, 3D; integers are unbounded (no overflow)."
  },
  {
   "property": "C15",
   "status": "proved",
   "theorems": [
    "LGD.C15.striping_partition",
    "LGD.C15.unstructured_striping",
    "LGD.C15.striping_overflow"
   ],
   "note": "1D to 3D, all boxes with non-negative extents; the weights must fit into the grid (offset + sum <= volume), striping_overflow shows that the hypothesis is needed (the iterator does not saturate)."
  },
  {
   "property": "C16",
   "status": "proved",
   "theorems": [
    "LGD.C16.traversal",
    "LGD.C16.partition",
    "LGD.C16.morton"
   ],
   "note": "All dimensions, cache off or filled for any maximum dimension; on cubes with power-of-two edges the order is the Morton order. int/unsigned overflow is not modelled."
  },
  {
   "property": "C17",
   "status": "proved",
   "theorems": [
    "LGD.C17.traversal",
    "LGD.C17.partition",
    "LGD.C17.continuous"
   ],
   "note": "Any cache size (17 in the code), all 2D boxes; on power-of-two squares consecutive coordinates are neighbors. int/unsigned overflow is not modelled."
  },
  {
   "property": "C18",
   "status": "partial",
   "theorems": [
    "LGD.C18.traversal",
    "LGD.C18.random_access_partial",
    "LGD.C18.partition_partial",
    "LGD.C18.random_access_wrong",
    "LGD.C18.partition_wrong"
   ],
   "note": "Sequential iteration is proved for all boxes and cache sizes. Random access (and hence getRegion) is wrong in the code for narrow boxes (random_access_wrong, partition_wrong: digDownTrivial ignores the counter for the cursor); it is proved for boxes with both extents >= 2 and aspect ratio at most 4. The memoisation of triangle lengths is not modelled."
  },
  {
   "property": "C19",
   "status": "partial",
   "theorems": [
    "LGD.C19.cuboids_partial",
    "LGD.C19.regions_partial",
    "LGD.C19.exactRound_rounds",
    "LGD.C19.zero_weight_overlap",
    "LGD.C19.zero_weight_hangs",
    "LGD.C19.flat_cuboid_hangs",
    "LGD.C19.doubleRound_rounds",
    "LGD.C19.cuboids_double_partial"
   ],
   "note": "All dimensions, all positive weights, any rounding of the floating point ratio that stays within [0, extent]; exact rounding does, and IEEE double arithmetic does for all extents which fit an int (doubleRound_rounds). The claim is false of the code for weights 0: zero_weight_overlap (two nodes own the same cells) and zero_weight_hangs (infinite recursion); in 3D a flat cuboid hangs in the Region insertion (flat_cuboid_hangs)."
  },
  {
   "property": "C20",
   "status": "partial",
   "theorems": [
    "LGD.C20.node_grid",
    "LGD.C20.cuboids",
    "LGD.C20.regions_partial",
    "LGD.C20.regions_2d",
    "LGD.C20.flat_cuboid_hangs"
   ],
   "note": "2D in full; 3D: the cuboids always tile the grid, the regions do if the y-extent is at least the number of nodes (otherwise inserting a flat cuboid may hang: flat_cuboid_hangs). The floating point sqrt is an arbitrary limit."
  },
  {
   "property": "C21",
   "status": "proved",
   "theorems": [
    "LGD.C21.fragments_match",
    "LGD.C21.fragments_exact",
    "LGD.C21.outer_rim_covered"
   ],
   "note": "Any neighborhood relation; instances proved for structured topologies (any wrapping, any dimension; ghost zone width at most the extent of a periodic axis) and unstructured grids. Bounding box prefilter, region cache, erasure of empty entries and outgroup fragments are modelled; MPI allGather is modelled as a list of boxes."
  },
  {
   "property": "C22",
   "status": "partial",
   "theorems": [
    "LGD.C22.own_regions",
    "LGD.C22.rim_and_kernel_partial",
    "LGD.C22.nesting",
    "LGD.C22.inner_sets_own_partial",
    "LGD.C22.inner_ghosts_in_rim_partial",
    "LGD.C22.volatile_kernel",
    "LGD.C22.local_adjacency_wrong"
   ],
   "note": "Structured topologies in full (ghost zone width at most the periodic extents); unstructured grids if the width is 1 or the adjacency lists the whole graph. With an adjacency restricted to the given region, as the interface documents, the rim is too small for widths above 1 (local_adjacency_wrong). inner_sets_own_partial needs a symmetric neighborhood."
  },
  {
   "property": "C23",
   "status": "proved",
   "theorems": [
    "LGD.C23.offset_fits",
    "LGD.C23.unstructured_offset_fits"
   ],
   "note": "All dimensions, all combinations of periodic and constant axes; regions inside the simulation area. Gap search via Region insertion and intersection is modelled."
  },
  {
   "property": "C24",
   "status": "proved",
   "theorems": [
    "LGD.C24.patchbuffer_queue",
    "LGD.C24.patchbufferfixed_queue",
    "LGD.C24.patchbuffer_history",
    "LGD.C24.patchbufferfixed_history",
    "LGD.C24.unordered_requests_wrong"
   ],
   "note": "All call histories whose requests go forward in time (unordered_requests_wrong shows the hypothesis is needed). Grids are functions, regions duplicate-free coordinate lists."
  },
  {
   "property": "C25",
   "status": "proved",
   "theorems": [
    "LGD.C25.patches_match",
    "LGD.C25.all_steps",
    "LGD.C25.progress"
   ],
   "note": "Labelled transition system of accepter, provider and MPI; both protocols. MPI is modelled by FIFO matching per link; reading of send buffers and delivery happen at arbitrary times. One charge per link; the INT_MAX check for buffers is not modelled."
  },
  {
   "property": "C26",
   "status": "proved",
   "theorems": [
    "LGD.C26.stepper_serial",
    "LGD.C26.stepper_own",
    "LGD.C26.order_of_events"
   ],
   "note": "Any regions satisfying the interface of C22, any local update function, any cell-wise steerers with positive periods (adapters of C28 for rim and inner set); buffers are the PatchBufferFixed of C24. The update of a region is cell-wise (C34). Writers see the initial grid after, all later grids before the steering of that step."
  },
  {
   "property": "C27",
   "status": "proved",
   "theorems": [
    "LGD.C27.writer_calls",
    "LGD.C27.writer_silent"
   ],
   "note": "adapter notified about consecutive nano steps (as C26 proves of the stepper): exactly the due calls; a single ALL_DONE call if first = last"
  },
  {
   "property": "C28",
   "status": "proved",
   "theorems": [
    "LGD.C28.steerer_calls"
   ],
   "note": "adapter notified without gaps, possibly repeatedly; step numbers unbounded"
  },
  {
   "property": "C29",
   "status": "proved",
   "theorems": [
    "LGD.C29.step_events",
    "LGD.C29.run_events",
    "LGD.C29.run_nothing",
    "LGD.C29.after_end_undefined"
   ],
   "note": "event loop of HierarchicalSimulator/HiParSimulator: exact positions of load balancing events, end at maxSteps; calls after the end are undefined behavior"
  },
  {
   "property": "C30",
   "status": "proved",
   "theorems": [
    "LGD.C30.run_serial",
    "LGD.C30.step_serial",
    "LGD.C30.run_after_steps",
    "LGD.C30.no_allDone"
   ],
   "note": "exact grid, writer calls and steerer calls of run() and of k calls of step(); hypothesis: steerers do not write outside of the simulation area (e.g. the edge cell: only one of the two buffers would change)"
  },
  {
   "property": "C31",
   "status": "proved",
   "theorems": [
    "LGD.C31.stripes",
    "LGD.C31.step_serial",
    "LGD.C31.run_serial",
    "LGD.C31.nano_serial",
    "LGD.C31.progress",
    "LGD.C31.step_progress",
    "LGD.C31.completes",
    "LGD.C31.messages_match",
    "LGD.C31.ghost_sizes",
    "LGD.C31.invalid_balancer",
    "LGD.C31.second_run_differs",
    "LGD.C31.grid_ok",
    "LGD.C31.grid_run"
   ],
   "note": "Any interleaving of the ranks' nano steps and messages; generic grids plus an instance for structured grids of any dimension and topology (grid_ok, grid_run). Holds for runs from a freshly constructed simulator; second_run_differs proves that a second run() reads stale ghost zones."
  },
  {
   "property": "C32",
   "status": "partial",
   "theorems": [
    "LGD.C32.initialWeights_sum",
    "LGD.C32.initialWeights_zero",
    "LGD.C32.initialWeights_none",
    "LGD.C32.ooze_sum",
    "LGD.C32.ooze_returns",
    "LGD.C32.random_sum",
    "LGD.C32.random_exact",
    "LGD.C32.random_overflow",
    "LGD.C32.bias_sum",
    "LGD.C32.noOp_sum",
    "LGD.C32.initialWeights_double",
    "LGD.C32.ooze_throws",
    "LGD.C32.random_double"
   ],
   "note": "doubles are rationals with a rounding function; IEEE 754 rounding with gradual underflow (no overflow) in the theorems named _double. initialWeights: proved for up to 2^51 items. RandomBalancer: proved for items * (ranks + 3) <= 2^52; beyond, random_overflow tells what happens. OozeBalancer: in exact arithmetic it never throws, for any rounding the result is right if it returns, but with doubles it throws std::logic_error for valid loads (ooze_throws, default newLoadWeight, weights 3 0 1, loads 1 0 0.5), which violates the property."
  },
  {
   "property": "C33",
   "status": "partial",
   "theorems": [
    "LGD.C33.history",
    "LGD.C33.fresh",
    "LGD.C33.streak_reads",
    "LGD.C33.save_spec",
    "LGD.C33.roundtrip",
    "LGD.C33.displaced_plain",
    "LGD.C33.displaced_write_read",
    "LGD.C33.displaced_save",
    "LGD.C33.displaced_load",
    "LGD.C33.displaced_streak_partial",
    "LGD.C33.displaced_streak_partial_negation",
    "LGD.C33.displaced_save_partial_negation"
   ],
   "note": "Grid: all histories of cell, streak, region and edge writes; region transfer between grids. DisplacedGrid without topological correctness: the same at displaced coordinates. DisplacedGrid with it: cell accesses, saveRegion and loadRegion for regions of cells stored in the grid, streak accessors within the box. The code deviates from the property: streak accessors do not normalize (displaced_streak_partial_negation), and saveRegion loses cells of a row after a streak outside (displaced_save_partial_negation)."
  },
  {
   "property": "C34",
   "status": "partial",
   "theorems": [
    "LGD.C34.update_grid_partial",
    "LGD.C34.update_displaced_partial",
    "LGD.C34.stencils",
    "LGD.C34.source_offset_negation"
   ],
   "note": "Radius 1 stencils (Moore, von Neumann, 1-3 dimensions), any topology, Grid and DisplacedGrid; one result for the vanilla and the line pointer path. The line pointer path ignores sourceOffset when it assembles pointers (witness: source_offset_negation), so it is covered for offset 0 only; streaks must not cross the border of a displaced grid on a periodic x axis. Serial loop over streaks; updateLineX is assumed to equal the loop over update. SoA grids and threading variants are not covered here."
  },
  {
   "property": "C35",
   "status": "partial",
   "theorems": [
    "LGD.C35.history_partial",
    "LGD.C35.construct",
    "LGD.C35.concatenation",
    "LGD.C35.comparison",
    "LGD.C35.append_self_negation",
    "LGD.C35.unchecked_size_negation"
   ],
   "note": "Any history of push_back, +=, erase/remove, element assignment, clear, reserve, resize. The code violates the property for a += a (always throws unless empty, after filling the array), and the constructor and resize(negative) do not check the size; both are proved as negations and excluded from history_partial. Capacity below 2^31 (template parameter of type int)."
  },
  {
   "property": "C36",
   "status": "proved",
   "theorems": [
    "LGD.C36.history",
    "LGD.C36.neighborhood",
    "LGD.C36.update"
   ],
   "note": "Any history, any key order, any capacity (below 2^31). std::upper_bound is modelled by its contract. The cargo's update function is a function of lookups and its own value (no side effects)."
  },
  {
   "property": "C37",
   "status": "proved",
   "theorems": [
    "LGD.C37.gather",
    "LGD.C37.conservation",
    "LGD.C37.update",
    "LGD.C37.update_later",
    "LGD.C37.two_boxes_negation"
   ],
   "note": "1D to 3D, any topology, any capacity, any number of particles. Positions are elements of a linear order with an addition; the boxes are assumed to fit together (origin + dimension of a box equals the origin of the next one), which rounding in user code could violate. With fewer than three boxes on a periodic axis particles are duplicated (two_boxes_negation)."
  },
  {
   "property": "C38",
   "status": "partial",
   "theorems": [
    "LGD.C38.stores_partial",
    "LGD.C38.presorted",
    "LGD.C38.sigma_one",
    "LGD.C38.layout",
    "LGD.C38.comparison",
    "LGD.C38.comparison_same",
    "LGD.C38.getRow_negation",
    "LGD.C38.reinit_negation",
    "LGD.C38.equality_negation",
    "LGD.C38.padding_negation",
    "LGD.C38.empty_negation"
   ],
   "note": "SIGMA = 1 and presorted matrices: the full statement is proved (sigma_one, presorted). For SIGMA > 1 the full statement is false: getRow takes the physical row (getRow_negation); stores_partial proves that the rows are all there, permuted inside their sorting scope. Comparison, chunk layout proved; deviations of re-initialization, operator== and the empty container proved as negations."
  },
  {
   "property": "C39",
   "status": "partial",
   "theorems": [
    "LGD.C39.history_partial",
    "LGD.C39.readers",
    "LGD.C39.weights",
    "LGD.C39.unknown",
    "LGD.C39.edge_negation",
    "LGD.C39.matrices_negation",
    "LGD.C39.offset_negation",
    "LGD.C39.negative_negation"
   ],
   "note": "Proved for arbitrary histories of set, setEdge, loadRegion, setWeights on known nodes (AoS delegate). False in the code and proved so: setWeights loses the edge cell and all other matrices, saveRegion/loadRegion ignore the offset, node sets with negative IDs only have undefined behaviour in saveRegion, set of an unknown node and get beyond the largest node are undefined. Not modelled: the struct-of-arrays delegate grid."
  },
  {
   "property": "C40",
   "status": "partial",
   "theorems": [
    "LGD.C40.visits",
    "LGD.C40.exact_partial",
    "LGD.C40.overshoot_negation"
   ],
   "note": "Proved for all streaks which begin at a chunk boundary or reach the next one (exact_partial); visits characterizes the processed cells for all streaks, arities and offsets. The full statement is false for streaks inside of a single chunk: the prologue runs to the end of the chunk (overshoot_negation)."
  },
  {
   "property": "C41",
   "status": "proved",
   "theorems": [
    "LGD.C41.stencil_sum",
    "LGD.C41.moore_eq_expand"
   ],
   "note": "The stencil is an arbitrary list of relative coordinates."
  },
  {
   "property": "C42",
   "status": "partial",
   "theorems": [
    "LGD.C42.box_insert_remove_partial",
    "LGD.C42.box_insert_remove_low_dim",
    "LGD.C42.box_insert_hangs"
   ],
   "note": "Complete in 1D and 2D. In 3D the y extent must be positive (or z zero); otherwise the code loops forever (box_insert_hangs)."
  },
  {
   "property": "C43",
   "status": "proved",
   "theorems": [
    "LGD.C43.distributed_serial",
    "LGD.C43.distributed_shown",
    "LGD.C43.never_throws",
    "LGD.C43.slowest_ready",
    "LGD.C43.completes",
    "LGD.C43.starts",
    "LGD.C43.pmCluster_ok",
    "LGD.C43.structured_distributed"
   ],
   "note": "Composition of C21, C22, C24, C25 (links as FIFO lists), C26 and C28 (steerers); any symmetric neighborhood relation that satisfies the interface of C21/C22, structured_distributed is the instance for structured grids. One update1 is atomic; steerers are cell-wise functions."
  },
  {
   "property": "C44",
   "status": "partial",
   "theorems": [
    "LGD.C44.rerun_partial",
    "LGD.C31.second_run_differs"
   ],
   "note": "Proved for SerialSimulator and any history of calls; StripingSimulator violates it (second_run_differs is the negation with a witness)."
  },
  {
   "property": "C45",
   "status": "proved",
   "theorems": [
    "LGD.C45.cell_weights",
    "LGD.C45.cell_row",
    "LGD.C45.chunk_weights",
    "LGD.C45.streak",
    "LGD.C45.padding_harmless",
    "LGD.C45.add_negation"
   ],
   "note": "add_negation: operator+= of UnstructuredNeighborhood (not used by the library's update functor) does not update the chunk."
  },
  {
   "property": "C46",
   "status": "proved",
   "theorems": [
    "LGD.C46.update",
    "LGD.C46.serial",
    "LGD.C46.reweigh_negation"
   ],
   "note": "Array-of-structs grid, no threading, one matrix used by the cell. Order of neighbors is unspecified (sorted by physical position), so the run theorem is for update functions of the multiset of neighbors. reweigh_negation: a steerer that sets new weights during a run corrupts the simulation, since only the current grid gets the new layout."
  },
  {
   "property": "C47",
   "status": "proved",
   "theorems": [
    "LGD.C47.history",
    "LGD.C47.fresh",
    "LGD.C47.resize_spec",
    "LGD.C47.streak_reads",
    "LGD.C47.save_spec",
    "LGD.C47.save_member_spec",
    "LGD.C47.load_short",
    "LGD.C47.roundtrip",
    "LGD.C47.roundtrip_member",
    "LGD.C47.region_wrap_negation",
    "LGD.C47.plain_wrap_negation",
    "LGD.C47.streak_padding_negation"
   ],
   "note": "One list of cells instead of one array per member; buffers are lists of cells. region_wrap_negation: saveRegion and friends never wrap coordinates, even for topologically correct grids. plain_wrap_negation: other grids don't wrap single cells either, so accesses leave the memory. streak_padding_negation: a streak written beyond a constant boundary destroys the padding."
  },
  {
   "property": "C48",
   "status": "partial",
   "theorems": [
    "LGD.C48.update_partial",
    "LGD.C48.update_dims",
    "LGD.C48.mixed_negation",
    "LGD.C48.radius_negation"
   ],
   "note": "update_partial holds unless one of the two deviations applies. The cell's updateLineX is assumed to be a loop over the cells of the line; no threading. Preconditions include that neighbors are stored in the old grid. mixed_negation: with periodic and constant axes and topological dimensions, a streak starting in the last column loses its wrapping and leaves the memory. radius_negation: stencils of radius 2 do not wrap."
  },
  {
   "property": "C49",
   "status": "partial",
   "theorems": [
    "LGD.C49.body_steps",
    "LGD.C49.tasks_partial",
    "LGD.C49.granularity",
    "LGD.C49.threads_grid_partial",
    "LGD.C49.threads_displaced_partial",
    "LGD.C49.fine_negation"
   ],
   "note": "Partial because the code violates the claim: fine grained parallelism updates cells outside of the region if x coordinates are negative (`fine_negation`), so that `_partial` theorems require x \u2265 0 and a granularity > 0 in that mode. Memory is sequentially consistent at the level of cells, which is justified by the proved absence of write conflicts; the source grid is assumed to be a different object than the target. AoS grids only."
  },
  {
   "property": "C50",
   "status": "partial",
   "theorems": [
    "LGD.C50.parallel_snapshot",
    "LGD.C50.metadata",
    "LGD.C50.restart_partial",
    "LGD.C50.checkpoint_restart_partial",
    "LGD.C50.serial_roundtrip",
    "LGD.C50.restart_partial_negation",
    "LGD.C50.padding_negation",
    "LGD.C50.parallel_snapshot_negation"
   ],
   "note": "Restart is proved for boxes which do not cross the periodic x border and for unpadded cells; for the remaining cases the code is wrong, which the negation theorems show with witnesses. MPI-IO itself is modelled by positions and transferred bytes; I/O errors and overflow of offsets are not."
  },
  {
   "property": "C51",
   "status": "partial",
   "theorems": [
    "LGD.C51.parallel_brick_partial",
    "LGD.C51.serial_brick",
    "LGD.C51.parallel_eq_serial_partial",
    "LGD.C51.gridMembers_get",
    "LGD.C51.dispMembers_get",
    "LGD.C51.arity_negation",
    "LGD.C51.member_negation"
   ],
   "note": "Positive results for BOVWriter are restricted to arity 1 and the selector constructor, as the code is wrong otherwise (negation theorems). The text header is not modelled."
  },
  {
   "property": "C52",
   "status": "proved",
   "theorems": [
    "LGD.C52.parallelMemoryWriter_gathers",
    "LGD.C52.overlapping_regions_race"
   ],
   "note": "proved for every interleaving and every choice of eager/rendezvous via a diamond lemma for the MPI semantics (Comm/Confluence.lean). Static (AoS) cells; conversion of sizes to int not modelled."
  },
  {
   "property": "C53",
   "status": "proved",
   "theorems": [
    "LGD.C53.collectingWriter_collects",
    "LGD.C53.collectingWriter_complete"
   ],
   "note": "proved for every interleaving and every choice of eager/rendezvous. Static (AoS) cells; globalDimensions equal in all calls."
  },
  {
   "property": "C54",
   "status": "partial",
   "theorems": [
    "LGD.C54.dataflow_partial",
    "LGD.C54.dangling_semaphore",
    "LGD.C54.asymmetric_never_returns",
    "LGD.C54.empty_locality_undefined",
    "LGD.C54.zero_chunk_never_returns",
    "LGD.C54.double_send_throws"
   ],
   "note": "All of it is proved except for the absence of undefined behaviour, which is false: the continuation of the last chunk refers to a semaphore on the stack of run() and may run after run() has returned (dangling_semaphore, for every valid simulation with at least one step). Behaviour outside of the assumptions is proved as well: asymmetric adjacencies and chunk size 0 keep run() from returning, a locality without cells is undefined behaviour, double sends may throw. startStep() of the initializer is ignored by the code (steps count from 0). HPX is modelled by its documented behaviour."
  },
  {
   "property": "C55",
   "status": "partial",
   "theorems": [
    "LGD.C55.search_exact",
    "LGD.C55.check_sound",
    "LGD.C55.optimum",
    "LGD.C55.no_edges_throws",
    "LGD.C55.outside_missed",
    "LGD.C55.double_exact",
    "LGD.C55.search_misses",
    "LGD.C55.cells_double"
   ],
   "note": "search_exact, check_sound, optimum: double is modelled by exact rationals, int by unbounded integers. With IEEE rounding, the search misses vertices closer than the box size (search_misses: domain 1 x 1, box size 0.1, predecessors of 0.8 and 0.9), but vertices closer by a billionth are stored in adjacent cells (cells_double). no_edges_throws: for graphs all of whose edges have length 0 (e.g. no edges at all) findOptimumBoxSize throws instead of returning one of the valid sizes. outside_missed: vertices outside of the simulation space on periodic axes are missed. insert() compiles for DIM = 2 only; findAllPositions and reportFillLevels don't compile when instantiated and are not modelled."
  },
  {
   "property": "C56",
   "status": "partial",
   "theorems": [
    "LGD.C56.links_always_end",
    "LGD.C56.mpi_simulation",
    "LGD.C56.mpi_structured",
    "LGD.C56.cleanup_races"
   ],
   "note": "Holds for fixed size buffers; for variable size only with a `wait()` added to Provider::cleanup(), which the code lacks: cleanup_races exhibits the race. Left out: collectives at start-up, load balancing (C44), parallel writers (C52, C53), int overflow of counts; local computations between the loads of patches of one synchronisation point are moved behind them."
  },
  {
   "property": "C57",
   "status": "partial",
   "theorems": [
    "LGD.C57.hpx_simulation",
    "LGD.C57.hpx_ends",
    "LGD.C57.hpx_structured",
    "LGD.C57.steerers_race"
   ],
   "note": "At most one steerer; for two steerers the property is false (steerers_race). HPX itself (actors, receive_buffer, basenames, broadcast) is modelled by its documented behaviour; allGather only by its blocking behaviour; one update1 of a group is atomic; data races between two concurrent steerer calls on the same cell are not modelled beyond their order; simulators which share a basename are left out."
  },
  {
   "property": "C58",
   "status": "partial",
   "theorems": [
    "LGD.C58.interval_domain",
    "LGD.C58.set_domain",
    "LGD.C58.pattern_search",
    "LGD.C58.pattern_local",
    "LGD.C58.pattern_ends",
    "LGD.C58.names_found",
    "LGD.C58.copy_independent",
    "LGD.C58.set_ignored",
    "LGD.C58.maximum_reached",
    "LGD.C58.below_minimum",
    "LGD.C58.plateau_cycles",
    "LGD.C58.typo",
    "LGD.C58.assign_aliases"
   ],
   "note": "double is modelled by rationals (no rounding, overflow or NaN); evaluators are functions. Local optimality and the end are proved for domains whose extent is a multiple of the granularity and step widths not below it. Six parts of what users would expect are false, with witnesses."
  },
  {
   "property": "C59",
   "status": "partial",
   "theorems": [
    "LGD.C59.simplex_search",
    "LGD.C59.discrete_stuck",
    "LGD.C59.better_dropped",
    "LGD.C59.negative_worst",
    "LGD.C59.negative_first"
   ],
   "note": "double is modelled by rationals (no rounding), evaluators are functions; one call of operator() on a new optimizer; at least one parameter. better_dropped, negative_worst and discrete_stuck show which expectations are false."
  },
  {
   "property": "C60",
   "status": "proved",
   "theorems": [
    "LGD.C60.proxy_steps",
    "LGD.C60.proxy_overshoots",
    "LGD.C60.run_throws",
    "LGD.C60.run_never",
    "LGD.C60.failures_win",
    "LGD.C60.writers_deleted"
   ],
   "note": "The positive part is proxy_steps, the others are the negations. Execution times are arbitrary functions; normalization of steps may go on forever, which is an outcome of its own."
  },
  {
   "property": "C61",
   "status": "partial",
   "theorems": [
    "LGD.C61.kernel_update",
    "LGD.C61.kernel_once",
    "LGD.C61.simulation",
    "LGD.C61.steering_ignored",
    "LGD.C61.soa_frozen",
    "LGD.C61.idle_threads",
    "LGD.C61.single_layer",
    "LGD.C61.torus1",
    "LGD.C61.distance_two",
    "LGD.C61.load",
    "LGD.C61.stepper_small",
    "LGD.C61.stepper_large"
   ],
   "note": "Proved for configurations without idle threads on a periodic last axis, and radius 1; all others are covered by negations only by the theorems idle_threads, single_layer, torus1 and distance_two. Addresses are integers without overflow. Of CUDAStepper only the update kernel is modelled, not the exchange of ghost zones."
  },
  {
   "property": "C62",
   "status": "partial",
   "theorems": [
    "LGD.C62.includes_iff",
    "LGD.C62.includes_perm",
    "LGD.C62.corners_spec",
    "LGD.C62.diameter_ok",
    "LGD.C62.shape_spec",
    "LGD.C62.voronoi",
    "LGD.C62.voronoi_disjoint",
    "LGD.C62.neighbors_lost",
    "LGD.C62.points_ignored"
   ],
   "note": "Rational (angles: real) numbers instead of double: rounding isn't covered. Also not covered: area (random sampling), shapes of cells whose center is on the boundary of the simulation space."
  },
  {
   "property": "C63",
   "status": "proved",
   "theorems": [
    "LGD.C63.save_aos",
    "LGD.C63.save_soa",
    "LGD.C63.load_aos",
    "LGD.C63.load_soa",
    "LGD.C63.save_agree",
    "LGD.C63.load_save",
    "LGD.C63.load_save_soa",
    "LGD.C63.offset_found",
    "LGD.C63.offset_unknown",
    "LGD.C63.layout",
    "LGD.C63.wrong_type",
    "LGD.C63.device",
    "LGD.C63.nested_made",
    "LGD.C63.nested_load"
   ],
   "note": "Members are trivially copyable; streaks are given by the memory index of their first cell (C33 and C47 connect indices and coordinates). CUDA filters aren't modelled."
  },
  {
   "property": "C64",
   "status": "partial",
   "theorems": [
    "LGD.C64.graph_correct",
    "LGD.C64.regions_partial",
    "LGD.C64.reads_behind_end",
    "LGD.C64.unstructured",
    "LGD.C64.distributed",
    "LGD.C64.same_everywhere",
    "LGD.C64.ranges",
    "LGD.C64.covered",
    "LGD.C64.partition_small",
    "LGD.C64.cells_lost_and_invented",
    "LGD.C64.answers_exist"
   ],
   "note": "regions_partial assumes that the read behind the end of the array yields some value (reads_behind_end shows that it always takes place). Answers of SCOTCH are arbitrary assignments to existing parts; the number of weights equals the number of ranks in the distributed case. The graphs built from an Adjacency aren't modelled; the quality of partitions is out of scope."
  },
  {
   "property": "C65",
   "status": "partial",
   "theorems": [
    "LGD.C65.allGatherV_to",
    "LGD.C65.allGatherV_to_eq",
    "LGD.C65.allGatherV_eq",
    "LGD.C65.allGatherV_nothing",
    "LGD.C65.allGather_eq",
    "LGD.C65.gather_eq",
    "LGD.C65.gatherV_eq",
    "LGD.C65.gatherVPtr_root",
    "LGD.C65.gatherVPtr_no_lengths",
    "LGD.C65.broadcastVector_eq",
    "LGD.C65.broadcastVectorTo_eq",
    "LGD.C65.history_ok",
    "LGD.C65.wait_completes",
    "LGD.C65.waitAll_completes",
    "LGD.C65.destroy_completes",
    "LGD.C65.test_completes",
    "LGD.C65.copy_new",
    "LGD.C65.copy_after_wait_throws",
    "LGD.C65.assign_double_wait",
    "LGD.C65.assign_leaks",
    "LGD.C65.cancel_after_test",
    "LGD.C65.vectors_in_order",
    "LGD.C65.tags_mixed_up"
   ],
   "note": "Violated by the code in these points, for which the negation is proved: allGatherV of nothing at all takes front() of an empty vector; the pointer version of gatherV needs lengths on all ranks although only the root's are documented as relevant; a layer without pending requests can't be copied after any use of wait (exception about pending requests); copy assignment duplicates pending requests (double MPI_Wait) and leaks those of the target; cancel after a successful test is an MPI error; the tags passed to sendVec/recvVec aren't used on the wire, so that vectors are matched by order only."
  },
  {
   "property": "C66",
   "status": "partial",
   "theorems": [
    "LGD.C66.ppm_shows_grid",
    "LGD.C66.ppm_period",
    "LGD.C66.names_differ",
    "LGD.C66.viewport_shows_excerpt",
    "LGD.C66.negative_viewport_gap",
    "LGD.C66.slice_exact",
    "LGD.C66.slice_throws",
    "LGD.C66.paste_exact",
    "LGD.C66.slice_paste",
    "LGD.C66.palette_defined",
    "LGD.C66.palette_at",
    "LGD.C66.palette_below",
    "LGD.C66.palette_above",
    "LGD.C66.palette_between",
    "LGD.C66.quickPalette_hue",
    "LGD.C66.quickPalette_point",
    "LGD.C66.component_overflow"
   ],
   "note": "Violated by the code: viewports with a negative origin which is no multiple of the tile size leave a gap (negative_viewport_gap); QuickPalette(m, m), the default, has no defined color for m (quickPalette_point); components beyond 255 change the neighboring channel instead of being clipped (component_overflow). Everything else is proved. Floating point arithmetic is exact in the model, NaN isn't covered; integers don't overflow."
  },
  {
   "property": "C67",
   "status": "partial",
   "theorems": [
    "LGD.C67.fine_cube",
    "LGD.C67.fine_torus",
    "LGD.C67.fine_box",
    "LGD.C67.agrees_with_host",
    "LGD.C67.reads_last_write",
    "LGD.C67.fresh",
    "LGD.C67.streak_reads",
    "LGD.C67.save_spec",
    "LGD.C67.load_too_small",
    "LGD.C67.torus_same",
    "LGD.C67.resize_keeps_index",
    "LGD.C67.resize_uninitialised",
    "LGD.C67.torus_out_of_bounds",
    "LGD.C67.outside_streak_overruns",
    "LGD.C67.outside_streak_desyncs",
    "LGD.C67.streak_continues_in_next_row",
    "LGD.C67.part_of_torus"
   ],
   "note": "Violated by the code: a CUDAGrid which isn't topologically correct accesses memory out of bounds next to periodic boundaries (torus_out_of_bounds), also a part of a torus (part_of_torus); streaks outside of the box overrun the single edge cell (outside_streak_overruns) or change it without getEdge() noticing (outside_streak_desyncs); streaks which leave a row continue in the next one (streak_continues_in_next_row); resize leaves new cells uninitialized (resize_uninitialised). Everything else is proved. CUDA's error codes aren't modeled."
  },
  {
   "property": "C68",
   "status": "partial",
   "theorems": [
    "LGD.C68.accounts",
    "LGD.C68.compute_covers_parts",
    "LGD.C68.serial_step",
    "LGD.C68.serial_run",
    "LGD.C68.striping_step",
    "LGD.C68.striping_loads",
    "LGD.C68.vanilla_updates",
    "LGD.C68.vanilla_startup",
    "LGD.C68.serial_startup",
    "LGD.C68.cuda_without_total",
    "LGD.C68.nested_counts_twice",
    "LGD.C68.intervals",
    "LGD.C68.merging",
    "LGD.C68.addTime_spec"
   ],
   "note": "Violated by the code: the constructor of VanillaStepper computes ghost zones outside of the total (vanilla_startup), so do the first input and output of SerialSimulator::run (serial_startup); CUDAStepper never measures the total (cuda_without_total); a timer for a part nested in one for the whole counts twice (nested_counts_twice; doesn't happen in the modeled simulators). Everything else is proved. Times are exact rationals instead of rounded doubles, clocks don't go backwards."
  },
  {
   "property": "C69",
   "status": "partial",
   "theorems": [
    "LGD.C69.tokens",
    "LGD.C69.join_tokenize",
    "LGD.C69.commands",
    "LGD.C69.input_safe",
    "LGD.C69.requests",
    "LGD.C69.typed_to_handled",
    "LGD.C69.blank_request_undefined",
    "LGD.C69.pipes_lose_everything",
    "LGD.C69.get_reads_wrong_cell",
    "LGD.C69.get_reads_wrong_cell_3d",
    "LGD.C69.get_undefined",
    "LGD.C69.set_help_wrong",
    "LGD.C69.file_words",
    "LGD.C69.file_lines",
    "LGD.C69.rows_indistinguishable",
    "LGD.C69.file_steps",
    "LGD.C69.file_names",
    "LGD.C69.durations_partial",
    "LGD.C69.duration_undefined",
    "LGD.C69.estimate",
    "LGD.C69.trace_prints",
    "LGD.C69.trace_2038",
    "LGD.C69.trace_beyond"
   ],
   "note": "Violated by the code: Pipe drops all requests and feedback as its functions are commented out (pipes_lose_everything), GetHandler reads from (0, X) instead of (X, Y) (get_reads_wrong_cell), SetAction's key isn't the documented one (set_help_wrong), rows can't be told apart if the bounding box doesn't start at x = 0 (rows_indistinguishable), times from 2^31 s on are undefined (duration_undefined, trace_2038), also in steps beyond maxSteps, which is 1 by default (trace_beyond). Missing: negative durations, rounding of doubles."
  },
  {
   "property": "C70",
   "status": "partial",
   "theorems": [
    "LGD.C70.step_iff",
    "LGD.C70.run_iff",
    "LGD.C70.results",
    "LGD.C70.parallel_output",
    "LGD.C70.interleavings",
    "LGD.C70.parallel_input_partial",
    "LGD.C70.parallel_input_race"
   ],
   "note": "OpenMPSimulator's handleInput and handleOutput don't override anything since they're not virtual in SerialSimulator, so step and run never call them. Were they called, steerers which modify the same cells would race (parallel_input_race). Missing: exceptions thrown by cells, writers or steerers in parallel regions; order of updates as in C49."
  },
  {
   "property": "C71",
   "status": "partial",
   "theorems": [
    "LGD.C71.extents",
    "LGD.C71.defined_iff",
    "LGD.C71.line_undefined",
    "LGD.C71.inside",
    "LGD.C71.points_inside",
    "LGD.C71.tight",
    "LGD.C71.neighbors_partial",
    "LGD.C71.neighbors_double",
    "LGD.C71.neighbors_negation",
    "LGD.Ieee.rnd_nearest",
    "LGD.Ieee.rnd_mono",
    "LGD.Ieee.rnd_double"
   ],
   "note": "Violated by the code: with double, neighbors may be two container cells apart as their distance is rounded down (neighbors_negation), though never more (neighbors_double); points on a line parallel to an axis, the example given in the code's comment, cause a division by zero whose result is converted to int (line_undefined). neighbors_partial covers exact arithmetic. Overflow of doubles and NaN aren't modeled."
  },
  {
   "property": "C72",
   "status": "partial",
   "theorems": [
    "LGD.C72.sequence",
    "LGD.C72.unseeded",
    "LGD.C72.defined",
    "LGD.C72.genUnsigned_spec",
    "LGD.C72.genDouble_range",
    "LGD.C72.genDouble_max",
    "LGD.C72.same_numbers",
    "LGD.C72.seedRNG_same",
    "LGD.C72.seedRNG_pairs",
    "LGD.C72.seedRNG_neighbors",
    "LGD.C72.balancer_undefined"
   ],
   "note": "Violated by the code: seedMT sets the lowest bit of the seed, so cells with the indices 2 i, 2 i + 1 always get identical numbers (seedRNG_pairs, seedRNG_neighbors); genDouble may return 0, for which RandomBalancer on one rank divides 0 by 0 (balancer_undefined); for subnormal max the result may equal max (genDouble_max). Statistical quality and the period aren't covered; `left` and the counters don't overflow as they stay in [-2, 624]."
  },
  {
   "property": "C73",
   "status": "partial",
   "theorems": [
    "LGD.C73.padded_spec",
    "LGD.C73.padded_zero",
    "LGD.C73.fresh",
    "LGD.C73.agree",
    "LGD.C73.save_spec",
    "LGD.C73.get_negative",
    "LGD.C73.get_padding",
    "LGD.C73.set_edge",
    "LGD.C73.resize_spec",
    "LGD.C73.aosResize_spec",
    "LGD.C73.resize_origin",
    "LGD.C73.resize_loses",
    "LGD.C73.equal_spec",
    "LGD.C73.equal_empty",
    "LGD.C73.equal_edge",
    "LGD.C73.equal_padding"
   ],
   "note": "Violated by the code: reads with negative indices are undefined, reads in the padding return the default element instead of the edge element (get_negative, get_padding), writes outside never set the edge element (set_edge), resize overwrites all nodes with node 0 (resize_spec, resize_loses) and accepts negative origins, the comparison includes the padding (equal_padding) and ignores the edge elements of empty grids (equal_empty). operator[], the comparison with other classes and toString don't compile if used and aren't modelled; contents of the matrices are C38."
  },
  {
   "property": "C74",
   "status": "partial",
   "theorems": [
    "LGD.C74.defined",
    "LGD.C74.planes",
    "LGD.C74.order",
    "LGD.C74.tile_unique",
    "LGD.C74.tile_deps",
    "LGD.C74.even_planes",
    "LGD.C74.even_sources",
    "LGD.C74.plane_lost",
    "LGD.C74.beyond_buffer",
    "LGD.C74.run_steps",
    "LGD.C74.run_exact",
    "LGD.C74.run_endless"
   ],
   "note": "The schedule is right if the grid has at least 2 P - 3 planes, else frames are accessed beyond their end (defined). Violated by the code: offsets are added to coordinates which already contain them, so odd planes are never updated (even_planes, plane_lost) and the buffer is exceeded (beyond_buffer); maxSteps is exceeded unless P divides the number of nano steps (run_exact). Flushing doesn't reset planes (the code is commented out), writers are notified at the start and end only, steerers never; step() does nothing. Regions are described per axis, the expansion itself is C09; updates of cells which don't use the vanilla functor (fixed coordinates) aren't covered."
  },
  {
   "property": "C75",
   "status": "proved",
   "theorems": [
    "LGD.SoaVec.C75_step",
    "LGD.SoaVec.C75_history",
    "LGD.SoaVec.C75_make",
    "LGD.SoaVec.C75_makeValue",
    "LGD.SoaVec.C75_get",
    "LGD.SoaVec.C75_room",
    "LGD.SoaVec.C75_default",
    "LGD.SoaVec.C75_assign",
    "LGD.SoaVec.C75_copy_lost",
    "LGD.SoaVec.C75_copy_push",
    "LGD.SoaVec.C75_reserve_undefined",
    "LGD.SoaVec.C75_small_extent",
    "LGD.SoaVec.C75_reappear",
    "LGD.SoaVec.C75_capacity"
   ],
   "note": "Holds for all histories in which reserve isn't asked for less than the size and resize doesn't enlarge a vector which was shrunk, for extents of at least 6 (history, default). Violated by the code otherwise: reserve below the size writes outside of the memory (reserve_undefined), with extents up to 4 push_back does (small_extent), elements reappear (reappear), capacity() may be less than size() (capacity), copies lose elements beyond the dimension and have an uninitialised extent (copy_lost, copy_push). Members are assumed to be trivially copyable: for others push_back assigns to memory in which no element was constructed."
  },
  {
   "property": "C76",
   "status": "proved",
   "theorems": [
    "LGD.C76.visits",
    "LGD.C76.exact",
    "LGD.C76.exact_long",
    "LGD.C76.nextStop_near",
    "LGD.C76.overshoot",
    "LGD.C76.overshoot_negative",
    "LGD.C76.pairs"
   ],
   "note": "visits states exactly which elements are processed. Violated by the code: elements behind the end are processed if the end lies before the next multiple of the arity (overshoot) or is negative and no multiple (overshoot_negative); hence the SPH example pairs particles beyond the last one unless their number is a multiple of the arity (pairs). The variant for unstructured grids is C40."
  },
  {
   "property": "C77",
   "status": "proved",
   "theorems": [
    "LGD.C77.step_ok",
    "LGD.C77.history",
    "LGD.C77.start",
    "LGD.C77.aligned",
    "LGD.C77.inside",
    "LGD.C77.disjoint",
    "LGD.C77.no_leak",
    "LGD.C77.pointer_aligned",
    "LGD.C77.allocated",
    "LGD.C77.small_alignment",
    "LGD.C77.overflow"
   ],
   "note": "Proved for alignments of at least 8 and sizes without overflow. Violated by the code otherwise: with alignment 1 or 2 the pointer is written in front of the chunk (small_alignment), and sizes which overflow yield chunks smaller than the array instead of an exception (overflow; containers of the standard library check max_size() before)."
  },
  {
   "property": "C78",
   "status": "partial",
   "theorems": [
    "LGD.C78.check_iff",
    "LGD.C78.update_iff",
    "LGD.C78.update_fields",
    "LGD.C78.sound",
    "LGD.C78.grid_sound",
    "LGD.C78.no_false_alarm",
    "LGD.C78.init_cells",
    "LGD.C78.init_valid",
    "LGD.C78.edge_valid",
    "LGD.C78.positions",
    "LGD.C78.assert_ignores_position",
    "LGD.C78.torus_shift",
    "LGD.C78.counter_overflow"
   ],
   "note": "sound holds in full as long as cycle counters don't overflow. The last part is false of the code: the assertions ignore the positions of cells (assert_ignores_position), so grid_sound needs them as an assumption; a further update reveals wrong positions along axes with constant boundaries (positions), but never along periodic ones (torus_shift). counter_overflow: false alarm after 2^32 cycles. Not covered: testValue (never checked), the CUDA variants, which accept invalid neighbors on 1D tori, and UnstructuredTestCell."
  },
  {
   "property": "C79",
   "status": "partial",
   "theorems": [
    "LGD.C79.refine",
    "LGD.C79.run_refines",
    "LGD.C79.observed",
    "LGD.C79.make_contents",
    "LGD.C79.make_too_large",
    "LGD.C79.copy_contents",
    "LGD.C79.swap_contents",
    "LGD.C79.loadAt_contents",
    "LGD.C79.loadAt_throws",
    "LGD.C79.load_gap",
    "LGD.C79.load_reveals_removed",
    "LGD.C79.load_overflow",
    "LGD.C79.self_load_get",
    "LGD.C79.self_load_forward",
    "LGD.C79.self_load_overlap",
    "LGD.C79.bytes",
    "LGD.C79.byte_size_full",
    "LGD.C79.byte_size_too_small"
   ],
   "note": "False of the code: the constructor doesn't check the capacity (make_too_large); load checks num + offset modulo 2^64 (load_overflow); load behind the last element reveals removed elements (load_reveals_removed); loads from the array itself repeat elements if source precedes target (self_load_get, self_load_overlap); byte_size() bytes don't hold partially filled arrays with more than one member (byte_size_too_small). The rest is proved for all programs. Elements are trivially copyable; CUDA device code, where checks are left out, isn't modelled."
  },
  {
   "property": "C80",
   "status": "partial",
   "theorems": [
    "LGD.C80.agreement",
    "LGD.C80.progress",
    "LGD.C80.terminates",
    "LGD.C80.gather_eq",
    "LGD.C80.indices_get",
    "LGD.C80.indices_length",
    "LGD.C80.speeds_length",
    "LGD.C80.owner",
    "LGD.C80.speed_of_group",
    "LGD.C80.same_basename_throws"
   ],
   "note": "The last sentence is false of the code: promises are kept per basename (which has a default) and never reset, so that another simulator with the same name throws (same_basename_throws). The rest is proved for all schedules. Maps of promises are taken to be accessed atomically; the code guards only one of four by its mutex, so simulators with different names which start at the same time race. hpx::broadcast is taken to return results in the order of locality ids."
  },
  {
   "property": "C81",
   "status": "partial",
   "theorems": [
    "LGD.C81.verify_iff",
    "LGD.C81.sound",
    "LGD.C81.no_false_alarm",
    "LGD.C81.verify_perm",
    "LGD.C81.order_not_checked",
    "LGD.C81.edge_update_accepted",
    "LGD.C81.too_many",
    "LGD.C81.assemble_perm",
    "LGD.C81.assemble_lookup",
    "LGD.C81.line_update",
    "LGD.C81.zero_edge_lost",
    "LGD.C81.expected_ok",
    "LGD.C81.expected_mem",
    "LGD.C81.reverse_complete",
    "LGD.C81.reverse_inexact",
    "LGD.C81.reverse_exact"
   ],
   "note": "sound is proved for models which don't depend on the order of neighbors, as long as cycle counters don't overflow; for others it is false (order_not_checked). Updates of the edge cell are accepted (edge_update_accepted). updateLineX takes an edge of weight 0 to column 0 for padding (zero_edge_lost), line_update covers all other rows with distinct columns. The reverse adjacency contains all edges (reverse_complete) but also others where ids wrap around (reverse_inexact); it is exact elsewhere (reverse_exact). Weights are values of a linear order, NaN isn't modelled."
  },
  {
   "property": "C82",
   "status": "partial",
   "theorems": [
    "LGD.C82.cargo",
    "LGD.C82.backward",
    "LGD.C82.no_spawns",
    "LGD.C82.all_members",
    "LGD.C82.forward_updated",
    "LGD.C82.backward_not_updated",
    "LGD.C82.update_eq"
   ],
   "note": "Holds for insertions into the particle's own member or ones declared before it (backward, update_eq). It is false for members declared later: the particle is updated at once (forward_updated), but wouldn't be if the declarations were swapped (backward_not_updated). Updates depend on the old grid only (not on what other particles inserted), capacities aren't exceeded, insertion doesn't invalidate iterators (FixedArray, not std::vector). ContainerCell, whose loop has no fixed end, isn't covered."
  }
 ]
}
