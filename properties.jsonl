{"id": "C01", "title": "Region insert/remove/lookup behave like a set of coordinates", "statement": "After any sequence of Region << streak and Region >> streak operations (single coordinates are streaks of length one, streaks with endX <= origin.x are ignored) starting from an empty region, count(c) is true exactly for the coordinates that a plain mathematical set would contain after the same sequence, and count(streak) for a non-empty streak is true exactly if every coordinate of it is in that set. No operation sequence reads or writes outside the internal index vectors.", "quantifier": "every dimension 1..3 (any number of dimensions), every finite history of insertions and removals, every queried coordinate/streak", "why_tests_cant": "the compressed multi-level run-length representation has unboundedly many shapes; off-by-one errors in the offset fix-up only show for particular histories", "anchors": ["src/libgeodecomp/geometry/region.h: Region::operator<<(Streak), Region::operator>>(Streak), Region::count, RegionInsertHelper, RegionRemoveHelper, RegionLookupHelper, RegionCommonHelper::incRemainder"]}
{"id": "C02", "title": "Region equality is set equality (canonical form)", "statement": "Two regions obtained by arbitrary histories compare equal with operator== exactly if they contain the same coordinates; the stored streaks are always non-empty, sorted, and no two stored streaks of a row overlap or touch.", "quantifier": "every pair of operation histories in any dimension", "why_tests_cant": "needs a representation invariant that survives every history; tests compare a few hand-made regions", "anchors": ["src/libgeodecomp/geometry/region.h: Region::operator==, RegionInsertHelper<0>, RegionRemoveHelper<0>, intersectOrTouch, fuse, substract"]}
{"id": "C03", "title": "Region set algebra (+, +=, -, -=, &, &=)", "statement": "For all regions a, b: a+b, a-b, a&b (and the in-place forms) contain exactly the union, difference and intersection of the coordinates of a and b, and are again canonical; the same holds for every nested expression.", "quantifier": "every pair of reachable regions in any dimension", "why_tests_cant": "two-cursor merge loops have many relative alignments of streaks (partial overlap, containment, multiple streaks per row, different rows/planes) that sampling cannot exhaust", "anchors": ["src/libgeodecomp/geometry/region.h: operator-, operator&, operator+=, operator+, isAppendable, merge2way, RegionIntersectHelper"]}
{"id": "C04", "title": "Region size() and boundingBox() reflect the content after any history", "statement": "size() returns the number of coordinates in the region and boundingBox() the smallest box containing them (the empty box for an empty region), whatever interleaving of modifications and queries happened before, i.e. the lazily updated cache is never stale.", "quantifier": "every interleaving of insert, remove, clear, size and boundingBox calls", "why_tests_cant": "stale-cache bugs need a specific interleaving of queries and mutations", "anchors": ["src/libgeodecomp/geometry/region.h: size, boundingBox, resetGeometryCache, determineGeometry, clear"]}
{"id": "C05", "title": "Region iteration enumerates each coordinate exactly once in storage order", "statement": "Iterating from begin() to end() (and streak-wise from beginStreak() to endStreak()) terminates, yields every coordinate of the region exactly once, and in ascending order by (z, y, x); numStreaks() equals the number of streaks yielded.", "quantifier": "every reachable region in any dimension", "why_tests_cant": "the multi-level iterator carries state across rows/planes; the traversal depends on all offset tables", "anchors": ["src/libgeodecomp/geometry/region.h: begin, end, beginStreak, endStreak, numStreaks, toVector; src/libgeodecomp/geometry/regionstreakiterator.h: operator++, operator==, endReached"]}
{"id": "C06", "title": "Random access into a region agrees with iteration", "statement": "region[i] yields an iterator to the i-th streak for every i < numStreaks(), and planeStreakIterator(k) yields the first streak of the k-th distinct value of the highest coordinate; continuing to iterate from there yields exactly the remaining streaks.", "quantifier": "every reachable region, every valid index", "why_tests_cant": "position arithmetic via binary search over offsets depends on the whole shape of the region", "anchors": ["src/libgeodecomp/geometry/region.h: operator[](size_t), planeStreakIterator, StreakIteratorInitSingleOffset, StreakIteratorInitOffsets"]}
{"id": "C07", "title": "streakIteratorOnOrAfter finds the first streak on or after a coordinate", "statement": "streakIteratorOnOrAfter(c) returns an iterator to the first streak (in storage order) whose origin is c or lies behind c, and endStreak() if there is none; iteration from there yields exactly the streaks from there on.", "quantifier": "every reachable region, every coordinate, in 1, 2 and 3 dimensions", "why_tests_cant": "the search backtracks across rows and planes; wrong cases only occur for particular sparse shapes", "anchors": ["src/libgeodecomp/geometry/region.h: streakIteratorOnOrAfter"]}
{"id": "C08", "title": "Region::expand is dilation by a box", "statement": "region.expand(r) contains exactly the coordinates whose distance to some coordinate of the region is at most r_d in every dimension d.", "quantifier": "every reachable region, every non-negative radius (also anisotropic)", "why_tests_cant": "the tripling scheme has radius-dependent control flow; unit tests use a few radii", "anchors": ["src/libgeodecomp/geometry/region.h: expand, expandInOneDimension, merge2way, merge3way"]}
{"id": "C09", "title": "expandWithTopology maps the dilation onto the simulation space", "statement": "For a region within the grid box, expandWithTopology(width, dims, topology) contains exactly the in-grid coordinates which are the topological image of a coordinate at distance <= width: wrapped on periodic axes, dropped outside on constant axes.", "quantifier": "every region inside the box, every width, every box, every combination of periodic/constant axes", "why_tests_cant": "corner/edge wrap cases multiply with widths, thin grids and partially wrapping topologies", "anchors": ["src/libgeodecomp/geometry/region.h: expandWithTopology, splitStreak, trimStreak, normalizeStreak; src/libgeodecomp/geometry/topologies.h: NormalizeCoord, NormalizeEdges, OutOfBounds"]}
{"id": "C10", "title": "expandWithAdjacency is the k-hop neighborhood", "statement": "region.expandWithAdjacency(width, adjacency) contains exactly the nodes reachable from a node of the region by at most width adjacency edges.", "quantifier": "every region, every adjacency, every width", "why_tests_cant": "graphs and widths are unbounded; the implementation only re-expands newly added nodes", "anchors": ["src/libgeodecomp/geometry/region.h: expandWithAdjacency"]}
{"id": "C11", "title": "RegionBasedAdjacency stores exactly the inserted edges", "statement": "After any sequence of insert(from, to) and insert(from, {to...}) calls, getNeighbors(n) returns exactly the distinct nodes inserted for n (ascending), and size() the number of distinct edges, whatever the split threshold maxSize.", "quantifier": "every insertion history, every node, every maxSize", "why_tests_cant": "internal splits depend on the history; only long histories trigger them", "anchors": ["src/libgeodecomp/geometry/regionbasedadjacency.h: insert, getNeighbors, size, splitIfTooLarge, index"]}
{"id": "C12", "title": "CoordBox iteration visits each coordinate of the box once", "statement": "Iterating over a CoordBox yields exactly the coordinates origin <= c < origin + dimensions, each once, in storage order; streak iteration yields exactly one streak per row; size() is their number. Boxes with zero extents yield nothing.", "quantifier": "every origin and every non-negative extent", "why_tests_cant": "tests use a few boxes; degenerate extents are a typical gap", "anchors": ["src/libgeodecomp/geometry/coordbox.h: CoordBox::Iterator, CoordBoxStreakIterator, size, inBounds, intersects"]}
{"id": "C13", "title": "Topology normalization is periodic/cutting as specified", "statement": "normalize(c, dims) for coordinates at most one period outside yields c mod dims on periodic axes, and the out-of-bounds marker exactly if a non-periodic axis is outside; the in-bounds results are a fixed point and grid lookups through locate() hit index toIndex(c mod dims) or the edge cell.", "quantifier": "every dims > 0, every coordinate within one period, each of the 2^DIM topologies", "why_tests_cant": "the number of axis combinations times boundary values is large", "anchors": ["src/libgeodecomp/geometry/topologies.h: NormalizeEdges, OutOfBounds, NormalizeCoord, Topology::locate, Topology::normalize"]}
{"id": "C14", "title": "Linear index and coordinate conversion are inverse bijections", "statement": "For positive dims, toIndex is a bijection from in-bounds coordinates to [0, prod(dims)) and indexToCoord is its inverse; the order of indices equals storage order.", "quantifier": "every dims > 0 in 1, 2, 3 dimensions and every coordinate/index in range", "why_tests_cant": "arithmetical identity over unbounded sizes", "anchors": ["src/libgeodecomp/geometry/coord.h: Coord::toIndex, CoordHelpers::IndexToCoordHelper, prod"]}
{"id": "C15", "title": "Striping partition assigns each cell to exactly one node", "statement": "For any weights vector, the regions returned by StripingPartition / UnstructuredStripingPartition are pairwise disjoint, node i gets exactly weights[i] cells, and if the offset is 0 and the weights sum to the grid volume they cover the grid.", "quantifier": "every grid size, every offset, every weights vector", "why_tests_cant": "off-by-one errors at stripe borders depend on alignment of weights with rows/planes", "anchors": ["src/libgeodecomp/geometry/partitions/stripingpartition.h, src/libgeodecomp/geometry/partitions/spacefillingcurve.h, src/libgeodecomp/geometry/partitions/partition.h: startOffsets, src/libgeodecomp/geometry/partitions/unstructuredstripingpartition.h"]}
{"id": "C16", "title": "Z-curve partition enumerates every cell exactly once", "statement": "The Z-curve traversal over any box (also non-square and non-power-of-two) yields every coordinate exactly once, and random access curve[i] equals the i-th element of sequential iteration.", "quantifier": "every box dimension in 2D and 3D, every position", "why_tests_cant": "recursive subdivision depends on all dimension sizes; tests only sample", "anchors": ["src/libgeodecomp/geometry/partitions/zcurvepartition.h"]}
{"id": "C17", "title": "Hilbert partition enumerates every cell exactly once", "statement": "The Hilbert traversal over any 2D box yields every coordinate exactly once, and random access agrees with sequential iteration.", "quantifier": "every 2D box dimension, every position", "why_tests_cant": "same as for the Z-curve, with four different recursion forms", "anchors": ["src/libgeodecomp/geometry/partitions/hilbertpartition.h, src/libgeodecomp/geometry/partitions/hilbertpartition.cpp"]}
{"id": "C18", "title": "H-indexing partition enumerates every cell exactly once and supports random access", "statement": "The H-indexing traversal over any 2D box yields every coordinate exactly once, and curve[i] agrees with the i-th element of sequential iteration (so that node regions are disjoint and cover the grid).", "quantifier": "every 2D box dimension, every position", "why_tests_cant": "triangle recursion with cached sequences has many special shapes", "anchors": ["src/libgeodecomp/geometry/partitions/hindexingpartition.h, src/libgeodecomp/geometry/partitions/hindexingpartition.cpp"]}
{"id": "C19", "title": "Recursive bisection partition assigns each cell to exactly one node", "statement": "For every grid and every weights vector summing up to the grid volume, the regions returned by RecursiveBisectionPartition are pairwise disjoint boxes that cover the grid.", "quantifier": "every box, every number of nodes, every weights vector", "why_tests_cant": "geometric bisection depends on weights distribution; degenerate weights are rarely tested", "anchors": ["src/libgeodecomp/geometry/partitions/recursivebisectionpartition.h"]}
{"id": "C20", "title": "Checkerboarding partition assigns each cell to exactly one node", "statement": "The regions of CheckerboardingPartition for nodes 0..n-1 are pairwise disjoint and cover the grid.", "quantifier": "every grid box in 2D and 3D, every number of nodes n >= 1", "why_tests_cant": "factorization of the node count and integer division rounding give many cases", "anchors": ["src/libgeodecomp/geometry/partitions/checkerboardingpartition.h"]}
{"id": "C21", "title": "Ghost zones of neighboring nodes match", "statement": "For any partition, the outer ghost zone fragment node A expects from node B at ghost zone width w equals the inner ghost zone fragment node B prepares for node A; fragments lie within the provider's own region, and together the outer fragments cover every cell within distance w of A's region that is owned by some other node.", "quantifier": "every partition, every topology/adjacency (also directed graphs), every ghost zone width", "why_tests_cant": "pairs of nodes times partitions times widths cannot be enumerated; a mismatch means deadlock or corrupted data", "anchors": ["src/libgeodecomp/geometry/partitionmanager.h: resetGhostZones, intersect, fillRegion, getOuterGhostZoneFragments, getInnerGhostZoneFragments"]}
{"id": "C22", "title": "Rim, inner sets and kernel of the partition manager are nested correctly", "statement": "ownRegion(0) is the region the partition assigns and ownRegion(w) the cells needed for w updates of it; rim(ghostZoneWidth) consists of exactly the own cells that some foreign cell needs within ghostZoneWidth updates, innerSet(ghostZoneWidth) (the kernel) of all other own cells; rim(k) and innerSet(k) contain exactly what is needed to update rim(k+1) and innerSet(k+1); inner sets never leave the own region; every inner ghost zone fragment is part of the rim; the volatile kernel is the part of the kernel that rim updates touch.", "quantifier": "every partition, every topology or adjacency, every ghost zone width, every substep", "why_tests_cant": "nesting of repeatedly expanded/complemented regions must hold for all shapes", "anchors": ["src/libgeodecomp/geometry/partitionmanager.h: fillOwnRegion, ownRegion, innerSet, rim, volatileKernel, innerRim"]}
{"id": "C23", "title": "OffsetHelper places the node's grid so that no access leaves it", "statement": "The offset and dimensions computed for a node's displaced grid fit the region they are computed for (the node's region including its ghost zone): relative to the offset and normalized by the topology each cell of the region lies inside the box, distinct cells are mapped to distinct positions and cells that are adjacent along an axis stay adjacent (so a streak is one contiguous run of memory); the box never exceeds the bounding box of the region or the simulation area.", "quantifier": "every region inside the simulation area, every simulation area and every combination of periodic and constant axes; unstructured grids", "why_tests_cant": "arithmetical case distinction over four parameters per axis", "anchors": ["src/libgeodecomp/parallelization/nesting/offsethelper.h"]}
{"id": "C24", "title": "PatchBuffer delivers requested snapshots in order", "statement": "For requests in increasing order, get(nanoStep) returns exactly the region content at the time put() was called for that nanoStep; content is unaffected by later grid changes; no entry is lost, duplicated or delivered for a step that was not requested.", "quantifier": "every interleaving of pushRequest, put and get calls, every region and grid content", "why_tests_cant": "needs all interleavings and histories", "anchors": ["src/libgeodecomp/storage/patchbuffer.h, src/libgeodecomp/storage/patchaccepter.h, src/libgeodecomp/storage/patchprovider.h"]}
{"id": "C25", "title": "PatchLink sender and receiver agree on all steps", "statement": "A PatchLink accepter charged with (next, last, stride) sends exactly the steps next, next+stride, ... that lie before last (the first one always; all if last is infinity) and the provider charged identically receives exactly those, each matched by FIFO message order; each message carries the region content of its own step although send and receive buffers are reused; a patch that was sent can always be received without further action of the sender.", "quantifier": "every next, last, stride >= 1, both protocols (fixed size, header plus payload), every interleaving of put calls, get calls and message transport", "why_tests_cant": "lock-step behaviour over unbounded run lengths and arbitrary interleaving", "anchors": ["src/libgeodecomp/communication/patchlink.h: PatchLink::Accepter, PatchLink::Provider, charge, put, get, recv"]}
{"id": "C26", "title": "Distributed stepper computes what the serial simulation computes", "statement": "Given patch providers that deliver the neighbors' correct cells at every synchronisation point (every ghostZoneWidth nano steps after the start), after any number of nano steps the stepper has not thrown, reports the right step and nano step, and its grid agrees with a serial simulation, in which the same steerers act on the whole grid at their due steps, on the inner set of the current width; without steerers it agrees at synchronisation points on the whole own region. Every grid shown to rim accepters agrees with the serial simulation on the rim, every grid shown to kernel accepters on the kernel; each nano step is shown exactly once and in order (rim: up to the next synchronisation point).", "quantifier": "every initial state, update rule with local neighborhood, list of cell-wise steerers with positive periods, regions as produced by the partition manager, ghost zone width >= 1, number of nano steps per step, number of steps", "why_tests_cant": "the overlapping of rim update, kernel save/restore and patches has ghostZoneWidth-dependent phases; one-off stale cells only show at particular widths/shapes", "anchors": ["src/libgeodecomp/parallelization/nesting/vanillastepper.h: update1, updateGhost, update; src/libgeodecomp/parallelization/nesting/commonstepper.h: notifyPatchAccepters, notifyPatchProviders, saveRim, restoreRim, saveKernel, restoreKernel"]}
{"id": "C27", "title": "ParallelWriterAdapter fires writers exactly at the right steps", "statement": "During a simulation from firstStep to lastStep, the wrapped writer is called with WRITER_INITIALIZED at the first step, WRITER_ALL_DONE at the last step, and WRITER_STEP_FINISHED exactly at the multiples of its period strictly in between, each once per patch, with the correct step number.", "quantifier": "every firstStep, lastStep, period >= 1", "why_tests_cant": "requests are generated lazily; start steps not aligned with the period are rarely tested", "anchors": ["src/libgeodecomp/parallelization/nesting/parallelwriteradapter.h"]}
{"id": "C28", "title": "SteererAdapter fires steerers exactly at the right steps", "statement": "During a simulation from firstStep to lastStep, the wrapped steerer is called with STEERER_INITIALIZED at the first step, STEERER_ALL_DONE at the last step and STEERER_NEXT_STEP exactly at the multiples of its period strictly in between, never at substeps, and the internal consistency exceptions are never thrown.", "quantifier": "every firstStep, lastStep, period >= 1", "why_tests_cant": "same as for the writer adapter", "anchors": ["src/libgeodecomp/parallelization/nesting/steereradapter.h"]}
{"id": "C29", "title": "Hierarchical simulator event loop ends exactly at maxSteps", "statement": "run() advances exactly to maxSteps * NANO_STEPS nano steps, handles load-balancing events exactly at the multiples of the period counted from the start (period 0: once, in the first step), never processes a stale event and never skips one. Calling step() or run() after the end has been reached dereferences the empty event map.", "quantifier": "every startStep <= maxSteps, NANO_STEPS >= 1, load balancing period (including 0)", "why_tests_cant": "event map interleavings for arbitrary periods", "anchors": ["src/libgeodecomp/parallelization/hierarchicalsimulator.h: initEvents, handleEvents, timeToNextEvent, timeToLastEvent; src/libgeodecomp/parallelization/hiparsimulator.h: run, step, nanoStep"]}
{"id": "C30", "title": "SerialSimulator computes the synchronous cell update and fires events in order", "statement": "After k steps from the initial grid, every cell equals k*NANO_STEPS synchronous applications of the update rule on the previous grid (double buffering never exposes a half-updated grid); writers see INITIALIZED once at startStep, STEP_FINISHED at each later step that is a multiple of the period, ALL_DONE at maxSteps (never, if a steerer ends the simulation earlier or startStep = maxSteps); steerers see INITIALIZED, then NEXT_STEP before each due step including the first, then ALL_DONE.", "quantifier": "every initial state, update rule, number of steps, period", "why_tests_cant": "unbounded numbers of steps, arbitrary rules", "anchors": ["src/libgeodecomp/parallelization/serialsimulator.h: step, run, nanoStep, handleInput, handleOutput; src/libgeodecomp/parallelization/monolithicsimulator.h; src/libgeodecomp/storage/vanillaupdatefunctor.h"]}
{"id": "C31", "title": "StripingSimulator equals the serial simulation for any number of ranks and any load balancer", "statement": "The union of the stripes of all ranks equals the serial simulation's grid after every nano step, also across re-partitioning by any sum-preserving load balancer; sends and receives of ghost regions and of redistribution match pairwise.", "quantifier": "every number of ranks, every grid height, every sequence of load balancer decisions, every number of steps", "why_tests_cant": "distributed histories with arbitrary re-partitionings", "anchors": ["src/libgeodecomp/parallelization/stripingsimulator.h: partition, nanoStep, waitForGhostRegions, initRegions, redistributeGrid, workloadsToPartitions, partitionsToWorkloads"]}
{"id": "C32", "title": "Load balancers preserve the total load", "statement": "LoadBalancer::initialWeights, OozeBalancer, RandomBalancer, BiasBalancer and NoOpBalancer return non-negative loads with the same sum and length as the input.", "quantifier": "every load vector, every relative-time measurement, every weight parameter", "why_tests_cant": "rounding residues depend on the values", "anchors": ["src/libgeodecomp/loadbalancer/loadbalancer.cpp: initialWeights; src/libgeodecomp/loadbalancer/oozebalancer.cpp; src/libgeodecomp/loadbalancer/randombalancer.cpp; src/libgeodecomp/loadbalancer/biasbalancer.cpp"]}
{"id": "C33", "title": "Grid reads return the last write; region save/load round-trips", "statement": "On Grid and DisplacedGrid, a read at c returns the value of the last write to a coordinate that is topologically identical to c (edge cell outside), the streak-wise accessors agree with the cell-wise ones, and loadRegion(saveRegion) restores exactly the region cells and nothing else.", "quantifier": "every sequence of writes/reads, every topology, every offset and dimension", "why_tests_cant": "aliasing through wrapping and displaced offsets; arbitrary histories", "anchors": ["src/libgeodecomp/storage/grid.h: operator[], set, get, setEdge, saveRegionImplementation, loadRegionImplementation; src/libgeodecomp/storage/displacedgrid.h: operator[], set, get, saveRegion, loadRegion; src/libgeodecomp/storage/gridbase.h: operator=="]}
{"id": "C34", "title": "Line-pointer update path equals the generic neighborhood update path", "statement": "Updating a streak via the fixed-coordinate/line-pointer path shows each cell exactly the neighbors that a topology-aware lookup in the source grid delivers, for interior streaks as well as at all edges and corners.", "quantifier": "every grid size, streak, topology, relative coordinate within the stencil", "why_tests_cant": "the cross product of edges/corners, streak lengths (1, 2, more) and topologies is large", "anchors": ["src/libgeodecomp/storage/linepointerassembly.h, src/libgeodecomp/storage/linepointerupdatefunctor.h, src/libgeodecomp/storage/linepointerneighborhood.h, src/libgeodecomp/storage/updatefunctor.h: UpdateFunctorHelpers::Selector"]}
{"id": "C35", "title": "FixedArray behaves like a bounded vector", "statement": "push_back, erase, remove, insert-order, comparison and append on FixedArray behave like a list with a maximum length; overflow raises an exception without changing the content.", "quantifier": "every operation history", "why_tests_cant": "arbitrary histories", "anchors": ["src/libgeodecomp/storage/fixedarray.h"]}
{"id": "C36", "title": "ContainerCell behaves like a bounded map from ID to cargo", "statement": "insert(id, cargo) overwrites or adds (raising an exception exactly if a new id does not fit), remove(id) deletes, lookup returns the last inserted value, iteration is in ascending ID order with unique IDs.", "quantifier": "every operation history, every capacity", "why_tests_cant": "arbitrary histories with overwrites at capacity, removal of absent IDs", "anchors": ["src/libgeodecomp/storage/containercell.h"]}
{"id": "C37", "title": "BoxCell conserves particles", "statement": "In a step where each particle moves by less than one box extent, each particle ends up in exactly one container, the one whose box contains its new position.", "quantifier": "every particle configuration, every grid (with at least 3 boxes per periodic axis)", "why_tests_cant": "conservation over all neighborhoods/corners/wrap-around", "anchors": ["src/libgeodecomp/storage/boxcell.h: copyOver, updateCargo, addContainedParticles; src/libgeodecomp/storage/neighborhooditerator.h"]}
{"id": "C38", "title": "SELL-C-sigma container stores the matrix", "statement": "After initFromMatrix, getRow(i) returns exactly the (column, value) pairs of row i in ascending column order, for all rows, chunk heights C and sorting scopes sigma.", "quantifier": "every sparse matrix, every C and sigma", "why_tests_cant": "padding/sorting depends on the row lengths of whole chunks", "anchors": ["src/libgeodecomp/storage/sellcsigmasparsematrixcontainer.h: InitFromMatrix, getRow, initFromMatrix, operator=="]}
{"id": "C39", "title": "ReorderingUnstructuredGrid hides the physical reordering", "statement": "get/set with logical node IDs are independent of the internal (sigma-sorted) physical order, and setting new weights (which reorders) leaves all logical cell values and the edge cell unchanged.", "quantifier": "every node set, every weights matrix, every operation history", "why_tests_cant": "reordering permutations depend on all row lengths", "anchors": ["src/libgeodecomp/storage/reorderingunstructuredgrid.h: set, get, setEdge, setWeights, reorderDelegateGrid, mapLogicalToPhysicalID, remapRegion"]}
{"id": "C40", "title": "Unstructured loop peeler visits each index of a streak exactly once", "statement": "For any streak [begin, end), the peeled prologue, the vectorized main part and the epilogue together process each index in [begin, end) exactly once and no other, and the main part starts and ends on chunk boundaries.", "quantifier": "every begin <= end, every vector arity", "why_tests_cant": "alignment cases for all lengths/offsets", "anchors": ["src/libgeodecomp/storage/unstructuredlooppeeler.h"]}
{"id": "C41", "title": "expandWithStencil is the Minkowski sum with the stencil shape", "statement": "region.expandWithStencil(S) contains exactly the coordinates c0 + d with c0 in the region and d one of the relative coordinates of stencil S; for the Moore stencil of radius 1 it equals expand(1).", "quantifier": "every reachable region, every stencil shape, every dimension", "why_tests_cant": "the code run-length compresses the stencil and merges shifted, lengthened copies; unit tests use three stencils on few shapes", "anchors": ["src/libgeodecomp/geometry/region.h: expandWithStencil, merge2way", "src/libgeodecomp/geometry/stencils.h: Stencils"]}
{"id": "C42", "title": "Adding and removing boxes to/from a Region", "statement": "For every region r and CoordBox b with non-negative extents, r << b is the union of r with the coordinates of b and r >> b is r without them; both terminate.", "quantifier": "every reachable region, every box, every dimension", "why_tests_cant": "degenerate boxes and overlaps with arbitrary regions are not enumerable", "anchors": ["src/libgeodecomp/geometry/region.h: operator<<(CoordBox), operator>>(CoordBox); src/libgeodecomp/geometry/coordbox.h: StreakIterator"]}
{"id": "C43", "title": "A distributed simulation computes what the serial simulation computes", "statement": "For any decomposition of a structured grid onto any number of nodes and any ghost zone width, however the nodes interleave: no node ever throws, a node which nobody is behind is never blocked, all nodes can proceed to any given time step, and all grids shown to writers (rim and kernel parts) carry the cells of the serial simulation, in which the same steerers act on the whole grid, for every nano step, once and in order. Without steerers the node's own cells at each synchronisation point are exactly those of the serial simulation.", "quantifier": "every number of nodes, partition, topology, ghost zone width up to the periodic extents, local update function, initial grid, list of cell-wise steerers, interleaving of the nodes and number of steps", "why_tests_cant": "depends on interleavings of nodes and messages, and on combinations of partition shapes, widths and topologies; errors show as single stale cells", "anchors": ["src/libgeodecomp/parallelization/nesting/updategroup.h: init", "src/libgeodecomp/parallelization/nesting/vanillastepper.h: update1, updateGhost", "src/libgeodecomp/parallelization/nesting/commonstepper.h: notifyPatchAccepters, notifyPatchProviders", "src/libgeodecomp/communication/patchlink.h: Accepter, Provider", "src/libgeodecomp/geometry/partitionmanager.h"]}
{"id": "C44", "title": "run() starts over, whatever happened to the simulator before", "statement": "A call of run() on a simulator which has already executed step() or run() produces the same final grid as run() on a freshly constructed simulator with the same initializer. This holds for the serial simulator; the striping simulator violates it, because ghost zones sent by the earlier steps are still in transit and get received by the later run.", "quantifier": "every number of earlier steps, every initializer, grid and update function (serial); a two-rank witness (striping)", "why_tests_cant": "depends on histories of calls; the violation is only visible if the ghost zones of both runs differ", "anchors": ["src/libgeodecomp/parallelization/serialsimulator.h: SerialSimulator::run, SerialSimulator::step", "src/libgeodecomp/parallelization/stripingsimulator.h: StripingSimulator::run, StripingSimulator::initSimulation, StripingSimulator::waitForGhostRegions"]}
{"id": "C45", "title": "Neighborhoods of unstructured grids enumerate the weights of their node", "statement": "The neighborhood handed to a node's update shows exactly the (neighbor, weight) pairs of the node's row of the weight matrix, in ascending order, for every node of a streak; in vectorized updates each lane shows the row of its node, filled up with zero weights only.", "quantifier": "every matrix, chunk size, sorting scope, streak of nodes", "why_tests_cant": "offsets depend on the lengths of all rows and on chunk alignment", "anchors": ["src/libgeodecomp/storage/unstructuredneighborhood.h: UnstructuredNeighborhood, Iterator", "src/libgeodecomp/storage/unstructuredsoaneighborhood.h: UnstructuredSoANeighborhood, Iterator, ScalarIterator, incIntraChunkOffset"]}
{"id": "C46", "title": "An unstructured simulation computes the reference update on logical node IDs", "statement": "Updating a region of an unstructured grid (with weights set and IDs remapped by the grid) gives each node of the region, by logical ID, the result of the cell's update function applied to its own old state and the multiset of (old neighbor state, weight) pairs of its matrix row; all other nodes and the weights keep their values; hence a serial run computes the iterated reference.", "quantifier": "every node set, weight matrix, sorting scope, chunk size, cell update function, number of steps", "why_tests_cant": "reordering depends on all row lengths", "anchors": ["src/libgeodecomp/storage/unstructuredupdatefunctor.h: apiWrapper", "src/libgeodecomp/storage/reorderingunstructuredgrid.h: setWeights, remapRegion, operator[]", "src/libgeodecomp/parallelization/serialsimulator.h: SerialSimulator, nanoStep"]}
{"id": "C47", "title": "An SoA grid behaves like a map from coordinates to cells with one edge cell", "statement": "After any sequence of writes of cells, streaks, regions, members and of the edge cell, reads of cells, streaks, regions, members and of the edge cell inside of the bounding box return the latest value written to the same cell; topologically correct grids wrap the coordinates of single cells and streaks along periodic axes; a read beyond a constant boundary returns the edge cell; resize yields a well-formed grid; saving a region in one grid and loading it in another one transfers exactly its cells; buffers which are too small are refused.", "quantifier": "every dimension, size, origin, offset, topology, stencil radius, padding of the memory, sequence of operations, region", "why_tests_cant": "padding, edge cells and memory layout interact with every size, origin and radius; tests use a few fixed grids", "anchors": ["src/libgeodecomp/storage/soagrid.h: SoAGrid, set, get, setEdge, resize, saveRegion, loadRegion, saveMemberImplementation, loadMemberImplementation"]}
{"id": "C48", "title": "Updating a region of an SoA grid hands each cell exactly its neighbors", "statement": "Updating a region of an SoA grid gives each cell of the region the result of the cell's update function applied to the values of its neighbors in the source grid: the edge cell beyond constant boundaries, the wrapped cell beyond periodic boundaries; all other cells and the edge cell keep their values; grids of different extents are refused.", "quantifier": "every dimension, size, origin, offset, topology, stencil (radius 1 along periodic axes), region, cell update function", "why_tests_cant": "boundary flags depend on the position of every streak; bugs only show up for streaks with special start or length", "anchors": ["src/libgeodecomp/storage/fixedneighborhoodupdatefunctor.h: Invoke", "src/libgeodecomp/storage/fixedneighborhood.h: operator[]", "src/libgeodecomp/storage/updatefunctor.h: Selector, ConcurrencyEnableHPX"]}
{"id": "C49", "title": "Threaded updates of a region yield the result of the serial loop for every schedule", "statement": "Whatever tasks the update functor creates for a region (OpenMP over planes, OpenMP or HPX over parts of streaks, HPX over planes, or the serial loop), they update each cell of the region exactly once and no other cell, no two of them write the same cell, and any interleaving of their steps leaves the target grid with the cells which the serial loop yields.", "quantifier": "every region, dimension, topology, grid, stencil of radius 1, cell update function, concurrency specification, granularity, interleaving of the tasks", "why_tests_cant": "the number of interleavings is exponential and a test sees one of them; splitting of streaks depends on every origin, length and granularity", "anchors": ["src/libgeodecomp/storage/updatefunctormacros.h: LGD_UPDATE_FUNCTOR_THREADING_SELECTOR_1 to _8", "src/libgeodecomp/storage/updatefunctor.h: Selector, ConcurrencyEnableOpenMP, ConcurrencyEnableHPX", "src/libgeodecomp/geometry/region.h: planeStreakIterator, numPlanes", "src/libgeodecomp/storage/linepointerupdatefunctor.h: operator()"]}
{"id": "C50", "title": "Checkpoints written with MPI-IO can be restored", "statement": "ParallelMPIIOWriter's file for a due step contains dimensions, step, maximum steps, edge cell, and all cells of that step in row-major order, whatever regions the processes hand over, in whatever order the individual writes of the processes happen, and whatever the files contained before; no other file is touched. MPIIOInitializer restores metadata, edge cell and exactly the cells of the box of each process from such a file, for any decomposition whose boxes do not cross the periodic x border. MPIIOWriter followed by MPIIOInitializer restores the whole grid, even if cells have padding.", "quantifier": "for all dimensions up to 3D, topologies, datatypes, cell values, lists of calls (ranks, regions, steps, events), permutations of the writes, previous file contents, and boxes of the restarted processes", "why_tests_cant": "The order in which processes write, the decompositions before and after a restart and the content of pre-existing files cannot be enumerated; the shipped tests use unpadded cells and boxes aligned with the simulation space.", "anchors": ["src/libgeodecomp/io/mpiio.h:24-213", "src/libgeodecomp/io/parallelmpiiowriter.h:44-78", "src/libgeodecomp/io/mpiiowriter.h:45-76", "src/libgeodecomp/io/mpiioinitializer.h:30-60"]}
{"id": "C51", "title": "Parallel and serial Brick-of-Values output agree", "statement": "The data file written by SerialBOVWriter contains the selected member (scalar or array) of all cells in row-major order. For scalar members, BOVWriter (constructed with a selector) writes the same data file, whatever regions the processes hand over and in whatever order their writes happen, also from displaced grids whose boxes cross a periodic border.", "quantifier": "for all dimensions up to 3D, topologies, members, cell values, lists of calls, permutations of the writes, and previous file contents", "why_tests_cant": "Decompositions and interleavings of writes cannot be enumerated, and the tests only exercise scalar members with the selector constructor.", "anchors": ["src/libgeodecomp/io/bovwriter.h:33-172", "src/libgeodecomp/io/bovoutput.h:63-97", "src/libgeodecomp/io/serialbovwriter.h:53-85", "src/libgeodecomp/storage/grid.h:422-454", "src/libgeodecomp/storage/displacedgrid.h:354-370"]}
{"id": "C52", "title": "ParallelMemoryWriter gathers the global grid on every process", "statement": "If all processes call ParallelMemoryWriter::stepFinished for the same sequence of steps and events with valid regions that do not overlap, then every execution terminates: no process gets stuck, no operation touches memory owned by a pending MPI operation, no message is lost, mismatched or truncated, and all requests are completed. All executions end in the same state, in which getGrid(step) of every process holds exactly the cells delivered by any process for that step, default cells elsewhere, and the edge cell. If two valid regions overlap, there is an execution with a data race.", "quantifier": "for all numbers of processes, dimensions up to 3D, topologies, cell values, periods, sequences of calls, regions, interleavings of the processes, choices of the MPI library between eager and rendezvous protocol per message, and times at which it copies data", "why_tests_cant": "The unit tests run one schedule on one MPI implementation with a handful of ranks; deadlocks that only appear when messages are not buffered, and races between pending transfers, do not show up.", "anchors": ["src/libgeodecomp/io/parallelmemorywriter.h:36-93", "src/libgeodecomp/communication/mpilayer.h:86-168", "src/libgeodecomp/communication/mpilayer.h:256-325"]}
{"id": "C53", "title": "CollectingWriter shows the whole grid to its delegate", "statement": "If all processes call CollectingWriter::stepFinished equally often, then every execution terminates without deadlock, data race, lost or truncated messages. The delegate on the root is called exactly once per call with lastCall set, with the step, event and edge cell of the root, and sees for every cell what was delivered most recently. If the regions handed over for a step cover the simulation area, these are the cells of this step. Nothing happens on other processes.", "quantifier": "for all numbers of processes, roots, dimensions up to 3D, topologies, cell values, sequences of calls, regions (overlapping or not), interleavings of the processes, eager/rendezvous choices and times of copying", "why_tests_cant": "Executions cannot be enumerated; one buffer is reused for all senders, so that missing synchronization would only show with certain timings.", "anchors": ["src/libgeodecomp/io/collectingwriter.h:61-117", "src/libgeodecomp/communication/mpilayer.h:86-168", "src/libgeodecomp/communication/mpilayer.h:256-289"]}
{"id": "C54", "title": "The dataflow simulator computes the synchronous message passing simulation", "statement": "HPXDataflowSimulator::run() returns on every locality, whatever the order in which tasks are scheduled and messages arrive. When it returns, each cell of the locality was updated exactly maxSteps * NANO_STEPS times, in order, with step and nano step counting up; each update saw exactly those messages its neighbors sent in the preceding (nano) step, or default constructed messages from neighbors that sent none (and in the first step). No exception is thrown and no undefined behaviour occurs, provided that the adjacency is symmetric, each locality has cells, the chunk size is positive and cells send at most one message per step to each neighbor.", "quantifier": "All cell classes (update functions), adjacencies, distributions of cells to localities, numbers of steps and nano steps, chunk sizes; all schedules of all tasks of all localities and all message delays.", "why_tests_cant": "Tests see a handful of schedules of a few small graphs. Deadlocks, lost or mixed up messages and races with the look-ahead of the semaphore only show up for particular interleavings.", "anchors": ["src/libgeodecomp/parallelization/hpxdataflowsimulator.h:59-276", "src/libgeodecomp/parallelization/hpxdataflowsimulator.h:336-432", "src/libgeodecomp/communication/hpxreceiver.h:54-146"]}
{"id": "C55", "title": "MeshlessAdapter finds all neighbors, and only those", "statement": "After any sequence of insert() calls into a fresh container grid, MeshlessAdapter::search(pos) reports exactly the IDs of those vertices of which some periodic image is closer to pos than the box size, and returns whether there are any. If checkBoxSize() accepts a box size, then for each edge of the graph the neighbor is stored within the Moore neighborhood (via the topology) of the vertex' container cell. findOptimumBoxSize() always ends; if it returns a value, then this is the new box size, there are at most MAX_SIZE container cells, and all edges are covered in this sense. In exact arithmetic; vertices lie in the simulation space on periodic axes.", "quantifier": "All extents, box sizes, sets of vertices (also outside of the simulation space on constant axes), graphs, query points, and topologies with any mix of periodic and constant axes.", "why_tests_cant": "Tests use a few fixed point sets. Misses depend on how positions fall relative to the borders of container cells, the overhang at the far boundary and wrap-around; termination of the bisection is a matter of all inputs.", "anchors": ["src/libgeodecomp/storage/meshlessadapter.h:47-90", "src/libgeodecomp/storage/meshlessadapter.h:107-196", "src/libgeodecomp/storage/meshlessadapter.h:247-335"]}
{"id": "C56", "title": "Distributed simulations on MPI always end, with the serial result", "statement": "If an MPI based distributed simulation (UpdateGroups with VanillaSteppers which exchange patches via PatchLinks) runs on all ranks, then for every order in which the ranks proceed and in which MPI copies and delivers messages, all ranks return: no deadlock, no access to buffers owned by MPI, no truncated or left-over messages, no open requests. All executions end in the same state, in which each rank's writers were shown all own cells for all nano steps as in the serial simulation, and (without steerers, at synchronisation points) the grid agrees with the serial simulation on the own region. For cell types with buffers of variable size this is false: Provider::cleanup() reads the size of a pending patch without waiting for it.", "quantifier": "All numbers of ranks, decompositions, periodic/constant boundaries, dimensions, ghost zone widths, update functions, steerers, numbers of steps, sizes of buffers, choices of MPI between eager and rendezvous sends, and all interleavings.", "why_tests_cant": "MPI tests see one timing on a few ranks with small messages (which MPI sends eagerly). Deadlocks and buffer races depend on timing and message size.", "anchors": ["src/libgeodecomp/communication/patchlink.h:55-281", "src/libgeodecomp/parallelization/nesting/updategroup.h:73-80", "src/libgeodecomp/parallelization/nesting/updategroup.h:182-260", "src/libgeodecomp/parallelization/nesting/mpiupdategroup.h:84-104"]}
{"id": "C57", "title": "Simulations on HPX always end, with the serial result", "statement": "If HpxSimulator runs with cooperating update groups (HPXUpdateGroup, HPXPatchLink, HPXStepper) and at most one steerer, then for every order in which the groups are set up and proceed and in which HPX delivers parcels, only finitely many things happen, none of which is an exception (in particular no receive buffer gets a patch twice), and it only stops when all groups have reached the last nano step and all parcels have arrived. Each group's writers were then shown all own cells for all nano steps as in the serial simulation and (without steerers, at synchronisation points) the grid agrees with the serial simulation on the own region. With two or more steerers this is false: HPXStepper calls them concurrently, so that the result depends on the schedule.", "quantifier": "All numbers of groups, decompositions, periodic/constant boundaries, dimensions, ghost zone widths, update functions, steerers, numbers of steps and all interleavings of start-up, updates and arrivals.", "why_tests_cant": "The HPX tests run few groups on one machine, where parcels practically arrive in order and groups stay in lockstep; races of steerers show up rarely.", "anchors": ["src/libgeodecomp/communication/hpxpatchlink.h:83-205", "src/libgeodecomp/communication/hpxreceiver.h:98-140", "src/libgeodecomp/parallelization/nesting/hpxstepper.h:95-139", "src/libgeodecomp/parallelization/nesting/updategroup.h:157-260", "src/libgeodecomp/parallelization/nesting/hpxupdategroup.h", "src/libgeodecomp/parallelization/hpxsimulator.h"]}
{"id": "C58", "title": "Tunable parameters stay in their domain; pattern search returns the best point it has seen, a local optimum if it stops by itself", "statement": "After any sequence of setValue() and += calls the value of an Interval parameter is at least its minimum and less than its maximum (granularity positive and not above the extent), that of a DiscreteSet is one of its elements. For every evaluator and number of steps PatternOptimizer only evaluates points of the domain, at most 2 per parameter and step besides the start; it returns one of them, getFitness() is the fitness of the result, and no evaluated point is better. If it stops before all steps are used, then no step by the granularity of a single parameter leads to a better point; if no step changing a parameter leaves the fitness unchanged it does stop after as many steps as there are fitness values plus the number of halvings of the step widths. Parameters are found under their names and copied objects are independent. Violated: DiscreteSet::setValue ignores its argument; without granularity the excluded maximum is reached; a granularity above the extent (e.g. the default 1) leads below the minimum; on plateaus the search cycles forever; assigned SimulationParameters share their values with the original; an unknown name silently refers to the first parameter.", "quantifier": "for all domains, call sequences, evaluators, step widths and numbers of steps", "why_tests_cant": "Tests search a handful of hand-picked functions on hand-picked domains; local optimality and the absence of cycles concern all evaluators and arbitrarily many steps.", "anchors": ["src/libgeodecomp/misc/simulationparameters.h", "src/libgeodecomp/misc/patternoptimizer.cpp", "src/libgeodecomp/misc/optimizer.h"]}
{"id": "C59", "title": "The simplex algorithm returns the best vertex it has kept, never worse than its start, if fitness is positive", "statement": "For every evaluator with values in the range of positive doubles, every number of steps and every domain whose extents are multiples of the granularities, SimplexOptimizer only evaluates points of the domain (at most 2n+4 per step besides the n+1 initial ones), returns one of them, getFitness() is the fitness of the result, the result isn't worse than the start, and every evaluated point which is better is a reflection given up for its expansion. Violated: such points do occur in searches which end by themselves; with negative fitness (auto-tuning uses negative execution times) the first vertex is returned, which may be the worst of all evaluated points; discrete parameters never change.", "quantifier": "for all evaluators, domains, step sizes, epsilons and numbers of steps", "why_tests_cant": "Tests run a few smooth functions with positive values; the claims concern every evaluator, and the violations need particular fitness landscapes.", "anchors": ["src/libgeodecomp/misc/simplexoptimizer.cpp", "src/libgeodecomp/misc/simplexoptimizer.h", "src/libgeodecomp/misc/limits.h"]}
{"id": "C60", "title": "Initializers with a variable number of steps restore the original one; AutoTuningSimulator never completes a simulation", "statement": "VarStepInitializerProxy reports the original number of steps after resetMaxSteps(), and the n-th step after the first one as the last after setMaxSteps(n), whatever was called before. Violated expectations: a new proxy overshoots by startStep(); AutoTuningSimulator::run() throws std::invalid_argument in every configuration, as it looks for a factory which isn't registered, and even if it was found no simulation could be completed, as the best simulator is looked for among positive fitness values only, while fitness is the negative execution time; CUDA configurations which fail count as fitter than all which work; factories hand out writers they own, so that a second simulation uses writers which have been deleted, and the destructor deletes them again.", "quantifier": "for all initializers, sequences of calls, optimizers, execution times, numbers of steps and build configurations", "why_tests_cant": "AutoTuningSimulator's tests return at once (marked fixme); ownership errors are undefined behaviour and execution times vary.", "anchors": ["src/libgeodecomp/parallelization/autotuningsimulator.h", "src/libgeodecomp/io/varstepinitializerproxy.h", "src/libgeodecomp/misc/simulationfactory.h", "src/libgeodecomp/misc/cudasimulationfactory.h"]}
{"id": "C61", "title": "CUDASimulator computes the synchronous update for every topology, size of grid and blocks, and order of threads", "statement": "For models with array of structs layout and neighbors at distance 1, the kernels of CUDASimulator access no memory beyond the grids and compute the synchronous update of all cells, for all orders in which the threads' updates take place; no cell is updated twice. Simulations end after the last step with the result of the synchronous simulation, and writers are called at multiples of their periods and in the end, with the grid of their step. Violated expectations: on a periodic last axis threads without cells, and axes with just one cell, write beyond the grid - for one-dimensional tori always; neighbors at distance 2 are read from beyond the grid; steerers' changes are ignored; models with struct of arrays layout are never updated; CUDAStepper updates the first 200 cells of a region only.", "quantifier": "for all dimensions 1-3, topologies (periodic or constant per axis), grid sizes, block sizes, stencils of radius 1, update functions, numbers of nano steps, start and end steps, writers, steerers, and all orders of all updates of each launch", "why_tests_cant": "Tests run on one GPU with a few grid sizes and one schedule; accesses beyond the grid often go unnoticed.", "anchors": ["src/libgeodecomp/parallelization/cudasimulator.h", "src/libgeodecomp/storage/cudaupdatefunctor.h", "src/libgeodecomp/parallelization/nesting/cudastepper.h", "src/libgeodecomp/geometry/cudaregion.h", "src/libgeodecomp/geometry/topologies.h"]}
{"id": "C62", "title": "ConvexPolytope includes exactly the intersection of the inserted half-planes; elements of VoronoiMesher are Voronoi cells", "statement": "For all half-planes whose intersection with the simulation space has an inner point, and all orders of insertion, ConvexPolytope::includes() tells whether a point is in this intersection, although superfluous limits are dropped. All cut points are valid, on the boundary, and span the polytope; getShape() returns each of them once, at least three, counterclockwise, and doesn't throw if the center is an inner point; updateGeometryData() never finds an increased diameter. Elements of VoronoiMesher include exactly those points which are closer to their center than to all others. Violated expectations: neighbors' IDs aren't recorded (cells are told their own ID instead), and points are ignored if the middle between them and the center is left of or below -1, even if they matter.", "quantifier": "for all simulation spaces, centers, sequences of half-planes and points, and all query points", "why_tests_cant": "Tests use a few polygons; dropping limits is a geometric argument about all of them.", "anchors": ["src/libgeodecomp/geometry/convexpolytope.h", "src/libgeodecomp/geometry/plane.h", "src/libgeodecomp/geometry/voronoimesher.h"]}
{"id": "C63", "title": "Selectors transfer exactly the selected member, in both memory layouts", "statement": "For scalar members, array members, members of members (of any depth) and user-defined conversions, saveMember() stores for the k-th cell of a region the selected member (converted), element by element, and leaves the rest of the buffer alone; loadMember() changes exactly the selected member of exactly the cells in the region. Array-of-structs and struct-of-arrays grids which hold the same values yield the same buffer; loading and saving again returns the data. In struct-of-arrays grids members, cells and array elements never overlap and stay inside of the memory. Selectors for other types, members which aren't registered and device memory (without CUDA) raise exceptions. Violated expectations: loading a nested member into an array-of-structs grid resets all other parts of the enclosing member to their default (struct-of-arrays grids retain them); conversions of array members which rely on old values see uninitialized memory in struct-of-arrays grids.", "quantifier": "for all cell layouts, nestings, conversions, regions, grid extents and buffers", "why_tests_cant": "Layouts, arities, strides and nestings combine in unlimited ways; tests load nested members only where other members are default-constructed.", "anchors": ["src/libgeodecomp/storage/selector.h", "src/libgeodecomp/storage/filterbase.h", "src/libgeodecomp/storage/defaultfilter.h", "src/libgeodecomp/storage/defaultarrayfilter.h", "src/libgeodecomp/storage/simplefilter.h", "src/libgeodecomp/storage/simplearrayfilter.h", "src/libgeodecomp/storage/memberfilter.h", "src/libgeodecomp/storage/soagrid.h", "src/libgeodecomp/storage/grid.h"]}
{"id": "C64", "title": "Partitions based on SCOTCH turn any answer of the graph partitioner into the chosen regions", "statement": "ScotchPartition and PTScotchPartition (2D and 3D) hand the graph of neighboring cells to SCOTCH: the arrays have exactly the right size, and the edges of each cell lead, without repetition, to the cells of the grid next to it. For every answer, region r consists of exactly the cells which were assigned to part r; likewise PTScotchUnstructuredPartition. With DistributedPTScotchUnstructuredPartition all executions, with any buffering by MPI, end; all ranks hold the same regions, region k being the union of all fragments assigned to k; regions don't overlap. Up to 2^24 cells they cover exactly the grid. Violated: createRegions() of ScotchPartition and PTScotchPartition reads behind the end of the array in every run; beyond 2^24 cells the ranges of the ranks, computed with float, lose cells (16777217) or contain cells outside of the grid (16777219).", "quantifier": "for all grid sizes, origins, numbers of parts and ranks, answers of the partitioner, schedules and MPI buffering", "why_tests_cant": "The answer of SCOTCH isn't under the control of tests; the read behind the end doesn't influence the result; grids with more than 16 million nodes aren't tested.", "anchors": ["src/libgeodecomp/geometry/partitions/scotchpartition.h", "src/libgeodecomp/geometry/partitions/ptscotchpartition.h", "src/libgeodecomp/geometry/partitions/ptscotchunstructuredpartition.h", "src/libgeodecomp/geometry/partitions/distributedptscotchunstructuredpartition.h"]}
{"id": "C65", "title": "MPILayer: collective operations deliver everybody's data in order of ranks, and every request is completed exactly once", "statement": "allGather, allGatherV, gather and gatherV yield the concatenation of the contributions of all ranks in the order of the ranks, on all ranks or just on the root, whatever the sizes; broadcastVector yields the root's vector on all ranks whatever they pass. In every history of constructions, sends, receives, waits, tests and destructions of any number of layers, MPI only gets to see valid requests; wait(t), waitAll() and the destructor complete exactly the operations which this object issued (with tag t), wait returns their number; no request is freed twice or leaked. Vectors sent via sendVec arrive where their tags say.", "quantifier": "all numbers of ranks, roots, element types, contributions and sizes; all histories of calls on any number of layer objects with any tags; all interleavings and all eager/rendezvous choices of MPI", "why_tests_cant": "The tests call the collective operations for one number of ranks and one vector of sizes, and each wait follows its own sends. Whether the bookkeeping is right for each interleaving of calls on several objects, for copies, and with tags which aren't unique, isn't observable in passing test runs.", "anchors": ["src/libgeodecomp/communication/mpilayer.h:53-255", "src/libgeodecomp/communication/mpilayer.h:327-533"]}
{"id": "C66", "title": "Images: every cell is a tile in the color of its value, and files can be read by any PPM reader", "statement": "For each grid and tile size PPMWriter writes a file which a reader of the PPM format decodes to an image of cellDim x gridDim pixels whose pixel (x, y) has the color of the cell (x / cellDim.x, y / cellDim.y); files are written at the beginning, at the end and in multiples of the period; steps have different names. plotGridInViewport shows the panned excerpt and leaves other pixels alone. Image::slice returns the excerpt or throws, paste replaces just the covered pixels. Palette returns the last color added for a value, and interpolates linearly in between without leaving the range of its neighbors; QuickPalette runs from blue via cyan, green, yellow to red, with black and white beyond.", "quantifier": "all grids, tile sizes, colors, steps, periods and prefixes; all viewports and images; all sequences of addColor calls and all values", "why_tests_cant": "Tests compare a few images with reference pixels. They don't cover each combination of tile size, viewport and palette, and a channel which spills over into its neighbor or a tile which is off by one just shows for some of them.", "anchors": ["src/libgeodecomp/io/ppmwriter.h:68-112", "src/libgeodecomp/io/plotter.h:41-90", "src/libgeodecomp/storage/image.cpp:9-93", "src/libgeodecomp/storage/image.h:52-70", "src/libgeodecomp/misc/palette.h:24-60", "src/libgeodecomp/misc/quickpalette.h:19-51", "src/libgeodecomp/misc/color.h:31-79"]}
{"id": "C67", "title": "Grids in CUDA memory agree with grids in host memory", "statement": "After the same history of writes (single cells, streaks, regions loaded from buffers at an offset, the edge cell) a CUDAGrid has the same contents as a Grid with the same box: reads return the last value written to the same cell, coordinates outside denote the edge cell, periodic boundaries wrap. No transfer leaves the memory of the grid, getEdge() is the edge cell used on the device, saveRegion() stores the cells of the region in its order at the beginning of the buffer, and loadRegion()/saveRegion() throw if the buffer is too small.", "quantifier": "all boxes, cells, topologies and histories in up to three dimensions; streaks and regions within the box; single cells anywhere (cube) or up to one period away (topologically correct torus)", "why_tests_cant": "Tests with a few boxes and regions don't cover arbitrary histories, and transfers beyond a block of device memory mostly go unnoticed.", "anchors": ["src/libgeodecomp/storage/cudagrid.h:36-306", "lib/libflatarray/include/libflatarray/cuda_array.hpp:62-215"]}
{"id": "C68", "title": "Chronometers charge time to the events it was spent on, and loads stay between 0 and 1", "statement": "For each execution, including those ended by exceptions, the total of an event grows by the time during which timers of the event or of its descendants are open. The time for computation covers the inner set and the ghost zones. In each step of SerialSimulator and StripingSimulator and in each update of VanillaStepper the parts (computation, communication, input, output, patch accepters and providers) add up to at most the total, without anything being counted twice; thus each load which StripingSimulator reports to its balancer lies between 0 and 1. Chronometers are merged by adding, addTime charges an event and all of its ancestors once, report names all intervals.", "quantifier": "all programs made of nested timers, all durations and exceptions, all numbers of steps, nano steps, ghost zone widths and balancing periods", "why_tests_cant": "Tests measure a few intervals and compare with tolerance; whether timers overlap depends on the control flow, and a ratio beyond 1 just shows for some timings.", "anchors": ["src/libgeodecomp/misc/chronometer.h:30-338", "src/libgeodecomp/parallelization/serialsimulator.h:76-178", "src/libgeodecomp/parallelization/stripingsimulator.h:106-139", "src/libgeodecomp/parallelization/stripingsimulator.h:237-304", "src/libgeodecomp/parallelization/nesting/vanillastepper.h:93-226", "src/libgeodecomp/parallelization/nesting/commonstepper.h:113-158", "src/libgeodecomp/parallelization/nesting/cudastepper.h:336-375"]}
{"id": "C69", "title": "Text carries commands, cells and durations without loss", "statement": "StringOps::tokenize yields exactly the maximal nonempty parts without delimiters, for all strings; join and tokenize are inverse for words. For every sequence of typed lines the command server runs the actions named by the first words in order, with exactly the other words as parameters, and handlers of the remote steerer get these words again from the requests; no input crashes the server. ASCIIWriter's files list the members of all cells in the bounding box once, in storage order, one row per line. renderDuration prints durations from which hours, minutes, seconds and microseconds can be read back, and TracingWriter's estimate is the linear extrapolation of the time spent so far.", "quantifier": "all strings and delimiters, all lines typed, all keys and parameters, all dimensions, boxes and renderings of members, all durations, steps and periods", "why_tests_cant": "Tests tokenize a few strings with blanks in usual places, write one grid at the origin, and never run until 2038 or beyond the expected number of steps.", "anchors": ["src/libgeodecomp/misc/stringops.h:53-98", "src/libgeodecomp/io/remotesteerer/commandserver.h:266-298", "src/libgeodecomp/io/remotesteerer/passthroughaction.h:25-28", "src/libgeodecomp/io/remotesteerer.h:66-102", "src/libgeodecomp/io/remotesteerer/pipe.h:26-224", "src/libgeodecomp/io/remotesteerer/gethandler.h:30-58", "src/libgeodecomp/io/remotesteerer/setaction.h:18-22", "src/libgeodecomp/io/asciiwriter.h:47-155", "src/libgeodecomp/io/timestringconversion.h:38-60", "src/libgeodecomp/io/tracingwriter.h:81-146"]}
{"id": "C70", "title": "OpenMPSimulator computes what SerialSimulator computes", "statement": "For every schedule of the threads, step and run of OpenMPSimulator yield the very state SerialSimulator yields: the same grids, the same step, the same sequence of calls of writers and steerers with the same contents. OpenMPSimulator's own parallel handleOutput and handleInput, which derived classes may call, give each writer the calls it would get from the serial ones, and the same grid and feedback provided that steerers access disjoint sets of cells.", "quantifier": "all cell types and updates, all simulation areas, initial grids, steerers, writers and periods, all orders of updates, all interleavings of the accesses of steerers", "why_tests_cant": "Tests run one schedule with a single steerer; races between steerers show up rarely, and nobody notices that parallel functions are never called as their results equal the serial ones.", "anchors": ["src/libgeodecomp/parallelization/openmpsimulator.h:20-108", "src/libgeodecomp/parallelization/serialsimulator.h:76-177", "src/libgeodecomp/storage/updatefunctor.h"]}
{"id": "C71", "title": "Meshes fit into grids of container cells", "statement": "UnstructuredGridMesher chooses container cells as large as the largest distance of neighbors and a grid which contains all points: positionToLogicalCoord maps every position between the outermost points to a coordinate inside of [0, logicalGridDimension), without superfluous cells. Points which are neighbors end up in the same or in neighboring container cells, so that a Moore neighborhood of radius 1 suffices.", "quantifier": "all dimensions, all sets of points and neighborhoods, exact arithmetic as well as IEEE double precision with rounding to nearest even and gradual underflow", "why_tests_cant": "Tests mesh two sets of points with small integer coordinates, for which arithmetic is exact and no dimension is degenerate.", "anchors": ["src/libgeodecomp/geometry/unstructuredgridmesher.h:22-103", "src/libgeodecomp/geometry/floatcoord.h"]}
{"id": "C72", "title": "Random numbers are reproducible and in range; cells get their own numbers", "statement": "After Random::seed the numbers are those of the Mersenne Twister MT19937, whatever happened before; without a seed those of the seed 4357. No sequence of calls accesses memory beyond the state vector. genUnsigned(max) < max, 0 <= genDouble(max) < max. Initializer::seedRNG gives all coordinates of one logical cell the same numbers on all processes, and (documentation) uses a seed unique to the coordinate.", "quantifier": "all seeds, all interleavings of seeding and drawing, all numbers of calls, all max, all grids of up to three dimensions with all combinations of periodic axes", "why_tests_cant": "The unit tests check averages of 1000 numbers, that ten numbers repeat after seeding, and one pair of different coordinates for seedRNG (whose indices happen not to form a pair). They can't cover 2^32 seeds, all interleavings, or all grids.", "anchors": ["src/libgeodecomp/misc/random.cpp:60-171", "src/libgeodecomp/misc/random.h:18-31", "src/libgeodecomp/io/initializer.h:73-98", "src/libgeodecomp/loadbalancer/randombalancer.cpp:6-41"]}
{"id": "C73", "title": "UnstructuredSoAGrid can replace UnstructuredGrid", "statement": "A simulation with an unstructured grid gives the same results whether the cells are stored as an array of structs (UnstructuredGrid) or as a struct of arrays (UnstructuredSoAGrid): after the same sequence of writes of nodes, streaks, regions and the edge element all reads return the same. The number of stored cells is the number of nodes, rounded up to a multiple of C. Reading outside returns the edge element, resize keeps the nodes, grids are equal iff nodes, edge elements and weights are.", "quantifier": "all numbers of nodes, all C, all cell types, all sequences of operations of any length, all regions and offsets", "why_tests_cant": "The unit tests write and read a few nodes of one or two sizes. They don't compare both classes over histories, and never read outside or resize grids with contents.", "anchors": ["src/libgeodecomp/storage/unstructuredsoagrid.h:52-275", "src/libgeodecomp/storage/unstructuredgrid.h:185-196", "src/libgeodecomp/storage/gridbase.h:187-205", "src/libgeodecomp/storage/grid.h:93-106"]}
{"id": "C74", "title": "CacheBlockingSimulator updates all cells, in an order which respects the dependencies", "statement": "A CacheBlockingSimulator, which AutotuningSimulator selects among others, computes the same as SerialSimulator: in each hop every stage of the pipeline updates each plane of the grid exactly once, after the planes it depends on and before the ring buffer overwrites them; tiles cover the grid without overlap; the updates go to the cells of the plane; the simulation ends after maxSteps.", "quantifier": "all pipeline lengths, all grid extents, all tile sizes, all numbers of nano steps, all start and end steps", "why_tests_cant": "All tests of the class are commented out; they would cover three pipeline lengths and one grid size. The order of updates and reuse of buffer slots depends on all of these parameters.", "anchors": ["src/libgeodecomp/parallelization/cacheblockingsimulator.h:37-334", "src/libgeodecomp/storage/updatefunctor.h:204-208", "src/libgeodecomp/misc/cacheblockingsimulationfactory.h:22-59", "src/libgeodecomp/parallelization/autotuningsimulator.h:131-142"]}
{"id": "C75", "title": "LibFlatArray::soa_vector behaves like std::vector", "statement": "A soa_vector, whose interface is documented to be similar to std::vector, holds after any history of push_back, pop_back, set, resize, reserve and clear the elements a std::vector would hold; reserve never loses elements; capacity() is at least size(); copies and assigned vectors hold the same elements as the original.", "quantifier": "all histories of calls, all element types, all lists of extents, all sizes", "why_tests_cant": "The tests run a few fixed histories with one element type and the default extents; the effects depend on the order of calls, on which of 28 extents is used and on the difference between dimension and extent. Copies aren't tested.", "anchors": ["lib/libflatarray/include/libflatarray/soa_vector.hpp:36-195", "lib/libflatarray/include/libflatarray/soa_grid.hpp:87-160", "lib/libflatarray/include/libflatarray/macros.hpp:1063-1112", "lib/libflatarray/include/libflatarray/api_traits.hpp:67-72", "lib/libflatarray/include/libflatarray/detail/copy_functor.hpp:20-50"]}
{"id": "C76", "title": "The loop peelers of LibFlatArray process each element of the range once", "statement": "LIBFLATARRAY_LOOP_PEELER and loop_peeler, which split a loop into unaligned, vectorized and trailing iterations, process every element from the counter to the end exactly once and in order, no element outside of this range, and use the vectorized function for aligned chunks only; a loop over all pairs built with it pairs each particle with the following ones.", "quantifier": "all arities, all signed counters and ends, all numbers of particles", "why_tests_cant": "The three unit tests use arity 8 and ranges which are much longer than the arity. Whether the end is respected depends on the remainders of both ends.", "anchors": ["lib/libflatarray/include/libflatarray/loop_peeler.hpp:76-117", "lib/libflatarray/examples/smoothed_particle_hydrodynamics/kernels.hpp:60-125", "src/examples/jacobi3dvectorized/main.cpp:33-37"]}
{"id": "C77", "title": "aligned_allocator returns aligned, disjoint arrays and releases what it obtained", "statement": "The arrays which LibFlatArray::aligned_allocator returns (Grid, SoAGrid and sparse matrices store their data in them) are aligned as requested, lie within memory obtained from the system, don't overlap, and can be overwritten entirely by the program; deallocation releases exactly the memory obtained for the array, with the same size; nothing leaks.", "quantifier": "all alignments, element sizes, numbers of elements, all histories of allocations, writes and deallocations, all addresses the system may return", "why_tests_cant": "The unit test allocates a few arrays; which addresses the system returns isn't controlled by it. The pointer stored in front of the array needs room, which depends on the address modulo the alignment.", "anchors": ["lib/libflatarray/include/libflatarray/aligned_allocator.hpp:28-145", "src/libgeodecomp/storage/grid.h:59", "src/libgeodecomp/storage/sellcsigmasparsematrixcontainer.h:177-178", "lib/libflatarray/include/libflatarray/soa_grid.hpp:76"]}
{"id": "C78", "title": "A simulation of valid TestCells is a correct simulation of any model", "statement": "TestCell is 'useful for verifying the various parallelizations': however a simulator combines cells, if the test cell it obtains is valid then the same sequence of operations yields the reference's result for any other cell class; a correct simulator never causes invalid cells; a grid which passes TS_ASSERT_TEST_GRID is the reference's grid.", "quantifier": "all simulators (all ways of combining cells by updates), all models, stencils, topologies, grid sizes, numbers of steps", "why_tests_cant": "This is the soundness of the tests themselves: the unit tests of all simulators rely on TestCell. No run of them tells whether a wrong simulator could pass.", "anchors": ["src/libgeodecomp/misc/testcell.h:125-385", "src/libgeodecomp/io/testinitializer.h:13-60", "src/libgeodecomp/misc/testhelper.h:99-180"]}
{"id": "C79", "title": "LibFlatArray::soa_array is a vector of bounded capacity", "statement": "Any program of push_back, pop_back, clear, element assignment, load and assignment from arrays of other capacities leaves the same elements in a soa_array as in a bounded vector, throws std::out_of_range exactly when the bounded vector would exceed its capacity (or is empty) and leaves the array unchanged when it throws; constructors, copies, swap and iteration agree with it. The first byte_size() bytes of data() hold the elements.", "quantifier": "all programs, capacities, element types, source arrays, offsets and counts", "why_tests_cant": "Unit tests run a few fixed programs with capacities such as 40. Overflow of num + offset, stale elements in gaps, overlapping self-loads and bytes of partially filled arrays aren't tested.", "anchors": ["lib/libflatarray/include/libflatarray/soa_array.hpp:37-308", "lib/libflatarray/include/libflatarray/detail/macros.hpp:92-270"]}
{"id": "C80", "title": "All localities of an HpxSimulator agree on the update groups, and start-up never deadlocks", "statement": "Whatever the order in which localities reach the constructor of HpxSimulator and remote actions run, every locality obtains the same vector of (speed guide corrected) update group speeds and the same locality indices; no step throws, none waits forever. The indices assign each update group to exactly one locality, and the speed at a group's index is that group's speed. Further simulators can be constructed.", "quantifier": "all numbers of localities, groups per locality, speeds and schedules", "why_tests_cant": "Start-up is asynchronous: promises, remote actions and a broadcast. Tests run one schedule on four localities with distinct names for every simulator.", "anchors": ["src/libgeodecomp/parallelization/hpxsimulator.cpp:11-121", "src/libgeodecomp/parallelization/hpxsimulator.h:95-110"]}
{"id": "C81", "title": "A simulation of valid UnstructuredTestCells is a correct simulation of any model on the graph", "statement": "However a simulator combines cells of an unstructured grid: if the UnstructuredTestCell it obtains is valid then the same operations yield the reference's result for any other cell class; correct simulators never cause invalid cells, in whichever order neighbors are presented; updateLineX() and update() agree. The reverse adjacency of UnstructuredTestInitializer is the converse of its adjacency.", "quantifier": "all simulators (all ways of combining cells by updates), models, graphs with up to 100 neighbors per cell, numbers of steps, orders and amounts of padding", "why_tests_cant": "This is the soundness of the tests of all simulators for unstructured grids. No run of them tells whether a wrong simulator could pass.", "anchors": ["src/libgeodecomp/misc/unstructuredtestcell.h:118-302", "src/libgeodecomp/io/unstructuredtestinitializer.h:16-120"]}
{"id": "C82", "title": "Particles inserted while a (multi container) cell is updated aren't updated in the same step", "statement": "BoxCell::updateCargo() updates each particle which was in the container exactly once; particles which these insert aren't updated, and follow in the order of insertion. In a multi container cell this holds for all members, independently of the order in which they are declared.", "quantifier": "all numbers of members, contents, particle classes (all ways of changing and inserting particles)", "why_tests_cant": "The tests insert particles in one fixed pattern. Whether a new particle is updated depends on the declaration order of members and on where it is inserted.", "anchors": ["src/libgeodecomp/storage/multicontainercell.h:153-170", "src/libgeodecomp/storage/boxcell.h:140-152"]}
