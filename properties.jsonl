{"id": "C01", "title": "GetItem returns the last vector added", "statement": "After any sequence of AddItem calls on a fresh index, GetItem(i) returns, component for component and bit for bit, the vector of the last AddItem(i, v) in the sequence; indexes that were skipped are not turned into items. Holds as long as the index stays below the address range of the index type.", "quantifier": "every list of (index, vector) pairs in every order, with gaps and repeats, every vector length, every index/vector type combination, every pre-allocation hint", "why_tests_cant": "the number of orders, gaps and reallocation points is unbounded", "anchors": ["index/annoyindex.go: AddItem, GetItem, allocateSize", "index/memory/gc_index_build_allocator.go: Reallocate", "distance/angular/node.go: SetVector, GetVector"]}
{"id": "C02", "title": "Build does not change stored items", "statement": "Build leaves GetItem(i) and GetDistance(i,j) of every added item exactly as before, whatever the number of trees, the number of workers, the random generator and the split decisions.", "quantifier": "every item set, tree count, worker count, random stream and split decision", "why_tests_cant": "split decisions depend on floating point and random data; tests sample a few", "anchors": ["index/annoyindex.go: Build, ThreadBuild, makeTree"]}
{"id": "C03", "title": "AddItem rejects bad calls without effect", "statement": "AddItem with a vector of the wrong length, or on a loaded index, panics and leaves every later observation of the index unchanged.", "quantifier": "every index state, index number and vector", "why_tests_cant": "needs every prior state", "anchors": ["index/annoyindex.go: AddItem"]}
{"id": "C04", "title": "Growing the index never loses or invents data", "statement": "Reallocate keeps every byte of the old block, hands out zero bytes for the new part, and never returns a block smaller than asked; the pre-allocation hint never changes what any later call returns.", "quantifier": "every sequence of Reallocate/Free calls and writes, every hint", "why_tests_cant": "sequence lengths and sizes are unbounded", "anchors": ["index/memory/gc_index_build_allocator.go: Reallocate, Free", "index/annoyindex.go: New, allocateSize"]}
{"id": "C05", "title": "Different nodes never share memory", "statement": "Two different node numbers map to disjoint byte ranges, each inside the allocated block, as long as the whole index is smaller than the range of the index type.", "quantifier": "every pair of node numbers, every node size, both index types", "why_tests_cant": "ranges over all node numbers; wrap-around only shows above 4 GiB", "anchors": ["distance/angular/distance.go: MapNodeToMemory", "index/annoyindex.go: getNode, allocateSize"]}
{"id": "C06", "title": "Node fields round-trip and do not interfere", "statement": "Writing the descendant count, the children, the norm or the vector of a node and reading it back gives the same value, and leaves the other fields of that node (as the layout separates them) and all other nodes unchanged.", "quantifier": "every field value, both node kinds, both index types, both vector types, every vector length", "why_tests_cant": "all bit patterns and all layouts", "anchors": ["distance/angular/node.go", "distance/dotproduct/node.go"]}
{"id": "C07", "title": "MaxNumChildren is exactly what fits", "statement": "A node can hold MaxNumChildren child numbers without writing outside the node, and not one more.", "quantifier": "every vector length, both node kinds, all type combinations", "why_tests_cant": "every vector length", "anchors": ["distance/angular/distance.go: Distance", "distance/dotproduct/distance.go: Distance"]}
{"id": "C08", "title": "Every tree contains every item exactly once", "statement": "After Build every tree of the forest, walked from its root, reaches each added item exactly once and nothing that was not added, no matter how the hyperplanes split the items.", "quantifier": "every item set with gaps, every tree count, every random stream, every split decision, every distance implementation", "why_tests_cant": "split outcomes are arbitrary; an item lost in one subtree is a silent recall loss", "anchors": ["index/annoyindex.go: makeTree, ThreadBuild"]}
{"id": "C09", "title": "Trees are well formed", "statement": "In every built tree children have smaller node numbers than their parent (so no cycles), an inner node counts exactly the items below it, buckets hold at most MaxNumChildren items and the root counts all item slots.", "quantifier": "every build as in C08", "why_tests_cant": "structural invariant over all builds", "anchors": ["index/annoyindex.go: makeTree"]}
{"id": "C10", "title": "Build makes the number of trees asked for", "statement": "Build(T) with the single worker policy produces exactly T trees; Build(-1) keeps adding trees until the index holds at least twice as many nodes as items, and stops.", "quantifier": "every T, every item set, random stream and split decision", "why_tests_cant": "loop over unbounded T and data-dependent node counts", "anchors": ["index/annoyindex.go: ThreadBuild", "index/policy/index_policy_single.go: Build"]}
{"id": "C11", "title": "Trees are shared out exactly among workers", "statement": "With the multi worker policy the per-worker tree counts add up to exactly the requested number, no two workers differ by more than one, for any number of workers >= 1.", "quantifier": "every tree count >= 0 and worker count >= 1", "why_tests_cant": "arithmetic identity over all pairs", "anchors": ["index/policy/index_policy_multi.go: Build"]}
{"id": "C12", "title": "Concurrent Build yields a valid forest under every schedule", "statement": "However the workers of the multi worker policy interleave, and whatever values the shared random generator returns under races, the finished index has exactly the requested number of roots, every node number is handed out once, no node is overwritten by another worker, and every tree satisfies C08 and C09.", "quantifier": "every number of workers, every interleaving of their steps, every value drawn from the racy random generator", "why_tests_cant": "schedules cannot be enumerated by tests", "anchors": ["index/annoyindex.go: ThreadBuild, makeTree, allocateSize", "index/policy/index_policy_multi.go"]}
{"id": "C13", "title": "Build never deadlocks and never touches memory being moved", "statement": "Under every schedule some unfinished worker can always take a step, and no worker reads or writes node memory while another worker is reallocating it.", "quantifier": "every interleaving, every lock state", "why_tests_cant": "deadlocks and races need specific schedules", "anchors": ["index/policy/index_policy_multi.go", "index/annoyindex.go: makeTree, allocateSize"]}
{"id": "C14", "title": "Every accepted split has two non-empty sides", "statement": "makeTree never recurses into an empty side and both sides together are exactly the items given, so the recursion depth is bounded by the number of items and Build finishes whenever the random generator eventually produces a balanced draw.", "quantifier": "every index list, side assignment and random stream", "why_tests_cant": "side assignments are arbitrary", "anchors": ["index/annoyindex.go: makeTree, splitImbalance"]}
{"id": "C15", "title": "Life cycle: an index is built at most once", "statement": "Build panics on a loaded index and on an index that was built before; a loaded index stays read-only; Save on an index that was never built returns an error and touches no file.", "quantifier": "every history of AddItem, Build, Save, Load, Close", "why_tests_cant": "histories are unbounded", "anchors": ["index/annoyindex.go: Build, AddItem", "index/annoyindex_io.go: Save"]}
{"id": "C16", "title": "Search results are sound", "statement": "GetNnsByVector returns at most numReturn indexes, without duplicates, each of them an added item, ordered by (distance, index), and the i-th returned distance is the normalized distance between the query and the i-th returned item.", "quantifier": "every built or loaded index, query, numReturn and numNodesToInspect", "why_tests_cant": "all queries and all tree shapes", "anchors": ["index/annoyindex_search.go: GetNnsByVector", "sort/partial_sort.go: PartialSortSlice"]}
{"id": "C17", "title": "Exhaustive search is exact", "statement": "When numNodesToInspect is at least (number of roots) * (items - 1) + 1, GetNnsByVector returns exactly the numReturn nearest added items in order, the same list as a linear scan.", "quantifier": "every built index, query and numReturn", "why_tests_cant": "equality with brute force for all data", "anchors": ["index/annoyindex_search.go: GetNnsByVector", "index/annoyindex.go: makeTree"]}
{"id": "C18", "title": "Default search returns as many results as asked for", "statement": "With numNodesToInspect = -1 and numReturn >= 0, GetNnsByVector returns exactly min(numReturn, number of added items) results, for every built index with at least one tree.", "quantifier": "every built index, query and numReturn", "why_tests_cant": "pigeonhole over all forests", "anchors": ["index/annoyindex_search.go: GetNnsByVector"]}
{"id": "C19", "title": "A larger search budget never makes results worse", "statement": "If numNodesToInspect is increased, the set of inspected candidates only grows, so the result list has at least as many entries and its i-th distance is never larger.", "quantifier": "every built index, query, numReturn and pair of budgets", "why_tests_cant": "relation between two runs for all inputs", "anchors": ["index/annoyindex_search.go: GetNnsByVector"]}
{"id": "C20", "title": "Search terminates and stays inside the index", "statement": "On every built index GetNnsByVector finishes, after at most 2*(number of nodes)+1 queue pops per root, and reads only nodes of the index.", "quantifier": "every built index, query and budget", "why_tests_cant": "termination over all forests", "anchors": ["index/annoyindex_search.go: GetNnsByVector"]}
{"id": "C21", "title": "Reusing a context does not change results", "statement": "The result of a query does not depend on what earlier queries left in the context.", "quantifier": "every index, context content and query", "why_tests_cant": "all previous histories", "anchors": ["index/annoyindex_search.go: CreateContext, GetNnsByVector"]}
{"id": "C22", "title": "A context made by CreateContext is large enough", "statement": "No query on the index it was created for runs out of context space (a query never panics).", "quantifier": "every built index, query and budget", "why_tests_cant": "depends on tree shapes; false for sparse item numbers and for some forests", "anchors": ["index/annoyindex.go: Build (batchMaxNNS)", "index/annoyindex_search.go: CreateContext, GetNnsByVector"]}
{"id": "C23", "title": "Search explores the most promising side first", "statement": "At a split node the child on the query's side of the hyperplane is inspected before the other one (best-first order).", "quantifier": "every index, query and split node", "why_tests_cant": "order over all queries", "anchors": ["sort/priority_queue.go", "distance/angular/distance.go: PQDistance", "index/annoyindex_search.go: GetNnsByVector"]}
{"id": "C24", "title": "Search by item is search by its vector, with consistent distances", "statement": "GetNnsByItem(i) equals GetNnsByVector(GetItem(i)), and the distance returned for j is bit for bit GetDistance(i, j).", "quantifier": "every index, item and result entry", "why_tests_cant": "equality for all data", "anchors": ["index/annoyindex_search.go: GetNnsByItem, GetDistance"]}
{"id": "C25", "title": "Query vector length is checked", "statement": "A query vector whose length differs from the index's vector length is rejected cleanly, as AddItem does.", "quantifier": "every query vector length", "why_tests_cant": "memory unsafety depends on heap layout", "anchors": ["index/annoyindex_search.go: GetNnsByVector", "distance/angular/node.go: SetVector"]}
{"id": "C26", "title": "Searching before Build or with numReturn <= 0 returns nothing", "statement": "On an index without trees, and for numReturn <= 0 with the default budget, GetNnsByVector returns empty results and does not fail.", "quantifier": "every index, query", "why_tests_cant": "all states", "anchors": ["index/annoyindex_search.go: GetNnsByVector"]}
{"id": "C27", "title": "Save and Load preserve the items", "statement": "After Save (which reloads) or Load in another index object of the same configuration, GetItem, GetDistance and the item count are the same as before.", "quantifier": "every built index with at least two item slots and one tree, both file back ends", "why_tests_cant": "all index contents", "anchors": ["index/annoyindex_io.go: Save, Load"]}
{"id": "C28", "title": "Save and Load preserve the answers", "statement": "An exhaustive or default search gives the same answers after Save/Load as before.", "quantifier": "every built index, query, budget", "why_tests_cant": "false for small indexes and short vectors because root copies are truncated", "anchors": ["index/annoyindex_io.go: Save, Load", "utils/node.go: CopyNode", "index/annoyindex.go: Build"]}
{"id": "C29", "title": "Load recovers the roots", "statement": "Load finds every root copy that Build appended, and every root it finds is a root of a complete tree.", "quantifier": "every built index with at least two item slots", "why_tests_cant": "all forests, including concurrent builds with any root order", "anchors": ["index/annoyindex_io.go: Load"]}
{"id": "C30", "title": "Load rejects files of the wrong size and leaves a closed index", "statement": "A file whose size is not a multiple of the node size, or that cannot be opened, makes Load return an error, and the index is then empty (no items, no roots, not loaded).", "quantifier": "every file content, every previous state", "why_tests_cant": "all contents and states", "anchors": ["index/annoyindex_io.go: Load"]}
{"id": "C31", "title": "A one-item index can be saved and loaded", "statement": "An index with a single item can be built, saved and loaded.", "quantifier": "every vector and tree count", "why_tests_cant": "false: the root scan runs below node 0", "anchors": ["index/annoyindex_io.go: Load"]}
{"id": "C32", "title": "Save is crash safe", "statement": "If the process stops at any point during Save, the file holds either its old or the complete new content.", "quantifier": "every crash point", "why_tests_cant": "crash points cannot be enumerated by tests; false of the code", "anchors": ["index/annoyindex_io.go: Save"]}
{"id": "C33", "title": "Saving a loaded index onto its own file keeps the data", "statement": "Save(f) on an index loaded from f leaves f and the index with the same content.", "quantifier": "every loaded index, both back ends", "why_tests_cant": "false with the mmap back end", "anchors": ["index/annoyindex_io.go: Save", "index/memory/index_allocator_mmap.go"]}
{"id": "C34", "title": "Both file back ends are equivalent", "statement": "Loading the same file through the mmap allocator and through the GC memory allocator gives an index with identical observable behaviour.", "quantifier": "every file content", "why_tests_cant": "all file contents", "anchors": ["index/memory/index_allocator_gcmem.go", "index/memory/index_allocator_mmap.go"]}
{"id": "C35", "title": "The file allocator's registry only knows open files", "statement": "Get(f) never returns an allocation that has been closed, and while no Open or Close of f follows an Open(f), Get(f) returns the allocation of that Open; Get of a file with no open allocation returns nil. (Opening f twice makes the first allocation unreachable through Get.)", "quantifier": "every history of Open, Close, Get", "why_tests_cant": "histories", "anchors": ["index/memory/index_allocator_gcmem.go", "index/memory/index_allocator_mmap.go"]}
{"id": "C36", "title": "Close is idempotent and forgets the data", "statement": "After Close the index has no items and no roots, a second Close changes nothing more, and items can be added again.", "quantifier": "every index state", "why_tests_cant": "all states", "anchors": ["index/annoyindex.go: Close"]}
{"id": "C37", "title": "A closed index can be rebuilt", "statement": "After Close the index can be filled and built again like a new one.", "quantifier": "every history", "why_tests_cant": "false: Close does not clear the built flag", "anchors": ["index/annoyindex.go: Close, Build"]}
{"id": "C38", "title": "PartialSortSlice", "statement": "For 0 <= begin <= middle <= end <= len, the result is a permutation of the input, positions [begin, middle) hold the smallest elements of [begin, end) in ascending order, and nothing outside [begin, end) moves.", "quantifier": "every slice of non-NaN pairs and every begin/middle/end", "why_tests_cant": "three code paths over all lengths", "anchors": ["sort/partial_sort.go: PartialSortSlice"]}
{"id": "C39", "title": "PartialSortSlice2 (heap selection)", "statement": "Same contract for the heap based variant with begin..end covering the slice.", "quantifier": "every slice and bounds", "why_tests_cant": "heap code over all lengths", "anchors": ["sort/partial_sort.go: PartialSortSlice2, buildMaxHeap, maxHeapify"]}
{"id": "C40", "title": "SortPairs2 sorts", "statement": "SortPairs2 returns an ascending permutation of its input.", "quantifier": "every slice of non-NaN pairs", "why_tests_cant": "all lengths and orders", "anchors": ["sort/sort.go: SortPairs2, heapify"]}
{"id": "C41", "title": "PriorityQueue is a priority queue", "statement": "Under any sequence of Push and Pop, Top and Pop return a smallest element by (first, second) of what was pushed and not yet popped, and Len counts them.", "quantifier": "every operation sequence with non-NaN priorities", "why_tests_cant": "histories", "anchors": ["sort/priority_queue.go", "interfaces/sorter.go: Pairs"]}
{"id": "C42", "title": "Intersection", "statement": "Intersection(a, b) returns in ascending order exactly the common elements, each as often as it occurs in both, and sorts a and b. Max returns the larger of its arguments.", "quantifier": "all slices", "why_tests_cant": "all slices with repeats", "anchors": ["utils/math.go: Intersection"]}
{"id": "C43", "title": "Angular distance is a metric on directions", "statement": "In exact arithmetic the angular distance lies in [0,4], is symmetric, is 0 exactly for vectors of the same direction, ignores positive scaling, and its normalized value obeys the triangle inequality; for a zero vector it is 2.", "quantifier": "all real vectors of every length", "why_tests_cant": "all vectors", "anchors": ["distance/angular/distance.go: Distance, NormalizedDistance"]}
{"id": "C44", "title": "GetDistance is symmetric bit for bit", "statement": "GetDistance(i,j) = GetDistance(j,i) in floating point.", "quantifier": "all items and all vectors, including infinities and NaN patterns up to NaN identity", "why_tests_cant": "all bit patterns", "anchors": ["distance/angular/distance.go: Distance", "index/annoyindex_search.go: GetDistance"]}
{"id": "C45", "title": "Returned distances are numbers", "statement": "GetDistance and the search distances are never NaN for finite non-zero vectors.", "quantifier": "all finite vectors", "why_tests_cant": "rounding makes it false for some pairs of parallel vectors", "anchors": ["distance/angular/distance.go: Distance, NormalizedDistance"]}
{"id": "C46", "title": "Dot product pre-processing equalises norms", "statement": "In exact arithmetic, after PreProcess every item satisfies |v|^2 + factor^2 = (largest norm)^2, and vectors are unchanged.", "quantifier": "all item sets", "why_tests_cant": "all vectors", "anchors": ["distance/dotproduct/distance.go: PreProcess"]}
{"id": "C47", "title": "Dot product GetDistance is the inner product", "statement": "On an index with the dot product distance GetDistance(i,j) is the inner product of the two vectors.", "quantifier": "all vectors", "why_tests_cant": "false: the code computes the negated angular distance", "anchors": ["distance/dotproduct/distance.go: Distance, NormalizedDistance"]}
{"id": "C48", "title": "Random generators: range and replay", "statement": "NextIndex(n) is below n for every n > 0, and CloneAndReset replays exactly the stream of a new generator with the current seed, whatever was drawn before. NextSide and NextIndex take one number of the stream each: left exactly if it is odd, its remainder by n. GetSeed is the seed of the generator or of the last SetSeed.", "quantifier": "every generator state and n", "why_tests_cant": "2^160 states", "anchors": ["random/kiss32random.go", "random/kiss64random.go"]}
{"id": "C49", "title": "TwoMeans picks two different in-range items", "statement": "For two or more items the two starting points are different and in range; every draw stays in range.", "quantifier": "every item count >= 2 and random state", "why_tests_cant": "all states", "anchors": ["distance/two_means.go"]}
{"id": "C50", "title": "Hyperplanes are unit or zero", "statement": "In exact arithmetic CreateSplit produces a normal vector of length 1 or the zero vector, and Normalize maps every non-zero vector to length 1 and keeps its direction.", "quantifier": "all item vectors and random draws", "why_tests_cant": "all vectors", "anchors": ["distance/angular/distance.go: CreateSplit, Normalize"]}
{"id": "C51", "title": "Vector helpers are the textbook functions", "statement": "In exact arithmetic Dot is bilinear and symmetric, EuclideanDistance is the squared Euclidean distance, ManhattanDistance is a metric, GetNorm is the Euclidean norm, and the unsafe variants agree with the safe ones.", "quantifier": "all vectors of every length", "why_tests_cant": "all vectors", "anchors": ["vector/abs.go", "vector/dot.go", "vector/euclidean_distance.go", "vector/get_norm.go", "vector/manhattan_distance.go"]}
{"id": "C52", "title": "CopyNode copies the whole node", "statement": "Copying a node makes the destination observably equal to the source.", "quantifier": "all nodes", "why_tests_cant": "false: the callers pass the vector length as byte count", "anchors": ["utils/node.go: CopyNode", "index/annoyindex.go: Build, makeTree", "distance/two_means.go"]}
{"id": "C53", "title": "AddItem after Build is safe", "statement": "An AddItem accepted after Build does not hide or damage earlier items.", "quantifier": "every built index and added item", "why_tests_cant": "false of the code", "anchors": ["index/annoyindex.go: AddItem"]}
{"id": "C54", "title": "numWorkers = 0 means one worker", "statement": "As documented, Build(T, 0) builds T trees on the current goroutine.", "quantifier": "every T", "why_tests_cant": "false for the multi worker policy", "anchors": ["index/policy/index_policy_multi.go: Build", "interfaces/index.go"]}
{"id": "C55", "title": "Builder configuration", "statement": "IndexNumHint ignores non-positive values, the last setter wins and setters are order independent, and missing parts get the documented defaults so that the built index is usable.", "quantifier": "every sequence of builder calls", "why_tests_cant": "sequences; false for uint64 indexes without Random", "anchors": ["builder/index.go"]}
{"id": "C56", "title": "A built index file has the exact size and layout", "statement": "Save writes exactly (item slots + tree nodes + number of trees) * node size bytes: first the item slots, then the tree nodes, then one copy per root in root order.", "quantifier": "every built index", "why_tests_cant": "all builds", "anchors": ["index/annoyindex_io.go: Save", "index/annoyindex.go: Build"]}
{"id": "C57", "title": "Loading garbage fails cleanly", "statement": "Loading an arbitrary file either returns an error or gives an index on which search terminates.", "quantifier": "every file content", "why_tests_cant": "false: node numbers in the file are trusted", "anchors": ["index/annoyindex_io.go: Load", "index/annoyindex_search.go: GetNnsByVector"]}
{"id": "C58", "title": "Single worker builds are reproducible", "statement": "Two indexes given the same items, seed and configuration and built with the single worker policy are identical; the worker number plays no role.", "quantifier": "all items, seeds, tree counts", "why_tests_cant": "equality of two runs for all inputs", "anchors": ["index/annoyindex.go: ThreadBuild, makeTree"]}
{"id": "C59", "title": "Pair ordering is a strict total order on non-NaN pairs", "statement": "Pair.Less and Pairs.Less are irreflexive, transitive and total up to equality on pairs whose first component is not NaN.", "quantifier": "all pairs of float bit patterns", "why_tests_cant": "all bit patterns", "anchors": ["interfaces/sorter.go: Pair.Less, Pairs.Less"]}
{"id": "C60", "title": "GetItem of a loaded index equals the bytes of the file", "statement": "For every file accepted by Load, GetItem(i) decodes bytes [i*nodeSize+offset, ...) of the file.", "quantifier": "every file content", "why_tests_cant": "all files", "anchors": ["index/annoyindex_io.go: Load", "index/annoyindex.go: GetItem"]}
{"id": "C61", "title": "Small indexes with gaps are padded with item 0", "statement": "In an index of at most MaxNumChildren slots every tree is one bucket that lists each added item exactly once and is filled up with item number 0 for the slots left out.", "quantifier": "every item set of at most MaxNumChildren slots, every tree count, every worker policy", "why_tests_cant": "all gap patterns", "anchors": ["index/annoyindex.go: makeTree"]}
{"id": "C62", "title": "Workers own what they write", "statement": "In every execution of a concurrent Build each node is written by at most one worker during the whole build, no worker writes an item node, the node counter, node size and root list are used by one worker at a time, an execution that never ends does nothing but draw unbalanced random sides from some point on, and every unfinished execution can be completed if the generator can produce balanced sides.", "quantifier": "every number of workers, every interleaving, every random stream", "why_tests_cant": "schedules and infinite executions", "anchors": ["index/annoyindex.go: ThreadBuild, makeTree, allocateSize", "index/policy/index_policy_multi.go"]}
{"id": "C63", "title": "Valid forests for long enough vectors", "statement": "If the vectors have at least 3*sizeof(TIX) components and no item number is left out, every Build under either policy produces exactly the requested number of well formed trees, each of which reaches every item exactly once.", "quantifier": "every item set, tree count, worker count, schedule, random stream and distance implementation meeting the contracts", "why_tests_cant": "all builds", "anchors": ["index/annoyindex.go: makeTree, ThreadBuild"]}
{"id": "C64", "title": "The queue serves the far side of a hyperplane first", "statement": "Because PriorityQueue pops the smallest key, at the root of a tree (and at any split node popped with a key larger than minus the absolute margin) with a margin m that is neither zero nor NaN, the child on the other side of the hyperplane gets the smaller key and is popped before the child on the query's side.", "quantifier": "every built index, every query whose margins at the inner nodes are not NaN, every budget and split node", "why_tests_cant": "order of pops over all queries and forests", "anchors": ["sort/priority_queue.go: Less", "distance/angular/distance.go: PQDistance", "index/annoyindex_search.go: GetNnsByVector"]}
{"id": "C65", "title": "Search always terminates on a built index", "statement": "On every index made by Build, for vectors of every length, under both policies and every schedule, GetNnsByVector with a query of the right length finishes: it returns a result or panics because the context is too small, and never reads outside the index.", "quantifier": "every built index (also those whose root nodes lost data), query, budget and context", "why_tests_cant": "termination over all forests, including damaged ones", "anchors": ["index/annoyindex_search.go: GetNnsByVector", "index/annoyindex.go: makeTree"]}
{"id": "C66", "title": "Angular GetDistance is the textbook formula of the added vectors", "statement": "On a built angular index GetDistance(i,j) is the square root of 2 - 2<v,u>/sqrt(|v|^2|u|^2) (2 when the product of the squared norms is not positive), evaluated in the float type of the index on the vectors v, u last added as i and j; cached norms never show.", "quantifier": "every session (any adds, trees, workers, policy, schedule), all items, all bit patterns", "why_tests_cant": "all vectors and all build schedules", "anchors": ["distance/angular/distance.go: Distance, InitNode, NormalizedDistance", "index/annoyindex_search.go: GetDistance"]}
{"id": "C69", "title": "What a search looks at depends on a fixed prefix of the query only", "statement": "A stored split node keeps vectorLength bytes, so only the components of its hyperplane that start before byte vectorLength of the node count. For given numReturn and budget the set of items a search inspects is a function of the first ceil((vectorLength - offset of the vector) / sizeof(TV)) components of a finite query; with uint32, float32 and vectors of at most 12 components it does not depend on the query at all. The same holds after Save and Load.", "quantifier": "every session (any adds, trees, workers, policy, schedule), both distances, all finite queries, all budgets", "why_tests_cant": "independence of a component is a statement about all pairs of queries and all forests", "anchors": ["index/annoyindex.go: makeTree (CopyNode with vectorLength)", "index/annoyindex_search.go: GetNnsByVector", "utils/node.go: CopyNode"]}
{"id": "C70", "title": "A search by an item finds the item", "statement": "GetNnsByItem(i, n, -1) with n at least 1 on an index whose splits are intact returns i itself when no other item is as near.", "quantifier": "every built index, every item, every n", "why_tests_cant": "depends on the random splits of every tree; a test sees a few trees", "anchors": ["index/annoyindex_search.go: GetNnsByItem, GetNnsByVector", "index/annoyindex.go: makeTree"]}
{"id": "C68", "title": "Every stored split separates the items below its two children", "statement": "For every inner node of every tree of a built index: the items below the left child lie on the left side of the hyperplane stored in the node (their margin is not positive), the items below the right child on the right side (margin not negative).", "quantifier": "every session (any adds, trees, workers, policy, schedule), every tree, every inner node, every item below it", "why_tests_cant": "all random choices, all vectors, all interleavings of the workers; a test sees a few trees", "anchors": ["index/annoyindex.go: makeTree", "distance/angular/distance.go: CreateSplit, Side, Margin", "distance/dotproduct/distance.go: CreateSplit, Side, Margin", "utils/node.go: CopyNode"]}
{"id": "C71", "title": "Trees are searched one after the other", "statement": "Roots are queued with key +Inf and everything below a root gets a smaller key, so GetNnsByVector goes through the whole tree with the smallest root number before it looks at the second root. As long as the budget (searchK, or numReturn*len(roots) for -1) is at most the number of items, the other trees have no influence: the answer is that of the index with this one tree.", "quantifier": "every built index whose inner nodes survive, every query with finite margins, every k, budget and context", "why_tests_cant": "all indexes, queries, heaps; a test with a few trees cannot show that the others are never looked at", "anchors": ["index/annoyindex_search.go: GetNnsByVector", "sort/priority_queue.go: Less", "distance/angular/distance.go: PQInitialValue, PQDistance"]}
{"id": "C72", "title": "The workers of a build have no data races apart from the generator", "statement": "During Build with several workers, two adjacent actions of different workers can be exchanged unless both are lock operations: the same two actions are possible in the opposite order and lead to the same index and the same workers. So the order in which workers access node memory, the node counter, the size and the root list matters only through the three mutexes, and reading several item nodes in one action is no loss of generality.", "quantifier": "every reachable moment of every build: any adds, trees, workers, generator, schedule; every two workers and every two actions", "why_tests_cant": "the race detector sees the interleavings that happened; this is about all of them", "anchors": ["index/annoyindex.go: ThreadBuild, makeTree, allocateSize", "index/policy/index_policy_multi.go: Build"]}
{"id": "C73", "title": "Goroutines with a context each can search at the same time", "statement": "Any number of goroutines may search one built or loaded index at the same time if each call uses a context of its own: whatever the schedule, every call that ends returns the indexes, the distances and the panic that it would give alone, and it ends after the same number of its own steps.", "quantifier": "every index state, every number of goroutines, all queries and contexts, every interleaving of loop turns", "why_tests_cant": "all interleavings; with a shared context the answers of one goroutine reach another one only under some schedules", "anchors": ["interfaces/index.go: CreateContext (create a new context per goroutine)", "index/annoyindex_search.go: BatchContext, CreateContext, GetNnsByVector"]}
{"id": "C67", "title": "Indexes made by one builder are independent", "statement": "A builder may make several indexes (each call of Index() gives one): what a program does with one of them, AddItem or Close, does not change the items of another one, so GetItem answers on each index as if it were the only one.", "quantifier": "every program that makes indexes with any builders and calls AddItem and Close on them in any order; every item read afterwards", "why_tests_cant": "tests make one index per builder; the indexes of one builder share an allocator, and whether that shows depends on which index grows next", "anchors": ["builder/index.go: allocator kept in the builder, Index()", "index/memory/gc_index_build_allocator.go: Reallocate, Free", "index/annoyindex.go: New, AddItem, allocateSize, Close"]}
{"id": "C74", "title": "Exhaustive answers depend on the items only", "statement": "If inner nodes survive being written (vectors long enough, or at most K slots), a search that may inspect everything gives the same indexes and distances, bit for bit, on any two indexes that store the same vector for each index: order and repetition of the AddItem calls, seed, allocation hint, policy, number of trees, number of workers and schedule do not matter.", "quantifier": "every two sessions of one configuration with the same final items; all queries, k, contexts, budgets large enough to cover both", "why_tests_cant": "compares all pairs of builds, including all schedules and seeds", "anchors": ["index/annoyindex.go: AddItem, Build, makeTree", "index/annoyindex_search.go: GetNnsByVector", "index/policy/index_policy_multi.go: Build"]}
{"id": "C75", "title": "Builds with several workers are reproducible", "statement": "Two builds of the same items with the same seed, number of trees and number of workers give the same answers to every search.", "quantifier": "every items, seed, trees, workers; every two schedules; every query", "why_tests_cant": "the schedules that differ are rare and not under the control of a test", "anchors": ["index/annoyindex.go: idx.random used by all workers, makeTree, ThreadBuild", "index/policy/index_policy_multi.go: Build"]}
{"id": "C76", "title": "Build always finishes with the default generator", "statement": "With uint32 item numbers and the default Kiss32Random in any state, Build with one worker ends for every set of items (duplicates, zero vectors and other inputs on which every hyperplane fails included); the loop that draws random sides needs at most 777 rounds, and at most two for 38 or more items.", "quantifier": "every state of the generator (every seed and history), all items, both distances, float32 and float64, every number of trees", "why_tests_cant": "a generator state for which all rounds of some length are one-sided would hang Build; there are 2^128 states", "anchors": ["index/annoyindex.go:391-409", "random/kiss32random.go:37-60"]}
{"id": "C77", "title": "Splits are accepted by the share of the larger side", "statement": "The float64 tests splitImbalance < 0.95 and <= 0.99 decide, up to a millionth, whether the larger side holds less than 95 % (at most 99 %) of the items; a split with an empty side never passes the second test.", "quantifier": "all side lengths with a sum below 2^64", "why_tests_cant": "rounding of the conversions, the division and the 1e-9 for all lengths", "anchors": ["index/annoyindex.go:381-385,392-396,457-464"]}
{"id": "C78", "title": "The generators are the KISS generators they cite", "statement": "Kiss32Random[uint32] and Kiss64Random return the numbers of the published KISS generators: a linear congruential number plus a xorshift number plus a multiply-with-carry number.", "quantifier": "every state", "why_tests_cant": "tests compare a few numbers at most; the repository's tests do not compare any", "anchors": ["random/kiss32random.go:37-49", "random/kiss64random.go:34-50"]}
{"id": "C79", "title": "Different seeds give different streams", "statement": "Generators with different seeds draw different numbers, different indexes and different sides.", "quantifier": "all pairs of seeds, all positions of the streams", "why_tests_cant": "all pairs of seeds and infinitely long streams", "anchors": ["random/kiss32random.go:22-69"]}
{"id": "C80", "title": "The state of the generator does not repeat early", "statement": "The state of Kiss32Random is never the same twice within 2^w draws (w the width of the index type).", "quantifier": "every state, every width", "why_tests_cant": "2^32 or 2^64 draws from every state", "anchors": ["random/kiss32random.go:37-49"]}
{"id": "C81", "title": "An index without trees survives Save and Load", "statement": "An index built with zero trees (numberOfTrees 0, or the multi worker policy with zero workers) keeps its items and answers every search with the empty list, before and after Save and Load.", "quantifier": "every sequence of AddItem calls, every query, both file back ends", "why_tests_cant": "what Load takes for a root depends on which slots are used and on the bit patterns of the stored norms", "anchors": ["index/annoyindex_io.go:42-124", "index/annoyindex.go:181-285", "index/annoyindex_search.go:75-199"]}
{"id": "C82", "title": "Equal vectors have distance zero", "statement": "On a built angular index GetDistance of two items with the same vector, and of an item and itself, is exactly 0, for float32 and float64.", "quantifier": "every vector, every squared norm with its rounding errors, every index", "why_tests_cant": "the formula squares, takes a root and divides in floating point, for float32 with a root rounded twice; 2^32 norms with rounding each, and it fails only beyond the range of the product of two squared norms", "anchors": ["distance/angular/distance.go:80-105", "distance/angular/distance.go:164-166", "index/annoyindex_search.go:42-53"]}
{"id": "C83", "title": "Distances are accurate", "statement": "On a built angular index GetDistance of two items is close to the Euclidean distance c of the two vectors scaled to length one, computed over the reals. With unit roundoff u (2^-24 for float32, 2^-53 for float64), n components (at most 2^17, 2^46) and norms from 2^-31 to 2^31 (2^-249 to 2^249): it is a number unless c^2 < 5(n+9)u; if it is a number it is finite and differs from c by at most sqrt(5(n+9)u)+7u and by at most 5(n+12)u/c.", "quantifier": "every two finite vectors with norms in the range, every rounding of every addition, product, root and division", "why_tests_cant": "a bound for the accumulated rounding error over all vectors; tests compare a few values against a tolerance chosen by hand", "anchors": ["distance/angular/distance.go:80-105", "distance/angular/distance.go:164-166", "vector/dot.go:17-31", "index/annoyindex_search.go:42-53"]}
{"id": "C84", "title": "Searches rank by the real distance up to rounding", "statement": "On a built angular index the results of GetNnsByVector are the nearest by the real distance of the directions among the items looked at, in ascending order, and with a budget that covers all trees among all added items, where squared distances that differ by at most 10(n+9)u may be taken for equal; every returned distance is close to the real one as in C83. (Norms and n as in C83; exhaustive part: the vectors are long enough for inner nodes to survive CopyNode.)", "quantifier": "every query, every set of items, every build and schedule", "why_tests_cant": "recall tests compare the index with a brute-force scan in the same float arithmetic; no test says how far either is from the real nearest neighbours", "anchors": ["index/annoyindex_search.go:76-190", "distance/angular/distance.go:80-105"]}
{"id": "C85", "title": "An item is its own nearest neighbour if the others are not too close", "statement": "On a built angular index an exhaustive search by an item returns this item first, if the squared real distance of its direction from the direction of every other item is more than 10(n+9)u (u, n, norms as in C83; vectors long enough for inner nodes to survive CopyNode).", "quantifier": "every item, every index", "why_tests_cant": "the computed distance to itself and to others are rounded, may be negative and may tie; a statement about all vectors needs the error bound", "anchors": ["index/annoyindex_search.go:56-74", "distance/angular/distance.go:80-105"]}
{"id": "C86", "title": "A budget of the number of items is enough", "statement": "On a built or loaded index with at least one tree, a search whose budget (searchK, or numReturn*len(roots) for -1) is at least the number of added items returns exactly the nearest of all added items by the distances of the code, however many trees there are. (C17 needs a budget for all trees.)", "quantifier": "every index whose inner nodes survive CopyNode, every query with finite margins, every numReturn, context, schedule of the build", "why_tests_cant": "the budget counts gathered entries, entries are gathered several times from several trees, and the heap decides from which; only an argument over all heaps tells how many entries suffice", "anchors": ["index/annoyindex_search.go:76-190", "index/annoyindex_io.go:42-124", "distance/angular/distance.go:168-177"]}
{"id": "C87", "title": "The first tree alone decides every answer", "statement": "On a built or loaded index every search returns what the same index returns with all roots but the smallest removed and the same budget: trees behind the first never influence an answer, because a budget is used up inside the first tree or covers all items.", "quantifier": "every index whose inner nodes survive CopyNode, every query with finite margins, every numReturn, every budget that is not negative, context, schedule of the build", "why_tests_cant": "recall tests only see that answers are reasonable; no finite number of queries shows that the other trees are never consulted to any effect", "anchors": ["index/annoyindex_search.go:76-190", "distance/angular/distance.go:168-177", "sort/priority_queue.go"]}
{"id": "C88", "title": "More trees change nothing but the default budget", "statement": "Two single-worker builds of the same items with the same generator, with different positive numbers of trees, answer every search alike when asked with the same budget (or with default budgets that are equal).", "quantifier": "every set of items, every two numbers of trees, every query with finite margins, every numReturn and budget; inner nodes survive CopyNode", "why_tests_cant": "a statement about pairs of builds for all numbers of trees", "anchors": ["index/annoyindex.go:181-455", "index/annoyindex_search.go:76-190"]}
{"id": "C89", "title": "Ordinary data never produces infinite margins", "statement": "In a built angular index with ordinary finite components (float32: up to 2^17 components of size at most 2^54; float64: up to 2^46 components of at most 2^476), every margin of a query with ordinary finite components (2^90, 2^900) at an inner node is finite: no NaN or infinity arises in TwoMeans, Normalize, CreateSplit or Margin.", "quantifier": "every data set and query within the bounds, every generator, number of trees and workers, schedule", "why_tests_cant": "200 rounds of rounded averaging per node over unknown samples; overflow and 0/0 must be excluded for every sequence of samples", "anchors": ["distance/angular/distance.go:65-78", "distance/angular/distance.go:107-162", "distance/two_means.go", "vector/dot.go"]}
{"id": "C90", "title": "With ordinary data and a budget of the number of items, answers are the real nearest neighbours", "statement": "For an angular index with vectors of ordinary norm (float32: 2^-31..2^31, float64: 2^-249..2^249) and at least 3*sizeof(TIX) components, a search with a budget of at least the number of items returns the nearest of all added items by the real (exact) angular distance, up to a stated rounding tolerance; also after Save and Load; and the number of trees built does not change any answer for a given budget.", "quantifier": "every data set, query, generator, number of trees and workers, schedule, numReturn", "why_tests_cant": "combines rounding errors, the random trees and the search order for all inputs", "anchors": ["index/annoyindex_search.go:76-190", "distance/angular/distance.go:66-177", "index/annoyindex_io.go:42-124"]}
{"id": "C91", "title": "The precision program reports the real recall", "statement": "cmd/precision, run on an angular float32 index of moderate vectors: after Save the comparison of all vectors with GetItem does not panic; if the rounds come to an end (they do when contexts have room for the items of all trees), every reported precision is a finite number in [0,1] that differs by at most (rounds+5)/2^53 from the average, over the items drawn, of the share of the numReturn nearest neighbours found by a default search with that limit; the reference answers of the program are the exact nearest neighbours; a limit of at least numReturn whose default budget covers all items is reported as exactly 1.", "quantifier": "every data set within the bounds, number of trees, workers, schedule and generator, every number of rounds and numReturn up to 2^53", "why_tests_cant": "a statement about accumulated float64 sums over random draws and about the exactness of the reference answers for all data", "anchors": ["cmd/precision/main.go:154-247", "utils/math.go:17-45", "index/annoyindex_search.go:54-190"]}
{"id": "C92", "title": "Fresh contexts have room for searches with a budget of at most the number of items", "statement": "If an index has at least three items (or no more slots than fit into a bucket), a context made by CreateContext has room for every search whose budget (searchK, or numReturn*len(roots) for -1) is at most the number of items and whose margins are not NaN: the search does not panic. With two items far apart in the numbering it does panic. With ordinary float32/float64 data the margins are finite, so such searches always return; with a budget of exactly the number of items they return the real nearest neighbours up to rounding.", "quantifier": "every data set, gaps in the numbering included, every number of trees and workers, schedule and generator, every query, numReturn and budget up to the number of items", "why_tests_cant": "the room made depends on the shapes of all random trees; C22 shows that the room is not enough in general", "anchors": ["index/annoyindex.go:217-229", "index/annoyindex_search.go:20-40", "index/annoyindex_search.go:93-135", "index/annoyindex_io.go:101-112"]}
{"id": "C93", "title": "GoRandom is a fair, seeded and replayable generator", "statement": "random.GoRandom draws in range (NextIndex(n) < n, Next < 2^31-1, NextIndex(0) panics) and fairly: each index is produced by the same number of source values. Generators made by NewGoRandomWithSeed with equal seeds give equal values, CloneAndReset replays its original, and GetSeed returns the last seed set. (The reproducibility part is false: the source is seeded with the clock, so the seed given to the constructor has no influence at all; only SetSeed makes a generator reproducible, and it does not change GetSeed.)", "quantifier": "every rand.Source, clock reading, seed, n and history of calls", "why_tests_cant": "tests see a few draws of one clock reading; fairness is a count over all 2^31 or 2^63 source values, and reproducibility is a statement about all histories", "anchors": ["random/gorand.go:10-25", "random/gorand.go:27-60"]}
{"id": "C94", "title": "utils.Round rounds to the nearest integer", "statement": "Round(f) is an integer at distance at most 1/2 from f, halves rounded up, and RoundPlus of finite numbers is finite. (False for exactly such f where the sum f + 0.5 is rounded up to the next integer: 0.49999999999999994 gives 1 and 4503599627370497 gives 4503599627370498; RoundPlus overflows for large f. True for all other |f| < 2^52.)", "quantifier": "every finite float64", "why_tests_cant": "one of 2^63 values below 2^52 fails; the property depends on the rounding of the addition for every binade", "anchors": ["utils/math.go:47-54"]}
{"id": "C95", "title": "Verbose logging is harmless", "statement": "With logVerbose set, a build does what it does without: DumpNode reads only the bytes of its node, whatever they are, the index built is the same up to the racing generator, and the workers obey the same locks. (The last part is false: both dumps of makeTree read the node after the shared lock was given back, so a worker can read node memory while another one moves it.)", "quantifier": "every node content; every data set, number of trees and workers, and schedule", "why_tests_cant": "the race needs one particular interleaving of two workers, and no test runs with verbose logging", "anchors": ["utils/dump.go:9-32", "index/annoyindex.go:335-340", "index/annoyindex.go:444-452", "builder/index.go:72-75"]}
{"id": "C96", "title": "Every history of calls is one of a table of vectors", "statement": "Whatever calls a program makes on a new index, in whatever order, and whatever files it finds: every answer is one that a plain table of vectors would give. AddItem fills the table and is refused on a loaded index, Build seals it (once), Save gives an error before Build or when the file cannot be created and otherwise, for tables that can be read again, writes the table to the file and succeeds, Load of such a file (also of one saved before other calls, by the same program) succeeds and brings the table back, Close empties it, GetItem and GetDistance return what was added last, searches return the best of a subset of the items, with a large budget the best of all items, with the default budget as many as asked for, and nothing before Build.", "quantifier": "every distance, arithmetic and generator within the contracts, both policies, every schedule of the workers, both kinds of index memory, every sequence of calls and answers, every initial file system without two names for one file", "why_tests_cant": "the claim is about all sequences of calls; each call's effect depends on all calls before it, including files overwritten while another file is mapped", "anchors": ["index/annoyindex.go", "index/annoyindex_io.go", "index/annoyindex_search.go", "interfaces/index.go"]}
{"id": "C97", "title": "Programs that keep to the interface run to their end", "statement": "After every history of calls on a new index the following calls are answered (no panic, no endless loop): AddItem of a vector of the right length before Build or after Close; Build on an index that was neither built nor loaded (with several workers: some schedule ends); Save before Build, to a file that cannot be created, or of a finished index that can be read again; Load of a file saved by the program; Close; GetItem and GetDistance of added items; CreateContext; searches with vectors of the right length or items, with a context that has room. Hence a program that makes only such calls runs to its end and all its answers are right.", "quantifier": "every history, every configuration within the contracts whose generator eventually gives balanced sides (proved for the default generator), both policies, both kinds of index memory", "why_tests_cant": "absence of panics and of endless loops after all histories", "anchors": ["index/annoyindex.go", "index/annoyindex_io.go", "index/annoyindex_search.go", "interfaces/index.go"]}
{"id": "C98", "title": "After any calls, searches of ordinary data find the real nearest neighbours", "statement": "Whatever calls a program has made on a new angular index: when it holds a finished index (built, or loaded from a file the program saved) of items of ordinary norm (float32: 2^-31..2^31, float64: 2^-249..2^249) with at least 3*sizeof(TIX) components and at least one tree, every search for a vector of ordinary norm with a budget of at least the number of items returns the nearest items by the real distance, in ascending order, up to the rounding of the arithmetic; and with at least three items such a search, with a budget of the number of items, is answered in every context that CreateContext gives.", "quantifier": "every history of calls, float32 and float64, every generator, number of trees and workers, both policies, every schedule, both kinds of index memory", "why_tests_cant": "all histories, all data, real-number distances", "anchors": ["index/annoyindex_search.go:52-199", "index/annoyindex.go:149-234", "index/annoyindex_io.go:11-124", "distance/angular/distance.go"]}
{"id": "C99", "title": "Hyperplanes of a dot product index have no dot factor", "statement": "In a built dot product index the dot factor of every inner node is zero, although PreProcess has given dot factors to the items; so the margin of a query at an inner node is the plain inner product with the stored normal vector, as far as comparisons can tell, and it is finite for items and queries of ordinary size.", "quantifier": "every session, generator, number of trees and workers, both policies, every schedule; float32 and float64; every query", "why_tests_cant": "all inner nodes of all trees; depends on what the temporary node of the splits holds after every attempt", "anchors": ["distance/dotproduct/distance.go", "index/annoyindex.go:341-436"]}
{"id": "C100", "title": "A dot product index ranks by the real angle", "statement": "On a dot product index of items of ordinary norm with at least 3*sizeof(TIX) components and at least one tree, built or loaded from a saved file, a search for a vector of ordinary norm with a budget of at least the number of items returns the items whose directions are nearest to the direction of the query, nearest first, up to rounding, and reports 2 cos - 2; with three or more items such a search with a budget of the number of items is answered in every context of CreateContext. The same after every history of calls.", "quantifier": "every session and every history of calls, float32 and float64, every generator, number of trees and workers, both policies, every schedule", "why_tests_cant": "all data, real angles, all schedules", "anchors": ["distance/dotproduct/distance.go", "index/annoyindex_search.go:52-199"]}
{"id": "C101", "title": "A dot product index finds the largest inner products", "statement": "A search on a dot product index with a budget of at least the number of items returns the items with the largest inner products with the query.", "quantifier": "all dot product indexes and queries", "why_tests_cant": "false: the index ranks by angle", "anchors": ["distance/dotproduct/distance.go", "index/annoyindex_search.go:52-199"]}
{"id": "C102", "title": "The number of items is limited by the index type only", "statement": "AddItem stores vectors under every number of the index type: items added one after the other stay inside the memory of the index and are returned by GetItem, as long as the numbers fit into the index type.", "quantifier": "all item numbers below 2^32 (uint32), all vector lengths and vectors", "why_tests_cant": "false, but only from about 2.9 GB on: addresses and block sizes are computed in the index type, and growth by 1.5 overflows first", "anchors": ["index/annoyindex.go:149-179", "index/annoyindex.go:462-484", "index/memory/gc_index_build_allocator.go:26-49", "distance/angular/distance.go:52-59"]}
{"id": "C103", "title": "The slice GetItem returns may be kept", "statement": "The slice returned by GetItem keeps showing the vector of the item as it was when GetItem was called, whatever the program does afterwards with this and other indexes, and a program that writes into it gets the distances of the vector it wrote.", "quantifier": "For every program of calls that create, fill and close any number of indexes before and after the call, and every item number.", "why_tests_cant": "The slice aliases index memory; whether later calls change it depends on whether the arena was reallocated in between, which depends on the whole history of item numbers and the size hint.", "anchors": ["index/annoyindex.go:145-147", "distance/angular/node.go:47-49", "index/annoyindex.go:466-484", "index/annoyindex_search.go:43-50"]}
{"id": "C104", "title": "The multi worker policy with one worker is the single worker policy", "statement": "Build(trees, 1) with the multi worker policy and Build(trees, n) with the single worker policy leave identical indexes: the same bytes, roots, counters and generator state, for every set of items and every state of the generator.", "quantifier": "all items, hints, numbers of trees (-1 included), generator states, both distances, float32 and float64", "why_tests_cant": "equality of two programs on all inputs", "anchors": ["index/policy/index_policy_multi.go:21-49", "index/policy/index_policy_single.go:11-16", "index/annoyindex.go:237-455"]}
{"id": "C105", "title": "Replacing a file does not disturb indexes loaded from it", "statement": "An index loaded from a file keeps answering as it did at Load while other indexes are saved, under the same or other names, also if one of those saves is interrupted.", "quantifier": "every loaded index, both kinds of index memory, any number of saves of any indexes, interrupted at any moment", "why_tests_cant": "a mapping shows the current content of the file; the effect depends on the order of calls on several indexes", "anchors": ["index/annoyindex_io.go:11-40", "index/memory/index_allocator_mmap.go:60-104", "index/memory/index_allocator_gcmem.go:60-94"]}
{"id": "C106", "title": "Trees and the recursion that builds them are of logarithmic depth", "statement": "Whatever vectors are added (all equal, NaN, anything), the recursion of makeTree during Build, and the trees it stores, are never deeper than 77 times the (rounded up) binary logarithm of the number of item slots: every way down from a root meets an item or a bucket after at most so many inner nodes, so that neither building nor descending costs stack or time linear in the number of items.", "quantifier": "all sequences of AddItem, all vectors, all states of the random generator, all numbers of trees, every worker count and schedule of the multi worker policy (stored trees; the recursion: single worker policy). Stored trees: vectors long enough that inner nodes keep their children (SplitsKept: with uint32 numbers 12 components or more).", "why_tests_cant": "Tests build a few indexes and see that they finish; adversarial data (every hyperplane cutting off one item, duplicates) together with unlucky generator states cannot be enumerated, and a degenerate tree only shows as a slow or overflowing build.", "anchors": ["index/annoyindex.go:291-455", "index/annoyindex.go:372-399", "index/annoyindex.go:457-470"]}
{"id": "C107", "title": "The trees of short vectors do not depend on the vectors", "statement": "CreateSplit hands TwoMeans start points that are copies of vectorLength bytes of two item nodes. If vectorLength is at most the byte offset of the vector in a node (12 components for uint32/float32 angular, 16 for float64 angular and float32 dot product, 24 for float64 dot product), Build over two data sets that add the same indexes in the same order to an index with the same generator state gives the same roots, the same nodes, the same batchMaxNNS, the same final generator state and the same bytes behind the item nodes: every item is sent to a random side and no vector has any influence. With several workers, every index a schedule makes over one data set is, item nodes aside, the index some schedule makes over the other: the set of possible trees does not depend on the vectors.", "quantifier": "all pairs of legal AddItem sequences with the same indexes and finite vectors, all generator states, hints and tree counts, both policies and all schedules, angular and dot product, float32 and float64", "why_tests_cant": "A test compares the trees of a few data sets; that no data set whatsoever influences the trees is a statement about all pairs of data sets, and tests that check recall on a handful of items pass with random trees too.", "anchors": ["distance/angular/distance.go:138-170", "distance/dotproduct/distance.go:61-95", "distance/two_means.go:17-90", "utils/node.go", "index/annoyindex.go:330-440"]}
{"id": "C108", "title": "For short vectors, what a search looks at depends neither on the data nor on the query", "statement": "If vectorLength is at most the byte offset of the vector in a node, then for given numReturn and budget there is one set of items such that every search, with any finite query, over any data set with the same indexes (and the same generator state and number of trees), is a linear scan over exactly this set. With several workers: for every index made over one data set there is a schedule over the other such that the sets are the same.", "quantifier": "all pairs of sessions with the same indexes, all finite queries, all budgets and result counts, all buffers", "why_tests_cant": "It quantifies over all data sets and all queries at once; a test can only compare finitely many answers.", "anchors": ["index/annoyindex_search.go:75-199", "distance/angular/distance.go:138-170", "distance/dotproduct/distance.go:61-95", "index/annoyindex.go:330-440"]}
{"id": "C109", "title": "Hyperplanes come from two running means", "statement": "The hyperplane CreateSplit computes for some items is the unit vector along the difference of two running means: they start at (what CopyNode kept of) two different items, see two hundred items drawn by the generator, each item is divided by its length and joins the mean whose weight times angular distance is smaller, items without length and ties join none. In exact arithmetic each mean times its weight is its start point plus the sum of the directions of its items, the weight is the number of its points, no item counts in both, and no mean leaves the unit ball. Every inner node of a built index keeps the first bytes of such a hyperplane for the vectors of the items below it, or of the zero hyperplane.", "quantifier": "every memory, every list of items, every state of the generator, angular and dot product distance, every arithmetic; every built index, policy and schedule", "why_tests_cant": "The hyperplanes depend on hundreds of random draws and on rounding; a wrong weight or a stale norm still gives some hyperplane and searches still return something.", "anchors": ["distance/two_means.go:17-89", "distance/angular/distance.go:138-162", "distance/dotproduct/distance.go:61-85"]}
{"id": "C110", "title": "Splits see directions only", "statement": "In exact arithmetic the means and the hyperplane of a split do not change if every vector is multiplied by a positive number of its own, and a vector and its positive multiple are sent to the same side of every hyperplane.", "quantifier": "all vectors, all positive factors, all sequences of draws", "why_tests_cant": "Infinitely many factors; in floating point the results differ by rounding, so a test can only compare approximately.", "anchors": ["distance/two_means.go:44-88", "distance/angular/distance.go:65-162"]}
{"id": "C111", "title": "The order and number of AddItem calls leave no trace", "statement": "Build depends only on the last vector given for each index: two indexes with the same generator state that were filled by different sequences of AddItem calls (other order, items added twice, other allocation hints), such that the last vector for every index is the same, get the same nodes byte for byte, the same roots, counters and generator state from Build; they are saved as the same file and answer every search alike. In particular the many ways in which the memory grows while items are added are invisible.", "quantifier": "all pairs of legal sequences of AddItem calls with the same final table, all hints, all numbers of trees, all generator states, all queries; single worker policy (and one worker of the multi policy by C104)", "why_tests_cant": "The number of insertion orders is factorial, each with its own sequence of reallocations; a test compares a few orders for one data set.", "anchors": ["index/annoyindex.go:149-179", "index/annoyindex.go:181-232", "index/annoyindex.go:466-484", "index/memory/gc_index_build_allocator.go:26-49"]}
{"id": "C112", "title": "Indexes of items are checked", "statement": "GetItem, GetDistance and GetNnsByItem called with an index for which AddItem was never called fail with a panic instead of returning something that looks like an answer.", "quantifier": "for all built indexes and all values of the index type", "why_tests_cant": "What an unchecked index leads to depends on where its (wrapped) address falls; a test looks at a few indexes of a few small indexes.", "anchors": ["index/annoyindex.go:145-147", "index/annoyindex.go:287-289", "index/annoyindex_search.go:11-50", "distance/angular/distance.go:52-59"]}
{"id": "C113", "title": "What a search costs", "statement": "On an index built from at least two items (vectors of at least 3*sizeof(TIX) components, ordinary magnitudes) a search with the budget b (searchK, or numReturn*len(roots) for -1) takes at most 2*b + 77*ceil(log2 n) nodes from its priority queue, n the number of item slots, however many trees the index has and however long the item list is; the same holds for an index loaded from the file of the built one. On any memory whatever a search returns fewer than b+K results, K the number of entries of a bucket, none if b <= 0, and never more than numReturn.", "quantifier": "all item sets, trees, workers, generators, queries, budgets, contexts, node files", "why_tests_cant": "a running time bound for all indexes: a test measures particular ones, and a priority queue search could wander between trees without collecting anything for an unbounded number of steps", "anchors": ["index/annoyindex_search.go:75-199", "index/annoyindex.go:291-455"]}
{"id": "C114", "title": "A search is a depth-first walk through one tree", "statement": "On a built or loaded index whose margins for the query are not NaN the priority queue has no influence on answers: for every numReturn, budget and context the answer are the numReturn nearest of the items found by walking through the tree with the smallest root number depth first, at each inner node first completely the subtree with the smaller key (the far side of the hyperplane; between equal keys the one with the smaller node number), until budget item numbers have been taken.", "quantifier": "all item sets, numbers of trees and workers, generators, queries without NaN margins, budgets, contexts", "why_tests_cant": "the claim is an equality of two algorithms on all indexes and queries, including ties and infinite margins; tests compare them on samples", "anchors": ["index/annoyindex_search.go:75-199", "distance/angular/distance.go:168-177", "sort/priority_queue.go:1-42"]}
{"id": "C115", "title": "Several goroutines may add items", "statement": "If several goroutines call AddItem on one index at the same time, with different item indexes, then after all calls have returned every item is there: number of items and GetItem are as if the calls had been made one after the other.", "quantifier": "all numbers of goroutines, calls and vectors, all interleavings", "why_tests_cant": "the interleavings of unlocked reads and writes are not under the control of a test, and the losing ones are rare", "anchors": ["index/annoyindex.go:149-179", "index/annoyindex.go:466-484", "index/memory/gc_index_build_allocator.go:26-49"]}
{"id": "C116", "title": "An index may be saved while it is searched", "statement": "If one goroutine calls Save on a built index while others call GetNnsByVector with contexts of their own, every search answers as if Save had not been called, and none of them fails.", "quantifier": "all built indexes, queries, numbers of searches, all interleavings of their steps with those of Save", "why_tests_cant": "Save closes and reloads the index for a short moment without a lock; a test would have to hit that moment", "anchors": ["index/annoyindex_io.go:11-40", "index/annoyindex_io.go:42-124", "index/annoyindex.go:117-138", "index/annoyindex_search.go:75-199"]}
{"id": "C117", "title": "Items are divided by coin only after three hyperplanes failed", "statement": "Every inner node of a built index is divided by the first of at most three hyperplanes, each made for exactly its items, that leaves less than 95 % of them on the larger side, or by the third if that leaves at most 99 %. Items are divided at random, and the stored vector is zero, only if all three left 95 % or more on one side, the third more than 99 %.", "quantifier": "all items, vectors, numbers of trees and workers, build policies, schedules and random streams for which inner nodes are kept when written (always with uint32 and 12 or more components)", "why_tests_cant": "which attempt produced a node is not visible in the built index, and depends on the random numbers and the data", "anchors": ["index/annoyindex.go:361-399", "index/annoyindex.go:457-464"]}
{"id": "C118", "title": "Asking for fewer neighbours returns the beginning of the longer answer", "statement": "If two searches for the same query have the same budget (searchK), the answer of the one that asks for fewer neighbours is the beginning of the answer of the other one, ids and distances. Without a budget the number of neighbours also decides what is looked at: then the entries of the longer answer are position by position at least as good, but the shorter answer need not be its beginning.", "quantifier": "all built or loaded indexes, queries with distances other than NaN, numbers of neighbours, budgets and contexts", "why_tests_cant": "paging through results relies on it for every query, and the result is produced by a partial sort that takes different paths for different lengths", "anchors": ["index/annoyindex_search.go:82-85", "index/annoyindex_search.go:93-130", "index/annoyindex_search.go:177-196", "sort/partial_sort.go:7-50"]}
{"id": "C119", "title": "The size of a built index is bounded by slots, items and trees", "statement": "An index with n item slots, m items and T trees has, for buckets of at most K items: exactly n + 2T nodes if all slots fit into one bucket (n <= K) or there is just one item; otherwise at least n + 2mT/K and at most n + mT nodes. Save writes nodeSize bytes per node, so at most (n + T*max(2,m)) * nodeSize. Build(-1) with one worker makes exactly n trees in the first case; in the other it makes at least two trees, at most K if no slot is unused, and less than 2n + m nodes besides the root copies. With W workers it makes at least n trees, or at least two, at most K*(2W+1) if no slot is unused, and at most 2n + W*max(1, 2m-1) nodes besides the root copies.", "quantifier": "all legal sequences of AddItem, numbers of trees, policies and schedules, for which inner nodes survive being written", "why_tests_cant": "capacity planning needs a bound that holds for every data set; the shape of the trees depends on the vectors and on the random numbers", "anchors": ["index/annoyindex.go:181-232", "index/annoyindex.go:236-285", "index/annoyindex.go:303-416", "index/annoyindex_io.go:13-49"]}
{"id": "C120", "title": "Searching while Build runs with several workers", "statement": "Goroutines call GetNnsByVector, each with its own context, while another one is in Build with several workers; the steps come in any order. The index at the end of Build is one that Build makes alone. At every moment, a search that is done has returned exactly what it returns alone on the index of that moment (after Build: on the finished index) if the trees whose roots were there when it began were all; these roots are the first roots of the index. A search that panics, panics alone too. A search that began before any worker published its trees returns nothing; one that began later, with a budget of at least (number of trees it saw)*(items-1)+1, returns the nearest of all items. Every execution can be completed.", "quantifier": "all legal sequences of AddItem, numbers of trees and workers, queries and interleavings of the steps, for vectors long enough that inner nodes survive being written (SplitsKept)", "why_tests_cant": "the interleavings of workers and searches cannot be enumerated; a search that follows a half written node shows up once in a long while", "anchors": ["index/annoyindex.go:181-285", "index/annoyindex_search.go:75-199", "index/policy/index_policy_multi.go:22-49"]}
{"id": "C121", "title": "The division by coin takes few rounds", "statement": "When three hyperplanes failed, makeTree throws a coin for each of the m items, again and again until at most 99 % are on one side. The loop ends within k rounds exactly if one of the next k throws of the generator is not rejected. Of all throws of k rounds, at most the share (1.05/m)^k is rejected throughout, so that with fair and independent coins the mean number of rounds is at most m/(m-1.05).", "quantifier": "all lists of 2 to 2^64-1 items, all numbers of rounds, all sequences of coins, every generator", "why_tests_cant": "the loop has no bound of its own; that it ends and how fast is a statement about all sequences of coins", "anchors": ["index/annoyindex.go:390-409", "index/annoyindex.go:457-464"]}
{"id": "C122", "title": "Hyperplanes really separate the items, up to rounding", "statement": "In a built index (angular or dot product, float32 or float64) every inner node divides its items by a hyperplane in the real sense: the real inner product of the hyperplane that CreateSplit made with the vector of an item is at most eps for items of the left subtree and at least -eps for items of the right subtree, where eps = 17/16 ((f+3) u |w| |x| + 3 f t) with the norms of both vectors, the relative (u) and absolute (t) error of one operation. (Or the items were divided by coin and the hyperplane is zero, or there is one item only.) The margin that a search computes at an inner node is the real inner product of the stored vector and the query up to the same eps.", "quantifier": "all sessions with at most 2^17 (2^46) finite components of at most 2^54 (2^476), all generators, numbers of trees and workers, all inner nodes, all queries of at most 2^90 (2^900)", "why_tests_cant": "computed margins can have the wrong sign; how wrong they can be is a bound over all vectors and all hyperplanes", "anchors": ["distance/angular/distance.go:107-162", "index/annoyindex.go:355-427", "vector/dot.go:17-31"]}
{"id": "C123", "title": "Close under running searches never makes wrong answers", "statement": "Nothing keeps a program from calling Close while goroutines search. Whatever the order of the steps of Close and of the searches (each with a context of its own), a search that returns has returned exactly what it returns alone: on the open index if it read the roots before Close forgot them, and nothing at all otherwise. A search that is overtaken by Close crashes (it reads nil or memory that is gone); it never returns an incomplete or wrong list of neighbours. As long as Close has not begun, searches end as they do alone.", "quantifier": "all indexes (built, loaded into the heap, mapped), all queries, numbers of searches and contexts, all schedules of Close and searches, also with a step of Close in the middle of a turn of a search", "why_tests_cant": "the interleavings are unbounded, and a search that Close overtakes between two reads shows up once in a million runs", "anchors": ["index/annoyindex.go:117-138", "index/annoyindex_search.go:75-199", "index/memory/index_allocator_mmap.go:33-53"]}
{"id": "C124", "title": "Answers out of any memory", "statement": "Whatever an index went through and whatever its memory holds (a foreign, truncated or damaged file that Load took), a GetNnsByVector that answers is right for that memory: it returns different numbers, at most numReturn of them, each of a node inside the memory that says it is an item, each with the distance from the query to the vector of that node, in ascending order if no distance is NaN. The context it was called with makes no difference, not even with NaN. With the same budget, asking for fewer neighbours gives the beginning of the longer answer; with a larger budget no place of the answer gets worse.", "quantifier": "every state of an index, every world and file content, every query (of any length), budget, numReturn and context", "why_tests_cant": "the contents of memory are unbounded; tests search indexes that were built properly", "anchors": ["index/annoyindex_search.go:75-199", "index/annoyindex_io.go:42-124"]}
{"id": "C125", "title": "Few items: every answer is exact", "statement": "If all items fit in one bucket (the number of slots is at most the K of the node layout), every search of a built index with a positive budget (searchK -1 with at least one tree and numReturn, or any searchK of at least 1) is exact: it returns the numReturn items nearest to the query out of all items added, in ascending order, whatever the generator drew, the number of trees and workers, the policy, the interleaving and the context. The same holds for the index loaded from the saved file if it had at least two trees or the layout keeps the copies of the root apart; with a fresh context no search of a loaded index of this size panics.", "quantifier": "every metric, layout, generator, build session (both policies, every interleaving), query of the declared length, positive budget, numReturn, context", "why_tests_cant": "all generator streams, schedules, queries and budgets; tests compare a handful of queries on random data", "anchors": ["index/annoyindex_search.go:75-199", "index/annoyindex_build.go:20-140", "index/annoyindex_io.go:42-124"]}
{"id": "C126", "title": "The program of the README", "statement": "The program printed under 'Getting started' in the README does what its comments and its assertion say: three vectors are added, ten trees are built with -1 workers, GetNnsByVector([3 2 1], 3, -1) answers 2, 1, 0, and the index loaded from the saved file answers the same.", "quantifier": "every generator stream, number of processors and interleaving of the workers", "why_tests_cant": "the README program is run by no test, and its outcome must not depend on generator or schedule", "anchors": ["README.md:25-55", "index/annoyindex.go:149-179", "index/annoyindex_search.go:75-199", "index/annoyindex_io.go:42-124"]}
{"id": "C127", "title": "Copies of copies are the same file", "statement": "An index that was loaded from any file Load takes (also one that no index wrote) can be saved under another name without an error; both files then hold the same bytes and the index answers everything as before. So after any number of generations of Load and Save under another name, by any indexes of that kind with either back end, while other indexes are saved elsewhere, the last file is the first one byte by byte, every index can load it, and answers everything as an index that loaded the first file.", "quantifier": "every file content that Load takes and that is shorter than the range of the index type, every number of generations, names, both back ends, states of the indexes", "why_tests_cant": "all file contents and all chains of calls; mapped and copied memory alternate", "anchors": ["index/annoyindex_io.go:11-124", "index/memory/index_allocator_mmap.go", "index/memory/index_allocator_gcmem.go"]}
{"id": "C128", "title": "Zero vectors are at one distance of everything", "statement": "A vector of zeros (of any sign) has the distance 2 from every vector, infinite and NaN components included: GetDistance of an angular index returns the square root of 2 for it, and every search reports an item that is a zero vector at the square root of 2. A search by a zero vector therefore answers in ascending order of the indexes with one distance for all (the square root of 2; -2 in a dot product index), and with a budget of at least the number of items it returns exactly the numReturn added items with the smallest indexes.", "quantifier": "all sessions, generators, numbers of trees and workers, budgets, zero queries, built and loaded indexes; the last part for float32 and float64 with vectors of at least 3 sizeof(TIX) finite components of at most 2^54 (2^476)", "why_tests_cant": "zero vectors are a special case of the formula (0/0 otherwise) that must be caught for both arguments and with every other vector; ties among all items must be broken by index whatever the tree", "anchors": ["distance/angular/distance.go:80-105", "distance/dotproduct/distance.go:152-177", "index/annoyindex_search.go:86-199", "sort/sort.go:53-84"]}
{"id": "C129", "title": "With ordinary data the items and the query alone decide the answer", "statement": "For vectors of ordinary norm with at least 3 sizeof(TIX) components, a search with a budget of at least the number of items returns, bit for bit, what a brute force scan over the added vectors with the angular formula returns: numReturn indexes in the order of (formula, index) and the square roots (dot product index: the negatives) of these values. The index type, the generator and its seed, the numbers of trees and of workers, the schedule, order and repetition of the AddItem calls, Save, Load and the file back end have no influence; an angular and a dot product index over the same vectors return the same items in the same order.", "quantifier": "all sessions, all index types, generators, numbers of trees and workers, schedules, all queries, numReturn and sufficient budgets; float32 and float64, angular and dot product, built and loaded", "why_tests_cant": "compares indexes of all configurations with one function of the items and the query", "anchors": ["index/annoyindex_search.go:76-190", "distance/angular/distance.go:80-105", "distance/dotproduct/distance.go:137-177", "index/annoyindex.go: AddItem, Build"]}
{"id": "C130", "title": "Indexes over parts of the items", "statement": "With ordinary data and a budget of at least the number of items: the answer of an index over some of the items begins with what is left of the answer of the index over all of them, and is the same if nothing of it was left out. If the items are shared out among two indexes, the nearest numReturn of the two answers together are the answer of the index over all items. Items with equal vectors come in the order of their indexes (in every answer, whatever the budget), and an exact answer with one of them has all those with smaller indexes.", "quantifier": "all item tables of moderate vectors, all ways to leave out or share out items, all generators, numbers of trees and workers, index types, queries and numReturn", "why_tests_cant": "a relation between the answers of two or three indexes with different trees; tests compare an index with itself", "anchors": ["index/annoyindex_search.go:75-199", "index/annoyindex.go:291-455"]}
{"id": "C131", "title": "Opposite vectors are at distance exactly 2 and nothing is farther", "statement": "On a built angular index the distance of two items with opposite vectors is exactly 2, and no reported distance is above 2.", "quantifier": "all dimensions, vectors, item tables, generators, numbers of trees and workers; float32 and float64", "why_tests_cant": "the rounding errors of the dot products differ from vector to vector; a test shows some vectors", "anchors": ["distance/angular/distance.go:80-105", "distance/angular/distance.go:164-166", "index/annoyindex_search.go:42-53"]}
{"id": "C132", "title": "Mirror images have the same distances and answers", "statement": "An index over the opposites of all vectors reports bit for bit the same distances between items; with ordinary data and a budget of at least the number of items it answers the opposite of a query with the same indexes and distances, though its trees are different.", "quantifier": "all item tables, generators, numbers of trees and workers, index types, queries and numReturn", "why_tests_cant": "a relation between two indexes with different trees, over all vectors and bit for bit", "anchors": ["distance/angular/distance.go:80-105", "distance/angular/distance.go:164-166", "index/annoyindex_search.go:42-53", "index/annoyindex_search.go:75-199"]}
{"id": "C133", "title": "The opposite query finds the farthest items", "statement": "With ordinary data and a budget of at least the number of items, the answer to the opposite of q are the numReturn items farthest from q, the farthest first: an item that comes later, or not at all, is by the computed distance from q not farther than an earlier one, unless the two are at the same computed distance from the opposite; and by the real distances it is farther by no more than the rounding error.", "quantifier": "all item tables of moderate vectors, queries, numReturn, generators, numbers of trees and workers, index types; built and loaded indexes, angular and dot product, float32 and float64", "why_tests_cant": "a relation between all answers to a query and distances to another one, in rounded arithmetic", "anchors": ["distance/angular/distance.go:80-105", "distance/angular/distance.go:164-166", "index/annoyindex_search.go:42-53", "index/annoyindex_search.go:75-199"]}
{"id": "C134", "title": "Reported distances satisfy the triangle inequality", "statement": "For any three items of a built angular index the reported distance of the first and third is at most the sum of the reported distances of the first and second and of the second and third; in particular items reported at distance 0 from the same item are at distance 0 from each other.", "quantifier": "all dimensions, item tables of moderate vectors, triples of items, generators, numbers of trees and workers; float32 and float64", "why_tests_cant": "a statement about rounding errors of all triples of vectors", "anchors": ["distance/angular/distance.go:80-105", "distance/angular/distance.go:164-166", "vector/dot.go:17-31", "index/annoyindex_search.go:42-53"]}
{"id": "C135", "title": "Doubling a vector changes no angular distance, not even in the last bit", "statement": "Angular distance depends on directions only. For powers of two this is exact in floating point: if an item was added with twice the vector of another one, every item has the same reported distance from both, bit for bit, and twice a query has with a sufficient budget the same answer as the query, and an index in which any of the items are doubled gives the same answers, provided that the norms are moderate and no product of components underflows.", "quantifier": "all dimensions, item tables and queries of moderate vectors without underflow, generators, numbers of trees and workers, budgets of at least the number of items; float32 and float64; applied repeatedly, all powers of two", "why_tests_cant": "equality of the bits of results after a sequence of roundings, for all vectors", "anchors": ["distance/angular/distance.go:80-105", "distance/angular/distance.go:164-166", "vector/dot.go:17-31", "index/annoyindex_search.go:42-53"]}
