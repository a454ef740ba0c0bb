{
 "claims": [
  {
   "property": "C01",
   "status": "proved",
   "theorems": [
    "Annoy.C01_get_item"
   ],
   "note": "all legal AddItem sequences, any hint, any configuration meeting the contracts (the four of the repository do)"
  },
  {
   "property": "C02",
   "status": "proved",
   "theorems": [
    "Annoy.C02_items_unchanged"
   ],
   "note": "both worker policies, every schedule"
  },
  {
   "property": "C03",
   "status": "proved",
   "theorems": [
    "Annoy.C03_bad_add",
    "Annoy.C03_good_add"
   ],
   "note": "state (index and files) unchanged at the panic point"
  },
  {
   "property": "C04",
   "status": "proved",
   "theorems": [
    "Annoy.C04_memory",
    "Annoy.C04_hint",
    "Annoy.C04_hint_build",
    "Annoy.C04_growth_float",
    "Annoy.C04_allocateSize_float"
   ],
   "note": "Any sequence of Reallocate, Free and writes against an independent byte-history specification; any history of public API calls served without a hint is served with any hint with the same answers (simulation of larger blocks); for builds that are sure to end also the other way round."
  },
  {
   "property": "C05",
   "status": "proved",
   "theorems": [
    "Annoy.C05_disjoint"
   ],
   "note": ""
  },
  {
   "property": "C06",
   "status": "proved",
   "theorems": [
    "Annoy.C06_node_fields",
    "Annoy.C06_dot_factor"
   ],
   "note": ""
  },
  {
   "property": "C07",
   "status": "proved",
   "theorems": [
    "Annoy.C07_max_children",
    "Annoy.C07_children_inside"
   ],
   "note": ""
  },
  {
   "property": "C08",
   "status": "partial",
   "theorems": [
    "Annoy.C08_each_item_once_partial",
    "Annoy.C08_refuted_sparse",
    "Annoy.C08_refuted_short"
   ],
   "note": "false as stated: small indexes with gaps list item 0 for the gaps, and vectors shorter than 2*sizeof(TIX) lose the children of inner nodes; proved outside these two cases"
  },
  {
   "property": "C09",
   "status": "partial",
   "theorems": [
    "Annoy.C09_well_formed_partial",
    "Annoy.C09_refuted"
   ],
   "note": "false for short vectors (CopyNode truncates the children of inner nodes); proved when inner nodes survive"
  },
  {
   "property": "C10",
   "status": "proved",
   "theorems": [
    "Annoy.C10_single",
    "Annoy.C10_tree_count"
   ],
   "note": "C10_tree_count: either policy, exactly T trees, and for -1 at least twice as many nodes as item slots. C10_single: Build ends and Build(-1) is Build(T) for the smallest sufficient T (one worker; generator sides eventually balanced, proved for the default generator in C76)."
  },
  {
   "property": "C11",
   "status": "proved",
   "theorems": [
    "Annoy.C11_shares",
    "Annoy.C11_float"
   ],
   "note": "Every T and W: shares are not negative, add up to T, differ by at most one. C11_float: the float64 computation of the code equals the exact share for fewer than 2^53 workers and trees (the bound is needed, see the example)."
  },
  {
   "property": "C12",
   "status": "partial",
   "theorems": [
    "Annoy.C12_concurrent_forest_partial",
    "Annoy.C62_single_writer",
    "Annoy.C09_refuted"
   ],
   "note": "all schedules; needs the survival condition for inner nodes of C09 and no gaps in small indexes (C08)"
  },
  {
   "property": "C13",
   "status": "proved",
   "theorems": [
    "Annoy.C13_no_deadlock",
    "Annoy.C13_no_access_while_moving"
   ],
   "note": "for distances that do not panic; angular and dot product do not for f > 0"
  },
  {
   "property": "C14",
   "status": "proved",
   "theorems": [
    "Annoy.C14_sides",
    "Annoy.C14_finishes"
   ],
   "note": "Termination under EventuallyBalanced (random sides are eventually balanced from every generator state); C76 proves this hypothesis for the default generator with uint32 indexes."
  },
  {
   "property": "C15",
   "status": "proved",
   "theorems": [
    "Annoy.C15_build_rejected",
    "Annoy.C15_built_once",
    "Annoy.C15_loaded_read_only",
    "Annoy.C15_load_sets_loaded",
    "Annoy.C15_save_unbuilt",
    "Annoy.C15_save_without_build"
   ],
   "note": "all histories of AddItem, Build, Save, Load, Close with recovered panics"
  },
  {
   "property": "C16",
   "status": "partial",
   "theorems": [
    "Annoy.C16_sound",
    "Annoy.C16_sound_loaded",
    "Annoy.C16_loaded_refuted",
    "Annoy.C16_cut_refuted"
   ],
   "note": "Every built index (either policy, any schedule), query, numReturn, budget and context; and every index with trees loaded from the file of a built one, provided the number of slots fits into vectorLength bytes (CountKept). False outside these: a loaded index without trees (C16_loaded_refuted) and one whose slot count was cut off (C16_cut_refuted) return numbers nobody added."
  },
  {
   "property": "C17",
   "status": "partial",
   "theorems": [
    "Annoy.C17_exhaustive_partial",
    "Annoy.C17_exhaustive_loaded_partial",
    "Annoy.C17_C18_refuted"
   ],
   "note": "False as stated for short vectors (CopyNode cuts children off): counterexample. Proved for built and for loaded indexes when split nodes (and root copies) keep their children (SplitsKept, CopiesKept, e.g. vectors of length >= 3*sizeof(TIX) and more than K slots)."
  },
  {
   "property": "C18",
   "status": "partial",
   "theorems": [
    "Annoy.C18_default_count_partial",
    "Annoy.C18_default_count_loaded_partial",
    "Annoy.C17_C18_refuted"
   ],
   "note": "False as stated for short vectors: counterexample. Proved for built and for loaded indexes when split nodes (and root copies) keep their children."
  },
  {
   "property": "C19",
   "status": "proved",
   "theorems": [
    "Annoy.C19_budget",
    "Annoy.Session.C19_budget_loaded"
   ],
   "note": "Any two budgets other than -1, any two contexts. C19_budget_loaded: the same for an index loaded from the saved file (CountKept)."
  },
  {
   "property": "C20",
   "status": "partial",
   "theorems": [
    "Annoy.C20_bound_partial",
    "Annoy.C20_bound_short_partial",
    "Annoy.C20_answers_loaded_partial",
    "Annoy.C65_search_terminates",
    "Annoy.C65_search_terminates_loaded",
    "Annoy.C20_bound_refuted"
   ],
   "note": "Termination and no access outside hold always (C65). The bound on pops is proved when split nodes keep their children and for vectors of at most 2*sizeof(TIX) components; for 2*sizeof(TIX) < vectorLength < 3*sizeof(TIX) it is false: C20_bound_refuted gives 122 items with nine components, where only the lowest byte of the second child is kept, trees share nodes, and a search needs 4700 pops of 574 nodes and four roots (with a generator written for the purpose)."
  },
  {
   "property": "C21",
   "status": "proved",
   "theorems": [
    "Annoy.C21_context_content",
    "Annoy.C21_reuse"
   ],
   "note": "Any two contexts of the same length give the same answer or the same failure; sequences of queries reusing one context."
  },
  {
   "property": "C22",
   "status": "partial",
   "theorems": [
    "Annoy.C22_context_partial",
    "Annoy.C22_buckets_partial",
    "Annoy.C22_refuted"
   ],
   "note": "False as stated: items 0 and 20 only, length 12. Proved when fewer items hang directly below inner nodes (all trees together) than the index has items, in particular whenever there are at most K item slots."
  },
  {
   "property": "C23",
   "status": "partial",
   "theorems": [
    "Annoy.C23_refuted"
   ],
   "note": "False as stated: the priority queue is a min-heap. Counterexample with a search that returns everything but the query's side. See C64."
  },
  {
   "property": "C24",
   "status": "proved",
   "theorems": [
    "Annoy.C24_by_item",
    "Annoy.C24_distances"
   ],
   "note": ""
  },
  {
   "property": "C25",
   "status": "partial",
   "theorems": [
    "Annoy.C25_refuted",
    "Annoy.C25_long_query",
    "Annoy.C25_long_query_overrun",
    "Annoy.C25_short_query"
   ],
   "note": "False as stated, for long and for short queries: longer ones are never answered and write past the query node, shorter ones are answered as if filled up with zeros when the trees are buckets."
  },
  {
   "property": "C26",
   "status": "proved",
   "theorems": [
    "Annoy.C26_empty"
   ],
   "note": ""
  },
  {
   "property": "C27",
   "status": "partial",
   "theorems": [
    "Annoy.C27_save_load_partial",
    "Annoy.C27_refuted"
   ],
   "note": "Proved if the number of slots fits into vectorLength bytes (always so for vectorLength >= sizeof(TIX)). Otherwise false for every index: the loaded slot count is n mod 256^vectorLength."
  },
  {
   "property": "C28",
   "status": "partial",
   "theorems": [
    "Annoy.C28_exhaustive_partial",
    "Annoy.Session.C28_one_worker_partial",
    "Annoy.Session.C28_buckets_partial",
    "Annoy.C28_C29_refuted",
    "Annoy.C28_two_workers_refuted"
   ],
   "note": "False as stated: two items with vectors of length 2 lose item 1 on Save/Load, for exhaustive and default searches (C28_C29_refuted); and with long vectors, an index built by two workers answers a default search differently after Load, because the copies of the roots are in the order in which the workers finished (C28_two_workers_refuted: a concrete schedule). Proved when counts, split nodes and root copies survive being written: bit for bit for exhaustive searches; for every search (any k, budget, context) of an index of up to K slots; for every search with finite margins of an index built by one worker with more than K slots and three or more items."
  },
  {
   "property": "C29",
   "status": "partial",
   "theorems": [
    "Annoy.C29_roots_partial",
    "Annoy.C28_C29_refuted"
   ],
   "note": "False as stated for short vectors. Proved when counts, split nodes and root copies survive."
  },
  {
   "property": "C30",
   "status": "proved",
   "theorems": [
    "Annoy.C30_load_rejects"
   ],
   "note": "Also: whenever Load returns an error the index is empty."
  },
  {
   "property": "C31",
   "status": "partial",
   "theorems": [
    "Annoy.C31_refuted",
    "Annoy.C31_one_item_partial"
   ],
   "note": "False for every index with one slot: Load, hence Save, reads outside the file. What is left: building, searching and the bytes written."
  },
  {
   "property": "C32",
   "status": "partial",
   "theorems": [
    "Annoy.C32_refuted",
    "Annoy.C32_prefix_partial"
   ],
   "note": "False for every Save onto an existing file that is not empty. What is left: the file is always the old one or a prefix of the new one."
  },
  {
   "property": "C33",
   "status": "partial",
   "theorems": [
    "Annoy.C33_own_file_partial",
    "Annoy.C33_refuted"
   ],
   "note": "Proved for the GC back end. False for every index loaded with mmap: the file ends up empty and every access faults."
  },
  {
   "property": "C34",
   "status": "partial",
   "theorems": [
    "Annoy.C34_backends_partial",
    "Annoy.C34_refuted",
    "Annoy.C34_refuted_later"
   ],
   "note": "Proved for files that are not empty and not changed later. False for the empty file (error against panic) and after truncation of the file."
  },
  {
   "property": "C35",
   "status": "proved",
   "theorems": [
    "Annoy.Registry.C35_get_open",
    "Annoy.Registry.C35_get_last",
    "Annoy.Registry.C35_get_unknown",
    "Annoy.Registry.C35_double_open"
   ],
   "note": "Any history of Open/Close/Get, both allocators. Two Opens of one file leave the first allocation unreachable through Get, and closing either forgets the name; C35_double_open states this."
  },
  {
   "property": "C36",
   "status": "proved",
   "theorems": [
    "Annoy.C36_close"
   ],
   "note": ""
  },
  {
   "property": "C37",
   "status": "partial",
   "theorems": [
    "Annoy.C37_partial",
    "Annoy.C37_refuted",
    "Annoy.C37_never_again"
   ],
   "note": "false as stated: Close does not reset indexBuilt; proved for indexes that were never built or loaded"
  },
  {
   "property": "C38",
   "status": "partial",
   "theorems": [
    "Annoy.C38_partial",
    "Annoy.C38_whole_slice",
    "Annoy.C38_refuted"
   ],
   "note": "holds for the whole slice (the only use in the search) and for ranges of at most 20 or at least 5000000 elements; false for other ranges inside a larger slice (C38_refuted)"
  },
  {
   "property": "C39",
   "status": "proved",
   "theorems": [
    "Annoy.C39_partialSortSlice2"
   ],
   "note": ""
  },
  {
   "property": "C40",
   "status": "proved",
   "theorems": [
    "Annoy.C40_sortPairs2"
   ],
   "note": ""
  },
  {
   "property": "C41",
   "status": "proved",
   "theorems": [
    "Annoy.C41_priority_queue"
   ],
   "note": ""
  },
  {
   "property": "C42",
   "status": "proved",
   "theorems": [
    "Annoy.C42_intersection",
    "Annoy.C42_max"
   ],
   "note": ""
  },
  {
   "property": "C43",
   "status": "proved",
   "theorems": [
    "Annoy.C43_range",
    "Annoy.C43_symmetric",
    "Annoy.C43_same_direction",
    "Annoy.C43_scaling",
    "Annoy.C43_zero_vector",
    "Annoy.C43_triangle"
   ],
   "note": "The formula of the code evaluated over the reals (Model/RealNum.lean); Annoy.angDist_code shows the cached norms do not matter."
  },
  {
   "property": "C44",
   "status": "proved",
   "theorems": [
    "Annoy.C44_symmetric",
    "Annoy.C44_angular",
    "Annoy.C44_dot",
    "Annoy.C44_angular32",
    "Annoy.C44_angular64",
    "Annoy.C44_dot32",
    "Annoy.C44_dot64"
   ],
   "note": "Every state of the index, every memory content, every pair of indexes."
  },
  {
   "property": "C45",
   "status": "partial",
   "theorems": [
    "Annoy.C45_number_partial",
    "Annoy.C45_refuted"
   ],
   "note": "False: (0.3,0) and (0.9,0) in float32 have GetDistance NaN. Proved: NaN exactly when the rounded formula is NaN or negative."
  },
  {
   "property": "C46",
   "status": "proved",
   "theorems": [
    "Annoy.Session.C46_factors",
    "Annoy.C46_equal_norms"
   ],
   "note": "C46_factors: bytes of a built index, in the arithmetic of the code; C46_equal_norms: what that means in exact arithmetic."
  },
  {
   "property": "C47",
   "status": "partial",
   "theorems": [
    "Annoy.C47_value_partial",
    "Annoy.C47_refuted"
   ],
   "note": "False: the code returns minus the angular formula; that value is proved."
  },
  {
   "property": "C48",
   "status": "proved",
   "theorems": [
    "Annoy.C48_range32",
    "Annoy.C48_range64",
    "Annoy.C48_draws32",
    "Annoy.C48_draws64",
    "Annoy.C48_replay32",
    "Annoy.C48_replay64",
    "Annoy.C48_setSeed_is_not_reset"
   ],
   "note": ""
  },
  {
   "property": "C49",
   "status": "proved",
   "theorems": [
    "Annoy.C49_starts",
    "Annoy.C49_every_pair",
    "Annoy.C49_once",
    "Annoy.C49_no_panic"
   ],
   "note": "C49_once: no pair is preferred."
  },
  {
   "property": "C50",
   "status": "proved",
   "theorems": [
    "Annoy.C50_create_split",
    "Annoy.C50_create_split_dot",
    "Annoy.C50_normalize",
    "Annoy.C50_unit_or_zero"
   ],
   "note": "About the hyperplane CreateSplit computes; what is stored of it is C68."
  },
  {
   "property": "C51",
   "status": "proved",
   "theorems": [
    "Annoy.C51_dot",
    "Annoy.C51_dot_bilinear",
    "Annoy.C51_norm",
    "Annoy.C51_euclidean",
    "Annoy.C51_manhattan",
    "Annoy.C51_manhattan_metric",
    "Annoy.C51_slices",
    "Annoy.C51_short_slices",
    "Annoy.C51_unsafe",
    "Annoy.C51_node_vector"
   ],
   "note": "Exact arithmetic for the geometry; the agreement of slice loops, pointer loops and list functions holds in every arithmetic."
  },
  {
   "property": "C52",
   "status": "partial",
   "theorems": [
    "Annoy.Node.C52_bytes_partial",
    "Annoy.Node.C52_header_partial",
    "Annoy.Node.C52_children_partial",
    "Annoy.Node.C52_front_partial",
    "Annoy.Node.C52_refuted",
    "Annoy.Node.C52_refuted_vector"
   ],
   "note": "CopyNode copies size bytes and every caller passes the vector length in elements; the full claim (whole node copied) is refuted, what survives is proved."
  },
  {
   "property": "C53",
   "status": "partial",
   "theorems": [
    "Annoy.Session.C53_vectors_partial",
    "Annoy.Session.C53_refuted",
    "Annoy.Session.C53_next_index_refuted",
    "Annoy.Session.C53_far_partial"
   ],
   "note": "AddItem after Build is not rejected; it overwrites tree nodes. Vectors stay intact and adds at or beyond the node count leave searches alone; the claim for every index is refuted."
  },
  {
   "property": "C54",
   "status": "partial",
   "theorems": [
    "Annoy.C54_zero_workers",
    "Annoy.C54_refuted",
    "Annoy.C54_single_partial"
   ],
   "note": "false for the multi worker policy: zero workers build nothing"
  },
  {
   "property": "C55",
   "status": "partial",
   "theorems": [
    "Annoy.Builder.C55_last_wins",
    "Annoy.Builder.C55_order",
    "Annoy.Builder.C55_hint_ignored",
    "Annoy.Builder.C55_usable_partial",
    "Annoy.Builder.C55_usable64_partial",
    "Annoy.Builder.C55_refuted"
   ],
   "note": "Order independence and last-wins are proved; a usable index results only when the id type is uint32 or Random was called (refuted otherwise)."
  },
  {
   "property": "C56",
   "status": "proved",
   "theorems": [
    "Annoy.C56_file_layout"
   ],
   "note": "Copies are what CopyNode copies: the first vectorLength bytes."
  },
  {
   "property": "C57",
   "status": "partial",
   "theorems": [
    "Annoy.C57_refuted",
    "Annoy.C57_load_ends_partial",
    "Annoy.C57_tame_partial"
   ],
   "note": "False: a file with a cycle is accepted and every search of it runs forever. What is left: Load itself always ends; searches end on every accepted file whose inner nodes lead to nodes before them."
  },
  {
   "property": "C58",
   "status": "proved",
   "theorems": [
    "Annoy.C58_reproducible"
   ],
   "note": "Single worker policy."
  },
  {
   "property": "C59",
   "status": "proved",
   "theorems": [
    "Annoy.C59_pair_order32",
    "Annoy.C59_pair_order64"
   ],
   "note": ""
  },
  {
   "property": "C60",
   "status": "proved",
   "theorems": [
    "Annoy.C60_getItem_file"
   ],
   "note": ""
  },
  {
   "property": "C61",
   "status": "proved",
   "theorems": [
    "Annoy.C61_padding"
   ],
   "note": ""
  },
  {
   "property": "C62",
   "status": "proved",
   "theorems": [
    "Annoy.C62_exclusive",
    "Annoy.C62_single_writer",
    "Annoy.C62_termination",
    "Annoy.C62_can_finish"
   ],
   "note": ""
  },
  {
   "property": "C63",
   "status": "proved",
   "theorems": [
    "Annoy.C63_forest"
   ],
   "note": ""
  },
  {
   "property": "C64",
   "status": "proved",
   "theorems": [
    "Annoy.Session.C64_search_order",
    "Annoy.Session.C64_far_items_only",
    "Annoy.C64_far_side_first",
    "Annoy.Search.C64_far_items_only",
    "Annoy.C64_C71_case"
   ],
   "note": "Every successful query of a built index follows the order BestFirst (Spec/BestFirst.lean, no heap, no memory); after an inner node visited with a key above minus the absolute margin, the whole far subtree is visited before anything else. Consequence for answers: with a budget of at most the number of items on the far side of the first root, the answer has items of the far side only. Arithmetic and keys for float32/float64, angular and dot product (ieee32_keyLaws, angular_minKeys, dot_minKeys)."
  },
  {
   "property": "C65",
   "status": "proved",
   "theorems": [
    "Annoy.C65_search_terminates",
    "Annoy.C65_search_terminates_loaded"
   ],
   "note": "Built indexes without condition; loaded indexes if the slot count survived (CountKept)."
  },
  {
   "property": "C66",
   "status": "proved",
   "theorems": [
    "Annoy.C66_angular_value"
   ],
   "note": ""
  },
  {
   "property": "C67",
   "status": "partial",
   "theorems": [
    "Annoy.C67_own_builder_partial",
    "Annoy.C67_refuted",
    "Annoy.C67_close_refuted"
   ],
   "note": "Proved for an index whose builder made no other index: whatever the program does with other indexes, GetItem answers as on the index alone. False in general: the indexes of one builder share an allocator, so when one of them grows it takes over the items of the other one (C67_refuted), and Close of one makes the other lose its items when it grows (C67_close_refuted). Build and search on several indexes are not covered."
  },
  {
   "property": "C68",
   "status": "partial",
   "theorems": [
    "Annoy.C68_refuted",
    "Annoy.Session.C68_divisions_partial",
    "Annoy.angular_signSides",
    "Annoy.dot_signSides"
   ],
   "note": "False as stated (C68_refuted): CopyNode keeps vectorLength bytes of a split node, so what is stored is a truncated hyperplane, and items lie on its wrong side. C68_divisions_partial: for both distances, all schedules: the hyperplane that was computed (CreateSplit over exactly the items below the node; the node keeps its first bytes) separates the items below the two children, or the division was random and the stored vector is zero. Needs SplitsKept as the forest theorems do. Missing: separation by the stored vector."
  },
  {
   "property": "C69",
   "status": "proved",
   "theorems": [
    "Annoy.Session.C69_prefix",
    "Annoy.Session.C69_prefix_loaded",
    "Annoy.Session.C69_blind",
    "Annoy.Session.C69_same_items",
    "Annoy.angular32_prefix",
    "Annoy.dot32_prefix",
    "Annoy.angular64_prefix",
    "Annoy.dot64_prefix"
   ],
   "note": "For all sessions and finite queries; float laws proved for the bit-exact float32/float64 model (canon32, canon64). Loaded indexes under CountKept (vector length at least 4 bytes of descendants kept), as in C27."
  },
  {
   "property": "C70",
   "status": "partial",
   "theorems": [
    "Annoy.C70_refuted",
    "Annoy.Session.C70_own_vector_partial",
    "Annoy.Session.C70_small_partial"
   ],
   "note": "False as stated: stored hyperplanes lost their components, so the search by item 8 of 20 (vectors of length 12) never looks at item 8. Proved with a budget that covers all items, and with any positive budget (also -1) when all items fit in one bucket; missing: smaller budgets on larger indexes, where it is false."
  },
  {
   "property": "C71",
   "status": "proved",
   "theorems": [
    "Annoy.Session.C71_first_tree_only",
    "Annoy.Search.first_tree_answer",
    "Annoy.BestFirst.first_tree",
    "Annoy.BestFirst.unique",
    "Annoy.C64_C71_case"
   ],
   "note": "Under SplitsKept (vectors long enough for inner nodes to be written completely) and finite margins at the inner nodes. The margin hypothesis holds for ordinary data by C89."
  },
  {
   "property": "C72",
   "status": "proved",
   "theorems": [
    "Annoy.C72_commute",
    "Annoy.C72_steps"
   ],
   "note": "Every pair of adjacent actions of different workers, at every reachable moment, for every configuration meeting the contracts of Cfg.WF (the repository's distances do); the generator, which all workers use without a lock, may hand out anything and is left out of the comparison only in that the exchanged draws may leave the generator in the state the later draw left it in."
  },
  {
   "property": "C73",
   "status": "proved",
   "theorems": [
    "Annoy.C73_answers",
    "Annoy.C73_failures",
    "Annoy.C73_finishes",
    "Annoy.C73_shared_context_refuted"
   ],
   "note": "Every index, any calls, every schedule of the step machine (one step per loop turn); the machine is proved to compute what GetNnsByVector computes. C73_shared_context_refuted: with one context for two goroutines the claim is false, one returns the other's answer."
  },
  {
   "property": "C74",
   "status": "proved",
   "theorems": [
    "Annoy.C74_items_decide"
   ],
   "note": "Under SplitsKept, as stated in the property; same configuration (types, distance, vector length)."
  },
  {
   "property": "C75",
   "status": "partial",
   "theorems": [
    "Annoy.C75_exhaustive_partial",
    "Annoy.C75_refuted",
    "Annoy.C58_reproducible"
   ],
   "note": "False as stated: two schedules of two workers with two trees give different answers to a default search, even if no draw of the shared generator races (C75_refuted). Proved for searches that may inspect everything, and for the single worker policy (C58)."
  },
  {
   "property": "C76",
   "status": "proved",
   "theorems": [
    "Annoy.C76_build",
    "Annoy.C76_rounds"
   ],
   "note": "uint32 index type (the default), all four distance/element types. For uint64 indexes termination stays conditional (C14_finishes)."
  },
  {
   "property": "C77",
   "status": "proved",
   "theorems": [
    "Annoy.C77_share",
    "Annoy.C77_empty",
    "Annoy.C117_balance"
   ],
   "note": ""
  },
  {
   "property": "C78",
   "status": "partial",
   "theorems": [
    "Annoy.C78_kiss32_refuted",
    "Annoy.C78_kiss32_partial",
    "Annoy.C78_kiss32_carry",
    "Annoy.C78_kiss64",
    "Annoy.C78_kiss64_edge"
   ],
   "note": "Kiss32Random adds where KISS multiplies, so its numbers are not the published ones (refuted); the other two components are right, and what the third does instead is proved. Kiss64Random: recurrences of all three components, also for the largest carry 2^58 that can occur, except when the last six bits of x are ones (t overflows, as in the published code)."
  },
  {
   "property": "C79",
   "status": "partial",
   "theorems": [
    "Annoy.C79_refuted",
    "Annoy.C79_sides",
    "Annoy.C79_index",
    "Annoy.C79_values"
   ],
   "note": "Numbers: proved, they differ at every position. Sides: refuted, of the seed only its parity matters. Indexes below n dividing 2^w depend on the seed modulo n only."
  },
  {
   "property": "C80",
   "status": "proved",
   "theorems": [
    "Annoy.C80_period",
    "Annoy.C80_distinct"
   ],
   "note": ""
  },
  {
   "property": "C81",
   "status": "partial",
   "theorems": [
    "Annoy.C81_in_memory_partial",
    "Annoy.C81_dense_refuted",
    "Annoy.C81_count_refuted",
    "Annoy.C16_loaded_refuted"
   ],
   "note": "Holds before Save. False after Load for every such index: without gaps Load reads outside the file, with gaps the loaded index has one slot and takes items for roots."
  },
  {
   "property": "C82",
   "status": "partial",
   "theorems": [
    "Annoy.C82_float32_partial",
    "Annoy.C82_float64_partial",
    "Annoy.C82_tiny_refuted",
    "Annoy.C82_huge_refuted",
    "Annoy.C82_nan_refuted"
   ],
   "note": "Exactly +0 for every vector whose computed squared norm is in [2^-63, 2^64) (float32) or [2^-511, 2^512) (float64): the root undoes the rounding of the square, also when computed through float64. False outside: (2^-40, 0) and (2^32, 0) are at distance sqrt 2 from themselves, (2^64, 0) at distance NaN."
  },
  {
   "property": "C83",
   "status": "proved",
   "theorems": [
    "Annoy.C83_float32",
    "Annoy.C83_float64"
   ],
   "note": "Forward error analysis of the angular formula on correctly rounded arithmetic (Proof/Approx, Proof/ApproxIeee); specification is the norm of Mathlib's EuclideanSpace. The exemption for tiny distances is needed: C45_refuted is a pair with norms in the range and NaN."
  },
  {
   "property": "C84",
   "status": "proved",
   "theorems": [
    "Annoy.C84_search_float32",
    "Annoy.C84_search_float64",
    "Annoy.C84_exhaustive_float32",
    "Annoy.C84_exhaustive_float64"
   ],
   "note": "From C16/C17 (TopK by computed distances) and the error bound of C83. The exhaustive part assumes SplitsKept (at most K slots, or vectors of at least 3 index words), as the statement says."
  },
  {
   "property": "C85",
   "status": "proved",
   "theorems": [
    "Annoy.C85_float32",
    "Annoy.C85_float64"
   ],
   "note": "From C70_own_vector_partial and the error bound. Assumes SplitsKept, as the statement says."
  },
  {
   "property": "C86",
   "status": "proved",
   "theorems": [
    "Annoy.Session.C86_items_suffice",
    "Annoy.Session.C86_items_suffice_loaded",
    "Annoy.Session.C86_ordinary",
    "Annoy.Session.C86_ordinary_loaded"
   ],
   "note": "Built and loaded indexes; any number of trees at least one. Hypotheses: inner nodes survive CopyNode (automatic for f >= 3*szIX by C63, or few items), margins of the query finite, KeyLaws/MinKeys (proved for both IEEE formats). Case: C86_C88_case. The margin hypothesis holds for ordinary data by C89. The _ordinary theorems need margins that are not NaN only (they may be infinite; case C86_C92_case)."
  },
  {
   "property": "C87",
   "status": "proved",
   "theorems": [
    "Annoy.Session.C87_first_tree_suffices",
    "Annoy.Session.C87_first_tree_suffices_loaded",
    "Annoy.Session.C87_ordinary",
    "Annoy.Session.C87_ordinary_loaded"
   ],
   "note": "Built and loaded indexes; the index with its first root only gives the same ids and distances. Same hypotheses as C86; the budget must not be negative. The margin hypothesis holds for ordinary data by C89. The _ordinary theorems need margins that are not NaN only (they may be infinite; case C86_C92_case)."
  },
  {
   "property": "C88",
   "status": "proved",
   "theorems": [
    "Annoy.Session.C88_trees_change_nothing",
    "Annoy.Session.C88_ordinary"
   ],
   "note": "Single worker builds from the same state after the same adds. Same hypotheses as C86. The margin hypothesis holds for ordinary data by C89. The _ordinary theorems need margins that are not NaN only (they may be infinite; case C86_C92_case)."
  },
  {
   "property": "C89",
   "status": "proved",
   "theorems": [
    "Annoy.C89_float32",
    "Annoy.C89_float64"
   ],
   "note": "All generators, schedules, numbers of trees. Given that inner nodes survive CopyNode (SplitsKept; automatic for f >= 3*szIX). Angular distance only."
  },
  {
   "property": "C90",
   "status": "proved",
   "theorems": [
    "Annoy.C90_float32",
    "Annoy.C90_loaded_float32",
    "Annoy.C90_trees_float32",
    "Annoy.C90_float64",
    "Annoy.C90_loaded_float64",
    "Annoy.C90_trees_float64"
   ],
   "note": "End to end, no hypothesis about margins, keys or survival left: vectors of 3*szIX..2^17 (float32) or ..2^46 (float64) components with moderate norms. AlmostTopK: equal within 10(n+9)u for squared distances. Loaded indexes need CopiesKept (more than K items or long vectors), see C09."
  },
  {
   "property": "C91",
   "status": "proved",
   "theorems": [
    "Annoy.Precision.C91_float32",
    "Annoy.Precision.C91_verify",
    "Annoy.Precision.mem_limits"
   ],
   "note": "float32 as in the program (angular, uint32). The limits are the powers of ten up to the number of items, and 500 (mem_limits). C91_verify: the comparison goes through exactly if every stored vector equals the added one. Termination only under the stated room condition: without it a search may panic (C22)."
  },
  {
   "property": "C92",
   "status": "proved",
   "theorems": [
    "Annoy.Session.C92_room",
    "Annoy.Session.C92_room_loaded",
    "Annoy.C92_float32",
    "Annoy.C92_float64",
    "Annoy.C92_two_refuted",
    "Annoy.Session.C92_ordinary",
    "Annoy.Session.C92_ordinary_loaded"
   ],
   "note": "A positive counterpart of C22. C92_two_refuted shows that the condition on the number of items cannot be dropped. The _ordinary theorems need margins that are not NaN only (they may be infinite; case C86_C92_case)."
  },
  {
   "property": "C93",
   "status": "partial",
   "theorems": [
    "Annoy.C93_range",
    "Annoy.C93_fair",
    "Annoy.C93_returns",
    "Annoy.C93_draws",
    "Annoy.C93_set_seed_partial",
    "Annoy.C93_seed_ignored",
    "Annoy.C93_get_seed",
    "Annoy.C93_refuted"
   ],
   "note": "Range, fairness, progress and what exactly is drawn from the source (C93_draws) are proved. Reproducibility is false for NewGoRandomWithSeed and CloneAndReset and GetSeed forgets SetSeed (C93_refuted, for every source whose seeds matter); proved: after SetSeed all values depend on the seed only. The library's additive source is a parameter."
  },
  {
   "property": "C94",
   "status": "partial",
   "theorems": [
    "Annoy.C94_round_partial",
    "Annoy.C94_plus_partial",
    "Annoy.C94_refuted",
    "Annoy.C94_integer_refuted",
    "Annoy.C94_plus_refuted"
   ],
   "note": "False as stated (C94_refuted, C94_integer_refuted, C94_plus_refuted); proved for every |f| < 2^52 other than 0.49999999999999994, and for RoundPlus where f times shift is at most 2^51: the result is a multiple of 1/shift up to rounding and at most half of 1/shift away from f up to rounding. math.Pow is not modelled, RoundPlus takes its result as an argument."
  },
  {
   "property": "C95",
   "status": "partial",
   "theorems": [
    "Annoy.C95_inside",
    "Annoy.C95_no_influence",
    "Annoy.C95_locks_partial",
    "Annoy.C95_refuted",
    "Annoy.C95_place",
    "Annoy.C95_shows"
   ],
   "note": "Proved: dumps stay inside their node; a verbose build reaches only what a silent build reaches; no other worker writes or moves node memory during a move. False: no other worker reads it (C95_refuted). The printed text is not modelled. C95_place, C95_shows: which node a dump shows, and what it shows of items and roots."
  },
  {
   "property": "C96",
   "status": "proved",
   "theorems": [
    "Annoy.C96_history",
    "Annoy.C96_index32"
   ],
   "note": "The table (Spec/Store.lean) makes no promise after an item was added to a built index, after Load of a file the program did not write, after Save of a table that cannot be read again (fewer than two slots, no tree, or more slots than fit into f bytes), and after Save of a mapped index onto its own file, until the next Close, failed Load or Load of a known file. Searches of all items are promised where inner nodes and root copies survive being written (SplitsKept, CopiesKept). C96_index32 is the statement for the four indexes of the repository with uint32 numbers and the default generator."
  },
  {
   "property": "C97",
   "status": "proved",
   "theorems": [
    "Annoy.C97_answered",
    "Annoy.C97_program",
    "Annoy.C97_index32"
   ],
   "note": "Room of a context: number of nodes Build may need times number of slots (contexts made by CreateContext can be too small: C22). With several workers the theorem gives an ending schedule; that no schedule gets stuck is C13."
  },
  {
   "property": "C98",
   "status": "proved",
   "theorems": [
    "Annoy.C98_float32",
    "Annoy.C98_float64"
   ],
   "note": "Loaded indexes need root copies that keep their children (CopiesKept: more slots than fit into a bucket, or long vectors), as in C28."
  },
  {
   "property": "C99",
   "status": "proved",
   "theorems": [
    "Annoy.C99_factor",
    "Annoy.C99_margin",
    "Annoy.C99_float32",
    "Annoy.C99_float64"
   ],
   "note": "C99_factor and C99_margin over any arithmetic with 0/x = 0 (zeroOver32, zeroOver64 for the IEEE ones); C99_float32/64 finite margins."
  },
  {
   "property": "C100",
   "status": "proved",
   "theorems": [
    "Annoy.C100_float32",
    "Annoy.C100_loaded_float32",
    "Annoy.C100_answered_float32",
    "Annoy.C100_history_float32",
    "Annoy.C100_float64",
    "Annoy.C100_loaded_float64",
    "Annoy.C100_answered_float64",
    "Annoy.C100_history_float64"
   ],
   "note": "Specification AlmostTopDot: Euclidean geometry over the reals."
  },
  {
   "property": "C101",
   "status": "partial",
   "theorems": [
    "Annoy.C101_equal_norms_partial",
    "Annoy.C101_refuted"
   ],
   "note": "False: every index with the items (1,0,..) and (10,10,0,..) returns the first for the query (1,0,..). True, up to rounding, when all items are equally long."
  },
  {
   "property": "C102",
   "status": "partial",
   "theorems": [
    "Annoy.C102_partial",
    "Annoy.C102_refuted",
    "Annoy.C102_alias_refuted"
   ],
   "note": "Proved below two thirds of the range of the index type in bytes. False for every index: adding items one after the other, an AddItem writes behind the block at a moment when the index is still smaller than 2^32 bytes (6.8 to 10.5 million items for 100 float32 components). Items 0 and 2^30 share one place, and afterwards AddItem(1) writes outside."
  },
  {
   "property": "C103",
   "status": "partial",
   "theorems": [
    "Annoy.Arena.C103_shows",
    "Annoy.Arena.C103_kept_partial",
    "Annoy.Arena.C103_copy_refuted",
    "Annoy.Arena.C103_live_refuted",
    "Annoy.Arena.C103_write_refuted"
   ],
   "note": "As stated it is false: AddItem of the same number changes the slice when the index did not grow in between (C103_copy_refuted) and does not when it grew (C103_live_refuted), and writing into it leaves the cached norm behind so that GetDistance answers NaN (C103_write_refuted). Proved: at the call it shows the item, and it keeps its components through every later program of make/add/close on any number of indexes that adds other numbers (C103_kept_partial). Missing: Build/Save/Load after the call, mapped files."
  },
  {
   "property": "C104",
   "status": "proved",
   "theorems": [
    "Annoy.C104_one_worker",
    "Annoy.C104_default",
    "Annoy.Idx.BuildsAtomic.multi"
   ],
   "note": "Also ties the two models of Build (sequential functions, atomic actions) together. C104_default has no hypotheses about the generator (uint32 numbers, default generator)."
  },
  {
   "property": "C105",
   "status": "partial",
   "theorems": [
    "Annoy.C105_other_files_partial",
    "Annoy.C105_copy",
    "Annoy.C105_refuted"
   ],
   "note": "Proved for saves under other names (either back end) and, for copies in memory, for whatever happens to files. False for mapped files: after a Save of any other built index under the same name the loaded index answers the vectors of the other index (C105_refuted); during the Save every access faults (C34_refuted_later)."
  },
  {
   "property": "C106",
   "status": "proved",
   "theorems": [
    "Annoy.Session.C106_depth",
    "Annoy.C106_recursion",
    "Annoy.Index32.shrinks",
    "Annoy.angular_shrinks",
    "Annoy.dot_shrinks"
   ],
   "note": "Trees of sessions with either policy and every schedule; recursion of the single policy without condition on the vector length."
  },
  {
   "property": "C107",
   "status": "proved",
   "theorems": [
    "Annoy.Session.C107_same_trees",
    "Annoy.Session.C107_multi",
    "Annoy.angular32_dataBlind",
    "Annoy.angular64_dataBlind",
    "Annoy.dot32_dataBlind",
    "Annoy.dot64_dataBlind"
   ],
   "note": "DataBlind is the structure of facts about CreateSplit and Side that makes the distance blind; it is proved for all four index types up to the stated lengths. C107_multi: every schedule over one data set is a schedule over the other with the same nodes, roots and counters."
  },
  {
   "property": "C108",
   "status": "proved",
   "theorems": [
    "Annoy.Session.C108_blind",
    "Annoy.Session.C108_multi",
    "Annoy.Search.collect_swap"
   ],
   "note": "Built indexes of the single worker policy, and with several workers for matching schedules (C108_multi); hypotheses as for C69 and C107."
  },
  {
   "property": "C109",
   "status": "proved",
   "theorems": [
    "Annoy.C109_angular",
    "Annoy.C109_dot",
    "Annoy.C109_angular_index",
    "Annoy.C109_dot_index",
    "Annoy.C109_mean",
    "Annoy.C109_ball",
    "Annoy.C109_join"
   ],
   "note": "Bit for bit against the vector level specification in any arithmetic with commutative multiplication; the statement about means is in exact arithmetic. Built indexes need the splits kept (as C68)."
  },
  {
   "property": "C110",
   "status": "proved",
   "theorems": [
    "Annoy.C110_means",
    "Annoy.C110_normal",
    "Annoy.C110_side"
   ],
   "note": "Exact arithmetic, about the vector level specification that C109 connects to the code."
  },
  {
   "property": "C111",
   "status": "proved",
   "theorems": [
    "Annoy.Session.C111_order",
    "Annoy.Session.C111_perm",
    "Annoy.Session.C111_file",
    "Annoy.Session.C111_answers"
   ],
   "note": "C111_answers: a search that answers in one index gives the same ids, distances and context in the other (queries of the right length). Instance: twenty items backwards with one overwritten item against the same items in order, where the memory has a different size."
  },
  {
   "property": "C112",
   "status": "partial",
   "theorems": [
    "Annoy.C112_refuted",
    "Annoy.Session.C112_partial",
    "Annoy.C112_alias"
   ],
   "note": "False as stated (C112_refuted).  C112_partial says what every index leads to and that no panic of the library occurs; C112_alias that with uint32 any index behaves as the one 2^30 above it."
  },
  {
   "property": "C113",
   "status": "proved",
   "theorems": [
    "Annoy.Session.C113_cost",
    "Annoy.Session.C113_cost_loaded",
    "Annoy.C113_float32",
    "Annoy.C113_float64",
    "Annoy.C113_dot_float32",
    "Annoy.C113_dot_float64",
    "Annoy.C113_loaded_float32",
    "Annoy.C113_loaded_float64",
    "Annoy.C113_loaded_dot_float32",
    "Annoy.C113_loaded_dot_float64",
    "Annoy.Session.C106_depth_loaded",
    "Annoy.Search.C113_results"
   ],
   "note": "The fuel of Search.run is the number of nodes that may be taken from the queue: a run that has an answer has the same answer with 2b + 77 clog2 n + 1 units of it (the last one for the empty queue or the spent budget). C113_cost needs only that no margin is NaN; the float theorems derive that from the magnitudes."
  },
  {
   "property": "C114",
   "status": "proved",
   "theorems": [
    "Annoy.Session.C114_depth_first",
    "Annoy.Session.C114_depth_first_loaded",
    "Annoy.Session.C114_first_tree",
    "Annoy.Session.C114_first_tree_loaded"
   ],
   "note": "The specification (Verif/Spec/DepthFirst.lean) is a recursive function on trees without queue or memory. C114_first_tree is C87 without its condition that margins are finite. That inner nodes survive being written (SplitsKept, vectors of at least 3*sizeof(TIX) components) is a hypothesis, as in C63."
  },
  {
   "property": "C115",
   "status": "partial",
   "theorems": [
    "Annoy.ConcAdd.C115_refuted",
    "Annoy.ConcAdd.C115_grow_refuted",
    "Annoy.ConcAdd.C115_apart_partial",
    "Annoy.ConcAdd.C115_alone"
   ],
   "note": "False as stated: C115_refuted (item 5 is lost because the number of items goes back from 6 to 5), C115_grow_refuted (item 0 becomes the zero vector). C115_apart_partial: if an item with the same or a higher index was added before the goroutines start and no index is added by two goroutines, then under every schedule no call fails, the result is exactly that of the sequential calls, and six actions per call are enough. Reallocate, SetVector and InitNode are one action each. C115_alone: one goroutine alone does what the calls do in sequence."
  },
  {
   "property": "C116",
   "status": "partial",
   "theorems": [
    "Annoy.ConcSave.C116_apart_partial",
    "Annoy.ConcSave.C116_finishes_partial",
    "Annoy.ConcSave.C116_refuted",
    "Annoy.ConcSave.C116_empty_refuted"
   ],
   "note": "False as stated: C116_refuted (a search that read the roots before Save reads through a nil pointer after the Close), C116_empty_refuted (a search begun after the Close returns nothing). C116_apart_partial: for indexes with two slots and a tree, if no search takes a step between Close and the end of Load, then under every schedule a search returns or fails exactly as alone, on the built index if it began before Save returned and on the loaded index otherwise, and Save does what it does alone; C116_finishes_partial: enough steps are enough."
  },
  {
   "property": "C117",
   "status": "proved",
   "theorems": [
    "Annoy.Session.C117_attempts",
    "Annoy.C117_balance",
    "Annoy.imbalance_graded",
    "Annoy.angular_graded",
    "Annoy.dot_graded"
   ],
   "note": "Under SplitsKept (inner nodes survive being written), for every configuration whose first test of balance implies the second; that is proved for the float64 tests of the repository (angular and dot product). C117_balance says what these tests measure: the share of the larger side, compared with 0.95 and 0.99 up to a millionth. The inner node over a lonely item is excepted, as in C68."
  },
  {
   "property": "C118",
   "status": "proved",
   "theorems": [
    "Annoy.Session.C118_prefix",
    "Annoy.Session.C118_prefix_loaded",
    "Annoy.Session.C118_default",
    "Annoy.Session.C118_default_loaded",
    "Annoy.C118_default_no_prefix"
   ],
   "note": "For built indexes of either policy (any schedule) and loaded ones (CountKept). C118_default_no_prefix: 20 items of length 12, the default search for one neighbour of item 8 returns item 11, the one for twenty starts with item 8."
  },
  {
   "property": "C119",
   "status": "proved",
   "theorems": [
    "Annoy.Session.C119_nodes",
    "Annoy.Session.C119_file",
    "Annoy.Session.C119_auto",
    "Annoy.Session.C119_auto_multi"
   ],
   "note": "Under SplitsKept (inner nodes survive being written). For Build(-1) with several workers the bounds are those of C119_auto_multi, which are looser than with one worker."
  },
  {
   "property": "C120",
   "status": "proved",
   "theorems": [
    "Annoy.ConcBuild.C120_build",
    "Annoy.ConcBuild.C120_answers",
    "Annoy.ConcBuild.C120_failures",
    "Annoy.ConcBuild.C120_nearest",
    "Annoy.ConcBuild.C120_none",
    "Annoy.ConcBuild.C120_items",
    "Annoy.ConcBuild.C120_can_finish"
   ],
   "note": "Under SplitsKept (C120_build and C120_items without it). A turn of the search loop is one step (it reads idx._nodes and the node behind it together), and idx._roots is read and written as a whole; Go's memory model guarantees neither, since searches take no lock."
  },
  {
   "property": "C121",
   "status": "proved",
   "theorems": [
    "Annoy.C121_rounds",
    "Annoy.C121_share",
    "Annoy.C121_mean"
   ],
   "note": "Counts over all sequences of coins; that a generator throws fair and independent coins is not claimed (for the default generator C76 gives a bound without it)."
  },
  {
   "property": "C122",
   "status": "proved",
   "theorems": [
    "Annoy.C122_float32",
    "Annoy.C122_float64",
    "Annoy.C122_dot32",
    "Annoy.C122_dot64",
    "Annoy.C122_margin32",
    "Annoy.C122_margin64",
    "Annoy.C122_margin_dot32",
    "Annoy.C122_margin_dot64"
   ],
   "note": "The hyperplane is the one that CreateSplit made; of what is stored the bytes of the two children and the count are overwritten (KeptFrom, C68). Dot product: the temporary node has no dot factor (C99), so margins have the sign of the inner product, and the margins of searches are the inner product with the stored vector up to rounding."
  },
  {
   "property": "C123",
   "status": "proved",
   "theorems": [
    "Annoy.ConcClose.C123_answers",
    "Annoy.ConcClose.C123_finishes",
    "Annoy.ConcClose.C123_nothing",
    "Annoy.ConcClose.C123_closed",
    "Annoy.ConcClose.C123_case"
   ],
   "note": "The case has a search that Close overtakes, one that is done before it and one that begins after it."
  },
  {
   "property": "C124",
   "status": "proved",
   "theorems": [
    "Annoy.Idx.C124_answer",
    "Annoy.Idx.C124_context",
    "Annoy.Idx.C124_prefix",
    "Annoy.Idx.C124_budget"
   ],
   "note": "The example loads a file that no index ever wrote, with an inner node that is its own child."
  },
  {
   "property": "C125",
   "status": "proved",
   "theorems": [
    "Annoy.Session.C125_small",
    "Annoy.Session.C125_small_loaded",
    "Annoy.Session.C125_room_loaded"
   ],
   "note": "That a search of such a built index answers at all with its own contexts is C22_buckets_partial."
  },
  {
   "property": "C126",
   "status": "partial",
   "theorems": [
    "Annoy.C126_readme_partial",
    "Annoy.C126_readme_refuted"
   ],
   "note": "As printed the program panics at the first AddItem: it declares vectors of length 1536 and adds vectors of length 3 (_refuted). With the length 3 declared everything it says holds, for every generator, schedule, policy and every number of trees from two on (_partial)."
  },
  {
   "property": "C127",
   "status": "proved",
   "theorems": [
    "Annoy.C127_copy",
    "Annoy.C127_generations",
    "Annoy.C127_built"
   ],
   "note": "Under its own name this is C33 (false for mapped files). The example copies a file that no index wrote twice."
  },
  {
   "property": "C128",
   "status": "proved",
   "theorems": [
    "Annoy.C128_distance",
    "Annoy.C128_zero_item",
    "Annoy.C128_ascending",
    "Annoy.C128_ascending_loaded",
    "Annoy.C128_ascending_dot",
    "Annoy.C128_float32",
    "Annoy.C128_float64",
    "Annoy.C128_dot32",
    "Annoy.C128_dot64",
    "Annoy.C128_loaded_float32",
    "Annoy.C128_loaded_float64",
    "Annoy.C128_loaded_dot32",
    "Annoy.C128_loaded_dot64",
    "Annoy.C128_answered_float32",
    "Annoy.C128_answered_float64",
    "Annoy.C128_answered_dot32",
    "Annoy.C128_answered_dot64"
   ],
   "note": "Any arithmetic with the laws Vanish, MulLaws, Lawful (proved of float32 and float64) for distances and any budget; float32 and float64 for the exact answer."
  },
  {
   "property": "C129",
   "status": "proved",
   "theorems": [
    "Annoy.C129_float32",
    "Annoy.C129_float64",
    "Annoy.C129_dot32",
    "Annoy.C129_dot64",
    "Annoy.C129_loaded_float32",
    "Annoy.C129_loaded_float64",
    "Annoy.C129_loaded_dot32",
    "Annoy.C129_loaded_dot64",
    "Annoy.bruteForce_congr",
    "Annoy.C129_metrics"
   ],
   "note": "bruteForce is a linear scan (insertion) that mentions neither trees nor configuration. C74 is the same within one configuration for any data but with larger budgets."
  },
  {
   "property": "C130",
   "status": "proved",
   "theorems": [
    "Annoy.C130_equal_order",
    "Annoy.C130_part_float32",
    "Annoy.C130_part_float64",
    "Annoy.C130_part_dot32",
    "Annoy.C130_part_dot64",
    "Annoy.C130_shards_float32",
    "Annoy.C130_shards_float64",
    "Annoy.C130_shards_dot32",
    "Annoy.C130_shards_dot64",
    "Annoy.C130_equal_float32",
    "Annoy.C130_equal_float64",
    "Annoy.C130_equal_dot32",
    "Annoy.C130_equal_dot64"
   ],
   "note": "Built indexes of float32 and float64, angular and dot product; loaded indexes answer by the same brute force (C129_loaded_*), to which bruteForce_part and bruteForce_shards apply."
  },
  {
   "property": "C131",
   "status": "partial",
   "theorems": [
    "Annoy.C131_opposite_float32_partial",
    "Annoy.C131_opposite_float64_partial",
    "Annoy.C131_bound_float32_partial",
    "Annoy.C131_bound_float64_partial",
    "Annoy.C131_above_two_refuted"
   ],
   "note": "Opposite vectors: exactly 2 when the computed squared norm is in [2^-63, 2^64), for float64 [2^-511, 2^512). The bound 2 is false: two float32 vectors of six components are reported at 2 + 2^-22. What holds is 2 + 5(n+12)u for moderate norms and numbers."
  },
  {
   "property": "C132",
   "status": "proved",
   "theorems": [
    "Annoy.C132_distance",
    "Annoy.ieee32_mirror",
    "Annoy.ieee64_mirror",
    "Annoy.C132_float32",
    "Annoy.C132_float64",
    "Annoy.C132_dot32",
    "Annoy.C132_dot64"
   ],
   "note": "C132_distance for any arithmetic in which signs cancel in products; ieee32_mirror and ieee64_mirror show it for float32 and float64. Answers for built indexes of float32 and float64, angular and dot product."
  },
  {
   "property": "C133",
   "status": "proved",
   "theorems": [
    "Annoy.C133_float32",
    "Annoy.C133_float64",
    "Annoy.C133_dot32",
    "Annoy.C133_dot64",
    "Annoy.C133_loaded_float32",
    "Annoy.C133_loaded_float64",
    "Annoy.C133_loaded_dot32",
    "Annoy.C133_loaded_dot64",
    "Annoy.C133_tie"
   ],
   "note": "C133_tie shows that the exception for equal computed distances is needed."
  },
  {
   "property": "C134",
   "status": "partial",
   "theorems": [
    "Annoy.C134_float32_partial",
    "Annoy.C134_float64_partial",
    "Annoy.C134_refuted"
   ],
   "note": "Holds up to 3(sqrt(5(n+9)u) + 7u), u = 2^-24 or 2^-53. False without an error: two pairs of three float32 vectors are reported at distance 0, the third at 3.4e-4."
  },
  {
   "property": "C135",
   "status": "proved",
   "theorems": [
    "Annoy.C135_distance_float32",
    "Annoy.C135_distance_float64",
    "Annoy.C135_search_float32",
    "Annoy.C135_search_float64",
    "Annoy.C135_items_float32",
    "Annoy.C135_items_float64",
    "Annoy.C135_search_dot32",
    "Annoy.C135_search_dot64",
    "Annoy.C135_items_dot32",
    "Annoy.C135_items_dot64"
   ],
   "note": "The two conditions, moderate norms and no underflow, are part of the statement. Searches and items for the dot product distance too: its index also ranks by directions only."
  }
 ]
}
