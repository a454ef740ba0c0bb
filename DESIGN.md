# Formal model of mariotoffia/goannoy in Lean 4

## 1. Shape of the model

The Go code is modelled as total, computable Lean functions in `lean/Verif/Model/*` (namespace `Annoy`).
Every definition cites the Go file and lines it models.  Four layers:

* `Model/` – the code, function by function.
* `Spec/` – what is claimed, in terms that do not mention the code: trees in memory, nearest neighbours, sorted lists,
  IEEE rounding, best-first walks, contracts of pluggable parts.
* `Proof/` – invariants and refinements.
* `Props/` – the theorems about the properties of `properties.jsonl`, named after them (`C17_…`), each with a concrete
  `example` that meets its hypotheses.  `_partial`: a weaker statement than the property, the docstring says what is missing.
  `_refuted`: the negation of the property, with a concrete program run as witness.

| module | models |
| --- | --- |
| `Bytes` | flat byte memory, little-endian words |
| `Num`, `Ieee`, `RealNum` | the arithmetic of `TV`/`float64`: an abstract record `Num`, bit-exact IEEE-754 binary32/64, exact real arithmetic |
| `Rng` | `interfaces.Random`, `Kiss32Random`, `Kiss64Random`, and an arbitrary stream (`oracleRng`) |
| `Layout` | node layout, `AngularNodeImpl`, `DotProductNodeImpl`, `MapNodeToMemory`, `CopyNode` |
| `Vec`, `VecLoops` | package `vector`: as functions of lists, and loop by loop over slices and pointers |
| `Distance` | `interfaces.Distance`, angular and dot product implementations, `TwoMeans` |
| `Sort`, `Heap` | package `sort`, `interfaces.Pairs`, `container/heap`, `PriorityQueue` |
| `Alloc`, `Registry` | `GoGCIndexBuildAllocatorImpl`, both file allocators with their registry of open files, a file system with inodes |
| `Index`, `Search`, `IO` | `AnnoyIndexImpl`: AddItem, Build, makeTree, allocateSize, Close, Get*, searches, Save, Load |
| `Policy`, `Conc` | build policies; `ThreadBuild`/`makeTree` cut into atomic actions, interleaving semantics of several workers with locks |
| `ConcAtomic` | the same workers when draws of the shared generator do not race (one worker, or a generator with a lock) |
| `ConcSearch` | `GetNnsByVector` cut into loop turns, searches of several goroutines with numbered contexts |
| `ConcAdd` | `AddItem` cut into accesses to fields, calls of the allocator and writes, several goroutines on one index (C115) |
| `ConcSave` | `Save` cut into four steps (create, write, the `Close` of `Load`, the rest of `Load`) with searches in between (C116) |
| `Arena` | several indexes and the allocators of their builders: `Reallocate`, `Free`, `New`, `AddItem`, `GetItem`, `Close` with shared arenas |
| `View` | the slices `GetItem` hands out (aliases of arena memory), writes through them, `GetDistance` on arenas |
| `Imperative` | AddItem, Build, Save, Load, Close statement by statement in a state monad, to say what a recovered panic leaves behind |
| `Api` | the public interface as calls and answers, histories of calls |
| `Builder`, `Utils` | package `builder`, `Intersection`, `Max` |
| `Concrete` | the configurations a user gets: float32/float64, uint32, Kiss32, angular/dot product |

Conventions

* Index values (`TIX`) are natural numbers; each arithmetic operation on `TIX` in the code that can overflow is written with an
  explicit `L.wrap` (`% 2^(8*szIX)`), so wrap-around is part of the model.  `Session.fits` (below) excludes it where a theorem needs that.
* Panics, out-of-range memory accesses and non-termination are explicit results (`Err.panic`, `Err.oob`, `Err.diverge`).  Unbounded
  loops take a fuel argument; running out is `Err.diverge`, and theorems quantify over all fuels or give a sufficient one.
* Floating point values are bit patterns; arithmetic is a parameter (`Num`), so the index level theorems hold for every arithmetic.
  Laws that a theorem needs are hypotheses (`Num.Lawful`, `Num.KeyLaws`, `Num.Canon`), and the IEEE instances are proved to satisfy
  them.  The IEEE instances themselves are proved correctly rounded against a specification (`Spec/Ieee.lean`: +, *, /, sqrt,
  conversions, comparison, min, negation).  Statements about geometry use the instance over the reals.
* Distances, generators, sorters are parameters with contracts (`Cfg.WF` in `Spec/Cfg.lean`); `Proof/Instances.lean` proves the
  contracts for the implementations of the repository.
* Concrete witnesses (refutations, examples) that need a whole `Build` are evaluated in the kernel (`decide +kernel`) with faster
  definitions of the float32 operations that are proved equal to the model's (`fast32`).

### Vocabulary of the theorems

* `Session c numCPU pol adds trees workers s s'`: a new index (any generator state, any hint), any legal `AddItem` calls giving `s`,
  then `Build(trees, workers)` under the single or multi worker policy giving `s'`.  For the multi worker policy `s'` is any state
  that any interleaving of the workers can reach, with the shared generator returning anything.  Legal: right length, index in range;
  `fits`: the bytes of the index do not exceed the range of `TIX`.
* `lastAdded adds i`, `slotCount adds`, `addedIds adds`: what the calls mean, as a map.
* `Searchable c mem n roots m ts`: searching `mem` is walking the trees `ts`; this is what ties searches to trees.
* Survival conditions.  `Build` and `Load` move nodes with `CopyNode(dst, src, vectorLength)`: the vector length in *elements* is taken
  as number of *bytes*.  What survives depends on the vector length `f`:
  `CountKept n` (`n < 2^(8f)`: a root keeps the number of slots), `Deep B` (`2*szIX ≤ f` and node numbers below `B` fit into the bytes left
  for the second child; always for `3*szIX ≤ f`), `SplitsKept` (single buckets, or `Deep`), `CopiesKept` (root copies keep their children).
  Theorems that need one of them name it; the properties without the condition are refuted.
* `GoodQuery`: the right length, and `Margin` does not panic (it never does for the distances of the repository).
* `Store` (`Spec/Store.lean`): the library as a table of vectors with phases (adding, built, loaded, unknown) and files.  `Right` says what the
  answer to a call must be, `Offers` which calls must be answered, `Explains` that a whole history of calls is right (C96, C97).
* `FiniteMargins`, `OrdinaryMargins`: no infinite or NaN margins at inner nodes.

### What is simplified

* `int` is unbounded, the platform is 64 bit, amd64 arithmetic (no fused multiply-add), one NaN.  `math.Pow(x, 2)` is `x*x`.
* Concurrency is sequentially consistent.  One action is one lock operation, one access to a field of the index, one node write, one
  draw, or one read of node memory; `CreateSplit` over an item set and one side test read node memory in one action (they read items
  only, which no worker writes, `C62`).  The shared generator is drawn without a lock, so in the model a draw may start from any generator
  state.  `RWMutex`: an announced writer keeps new readers out, as in Go; no fairness is assumed, theorems hold for all schedules.
* `splitImbalance` is computed bit-exactly in `float64` as in Go (`Verif.Proof.Imbalance` bounds its rounding error).  The share of a
  worker is the exact floor of the quotient; `C11_float` proves that Go's `float64` computation gives the same below `2^53`.
  `float64(x+1)*1.5` in `allocateSize` is the exact floor; `C04_growth_float` proves that for all sizes up to `2^53 / 3` (all of uint32).
* Page granularity of mmap is ignored: access beyond the end of the file faults.  A crash during `Save` leaves a prefix of the data written.
* Not modelled: the printed text of logs (what verbose workers read is, `Verif.Model.Verbose`), timers, `cmd/shell`, flags, profiling and printing of `cmd/precision`, the additive
  source of `math/rand` and `NormFloat64` (`Verif.Model.GoRandom` takes the source and the clock as parameters), `math.Pow`, garbage collector.
* External code is a parameter with a contract: `sort.Slice`, `sorty.SortSlice`.  `container/heap` is modelled from the Go standard library.

### Main invariants

* `ItemInv` (adds refine a map), `BInv`/`Built` (what `Build` leaves: item slots, forest, root copies, counts), `Downward` (children
  before parents), `BlankFrom` (bytes never written are zero), `Sided` (why an item is on its side), `Conc.Inv` (all interleavings: who owns
  which node, which worker is where in its program, lock discipline).
* Trees: `RootTree`, `SubTree`, `Holds` – inductive predicates on byte memory, independent of `makeTree`.
* Search: `collect` (the loop without the context buffer), `candidates` (what it collects is a set of leaves of the trees),
  `BestFirst` (order of the walk, Spec/BestFirst.lean).
* Load: `Reloaded` (what `Load` reconstructs from the bytes of `Save`), `RootOrder` (one worker lists roots in ascending order with gaps).

## 2. Trusted base

* Lean's kernel and the axioms `propext`, `Classical.choice`, `Quot.sound` (listed per theorem in section 5); no others, no `native_decide`,
  no `bv_decide`, no `sorry`.
* The reading of the Go source recorded in the citations, and the simplifications above.
* Contracts of external code: `sort.Slice`, `sorty.SortSlice`, `sync.Mutex`, `sync.RWMutex`, `sync.WaitGroup`, `math/rand`, the OS calls.

## 3. Testing the theorems

`seeded/LOG.jsonl`: each line is a realistic bug put into a scratch copy of the model, the claim it breaks, and the theorems that stopped
compiling.  Where nothing failed the theorems were tightened or new ones added (field `tightened`).

## 4. Properties, proofs, state

Notes on each claim and what is missing in the partial ones are in `MANIFEST.json`.

| id | property | state | model and proof |
| --- | --- | --- | --- |
| C01 | GetItem returns the last vector added | proved | byte-level model of AddItem; refinement to a map Nat -> Option vector; induction over the list of calls |
| C02 | Build does not change stored items | proved | frame theorem of makeTree/Build: bytes of item nodes unchanged; single and concurrent build |
| C03 | AddItem rejects bad calls without effect | proved | case analysis of the modelled AddItem: result state equals the old state |
| C04 | Growing the index never loses or invents data | proved | model of Reallocate over a block with size; contents preserved and zero fill; hint invariance through C01's refinement |
| C05 | Different nodes never share memory | proved | address arithmetic with explicit wrap; disjointness under no-overflow; wrap counterexample |
| C06 | Node fields round-trip and do not interfere | proved | read-after-write and frame lemmas for the byte encodings |
| C07 | MaxNumChildren is exactly what fits | proved | arithmetic on the layout |
| C08 | Every tree contains every item exactly once | partial, refuted as stated | inductive predicate TreeAt on memory; induction on makeTree with arbitrary split oracle (Num, Rng arbitrary) |
| C09 | Trees are well formed | partial, refuted as stated | same induction, stronger invariant |
| C10 | Build makes the number of trees asked for | proved | induction on the ThreadBuild loop |
| C11 | Trees are shared out exactly among workers | proved | Hermite identity by induction |
| C12 | Concurrent Build yields a valid forest under every schedule | partial, refuted as stated | small-step machine of the workers with locks; inductive invariant over all interleavings, random values adversarial |
| C13 | Build never deadlocks and never touches memory being moved | proved | same machine; lock order argument; progress theorem |
| C14 | Every accepted split has two non-empty sides | proved | lemma on the split loop; fuel-based termination theorem under a fairness hypothesis on the generator |
| C15 | Life cycle: an index is built at most once | proved | state machine of flags; theorems over arbitrary states |
| C16 | Search results are sound | partial, refuted as stated | invariants of the search loop plus the sort contract |
| C17 | Exhaustive search is exact | partial, refuted as stated | permutation invariant of the queue, pigeonhole, uniqueness of the sorted list |
| C18 | Default search returns as many results as asked for | partial, refuted as stated | counting argument |
| C19 | A larger search budget never makes results worse | proved | prefix lemma of the search loop |
| C20 | Search terminates and stays inside the index | partial, refuted as stated | measure on trees |
| C21 | Reusing a context does not change results | proved | two-run equality |
| C22 | A context made by CreateContext is large enough | partial, refuted as stated | false: concrete counterexample; partial: sufficient conditions |
| C23 | Search explores the most promising side first | partial, refuted as stated | false: counterexample; the modelled min-queue explores the other side first (general theorem) |
| C24 | Search by item is search by its vector, with consistent distances | proved | unfolding plus equality of stored and recomputed norms |
| C25 | Query vector length is checked | partial, refuted as stated | false: longer vectors write out of bounds (theorem for every longer vector) |
| C26 | Searching before Build or with numReturn <= 0 returns nothing | proved | case analysis |
| C27 | Save and Load preserve the items | partial, refuted as stated | Load(Save) on bytes |
| C28 | Save and Load preserve the answers | partial, refuted as stated | false: counterexamples; partial: condition under which root copies are complete |
| C29 | Load recovers the roots | partial, refuted as stated | backward scan lemma |
| C30 | Load rejects files of the wrong size and leaves a closed index | proved | case analysis |
| C31 | A one-item index can be saved and loaded | partial, refuted as stated | false: theorem that Load faults for every one-item index |
| C32 | Save is crash safe | partial, refuted as stated | false: model of os.Create + Write as prefix states; partial: the file is always a prefix of the new image |
| C33 | Saving a loaded index onto its own file keeps the data | partial, refuted as stated | false with mmap (inode model): counterexample; true with the GC allocator |
| C34 | Both file back ends are equivalent | partial, refuted as stated | equality of the loaded views |
| C35 | The file allocator's registry only knows open files | proved | history induction; the second half is false when a file is opened twice |
| C36 | Close is idempotent and forgets the data | proved | case analysis |
| C37 | A closed index can be rebuilt | partial, refuted as stated | false: Build panics after Close for every history |
| C38 | PartialSortSlice | partial, refuted as stated | loop invariants of selection + insertion sort; false for begin>0 with more than 20 elements |
| C39 | PartialSortSlice2 (heap selection) | proved | heap invariants |
| C40 | SortPairs2 sorts | proved | heap invariants |
| C41 | PriorityQueue is a priority queue | proved | heap invariants; history induction |
| C42 | Intersection | proved | induction on the merge loop |
| C43 | Angular distance is a metric on directions | proved | real instance; Cauchy-Schwarz |
| C44 | GetDistance is symmetric bit for bit | proved | commutativity of IEEE multiplication |
| C45 | Returned distances are numbers | partial, refuted as stated | false: concrete float32 counterexample evaluated in the kernel; partial: real instance |
| C46 | Dot product pre-processing equalises norms | proved | real instance |
| C47 | Dot product GetDistance is the inner product | partial, refuted as stated | false: counterexample and the general formula the code computes |
| C48 | Random generators: range and replay | proved | arithmetic on the modelled generators |
| C49 | TwoMeans picks two different in-range items | proved | arithmetic |
| C50 | Hyperplanes are unit or zero | proved | real instance |
| C51 | Vector helpers are the textbook functions | proved | real instance |
| C52 | CopyNode copies the whole node | partial, refuted as stated | false: exact description of which bytes survive; partial: header survives when f >= 3*szIX |
| C53 | AddItem after Build is safe | partial, refuted as stated | false: general counterexample family |
| C54 | numWorkers = 0 means one worker | partial, refuted as stated | false: Build(T,0) builds no tree |
| C55 | Builder configuration | partial, refuted as stated | model of the builder; false for uint64 |
| C56 | A built index file has the exact size and layout | proved | size and layout theorem |
| C57 | Loading garbage fails cleanly | partial, refuted as stated | false: cyclic file makes search diverge for every fuel |
| C58 | Single worker builds are reproducible | proved | theorem that the worker number does not influence ThreadBuild |
| C59 | Pair ordering is a strict total order on non-NaN pairs | proved | order lemmas over IEEE comparison |
| C60 | GetItem of a loaded index equals the bytes of the file | proved | unfolding Load/GetItem |
| C61 | Small indexes with gaps are padded with item 0 | proved | exact content of the bucket of a small index with gaps |
| C62 | Workers own what they write | proved | ownership part of the concurrent invariant; every step of every worker; termination measure |
| C63 | Valid forests for long enough vectors | proved | C08/C09/C12 instantiated for f >= 3*szIX; no survival hypotheses left |
| C64 | The queue serves the far side of a hyperplane first | proved | search loop refines the best-first walk of Spec/BestFirst; key arithmetic of min and negation |
| C65 | Search always terminates on a built index | proved | measure on trees (built), on node numbers (loaded) |
| C66 | Angular GetDistance is the textbook formula of the added vectors | proved | bytes of a built index to the formula, in the arithmetic of the code |
| C67 | Indexes made by one builder are independent | partial, refuted as stated | builder as a state machine with the shared allocator |
| C68 | Every stored split separates the items below its two children | partial, refuted as stated | invariant Sided through build; refuted for stored vectors |
| C69 | What a search looks at depends on a fixed prefix of the query only | proved | margins read the kept bytes only; two-run simulation of searches |
| C70 | A search by an item finds the item | partial, refuted as stated | exhaustive searches by exactness; refuted in general with a run of the code |
| C71 | Trees are searched one after the other | proved | best-first walk: a whole tree is done before the next root; tie-break by node number |
| C72 | The workers of a build have no data races apart from the generator | proved | effects of actions, footprints from the ownership invariant; exchange of adjacent actions |
| C73 | Goroutines with a context each can search at the same time | proved | step machine of a search refines GetNnsByVector; goroutines with different contexts as independent machines; shared context by running the model |
| C74 | Exhaustive answers depend on the items only | proved | both searches equal the linear scan (C17), which depends on the items only |
| C75 | Builds with several workers are reproducible | partial, refuted as stated | two schedules of two workers run in the model (Proof/Schedule) |
| C76 | Build always finishes with the default generator | proved | low bits: the carry is a rotation, the xorshift a linear recurrence; kernel-checked certificates exclude every phase (Proof/KissSides), then counting |
| C77 | Splits are accepted by the share of the larger side | proved | error bounds of the float64 operations (Proof/Share) |
| C78 | The generators are the KISS generators they cite | partial, refuted as stated | machine-word specification of KISS (Spec/Kiss) against the model; first number computed |
| C79 | Different seeds give different streams | partial, refuted as stated | the seed reaches only the linear congruential component, modulo powers of two |
| C80 | The state of the generator does not repeat early | proved | 2^k steps of the linear congruential component add 2^k modulo 2^(k+1) |
| C81 | An index without trees survives Save and Load | partial, refuted as stated | searches without roots by computation of the loop; Load spelled out for files of built indexes, all counts are 1; a run of the code for the wrong number |
| C82 | Equal vectors have distance zero | partial, refuted as stated | correct rounding of each operation; the root of the rounded square is within 3/8 of a unit |
| C83 | Distances are accurate | proved | forward error analysis: inner products by induction, then root, quotient and difference; instances of the interface for both IEEE formats |
| C84 | Searches rank by the real distance up to rounding | proved | error bound of C83 applied to the exact ranking by computed distances (C16, C17) |
| C85 | An item is its own nearest neighbour if the others are not too close | proved | error bound of C83 applied to C70 |
| C86 | A budget of the number of items is enough | proved | best-first walk: all keys below the first root are met before the second root is popped; the first tree holds every item once |
| C87 | The first tree alone decides every answer | proved | as C86: either the budget is met inside the first tree or all items are gathered; duplicates do not matter after Deduplicate |
| C88 | More trees change nothing but the default budget | proved | the first tree is the same run of the code in both builds (Proof/FirstTree), then C87 and congruence of searches |
| C89 | Ordinary data never produces infinite margins | proved | interval invariant of the centroids through 200 rounds of TwoMeans in an abstract rounded arithmetic (Proof/Steady), both IEEE formats as instances; truncated stored components stay small |
| C90 | With ordinary data and a budget of the number of items, answers are the real nearest neighbours | proved | C86/C88 with the margin hypothesis discharged by C89, distances by C83 |
| C91 | The precision program reports the real recall | proved | the reference answers are exact by C86 with margins from C89; Intersection counts the common ids of two duplicate-free lists; error analysis of a float64 sum of at most 2^53 terms in [0,1] |
| C92 | Fresh contexts have room for searches with a budget of at most the number of items | proved | the walk stays in the first tree (C71/C87), which holds each item once; a tree over three items has a bucket, whose items are counted once per tree in batchMaxNNS besides the items themselves |
| C93 | GoRandom is a fair, seeded and replayable generator | partial, refuted as stated | `Verif.Model.GoRandom` has the wrapper and `Rand.Intn`; the source and the clock are parameters. Range by induction on the rejection loop; fairness by counting residues (`Nat.count_modEq_card`); reproducibility by a bisimulation on the source state. |
| C94 | utils.Round rounds to the nearest integer | partial, refuted as stated | Correctly rounded addition is monotone and exact on representable numbers; for |f| < 2^52 the predecessor of n + 1/2, plus one half, is representable and below n + 1 (case split by the sign of n). |
| C95 | Verbose logging is harmless | partial, refuted as stated | Verbose workers are the silent programs with unused reads inserted (`Erases`); a stuttering simulation carries every execution over, and with it C13 for writes. The refutation is a schedule of two workers computed by the kernel. |
| C96 | Every history of calls is one of a table of vectors | proved | abstract table with phases in Spec/Store; simulation relation between index and table; induction over the history |
| C97 | Programs that keep to the interface run to their end | proved | liveness of each call from the simulation relation of C96; composition by induction over the program |
| C98 | After any calls, searches of ordinary data find the real nearest neighbours | proved | composition of C96 (simulation by the table) with C90 and C92 |
| C99 | Hyperplanes of a dot product index have no dot factor | proved | the scratch node of the split attempts starts blank and only createSplit writes it (spec relation Scratch); 0/x = 0 |
| C100 | A dot product index ranks by the real angle | proved | C86 with the distance of C47_value_partial, C99 for the margins, error analysis of C83/C84; C96 for histories |
| C101 | A dot product index finds the largest inner products | partial, refuted as stated | refuted by two items of different length; true for items of equal length, by C100 |
| C102 | The number of items is limited by the index type only | partial, refuted as stated | invariant of the growth of the block (Grown) until the byte size overflows; explicit alias of items 0 and 2^30 |
| C103 | The slice GetItem returns may be kept | partial, refuted as stated | Views as arena number plus address on top of the arena model; frame lemma for every call (arenas that exist are only written at the node AddItem addresses); counterexamples by kernel evaluation. |
| C104 | The multi worker policy with one worker is the single worker policy | proved | Concurrent model with draws that do not race (Model/ConcAtomic); forward simulation of the sequential functions by the atomic actions of the worker, determinism of a worker on its own. |
| C105 | Replacing a file does not disturb indexes loaded from it | partial, refuted as stated | Files with inodes; closure of the file system under moments of Save of arbitrary indexes; a mapping is a function of the inode content. |
| C106 | Trees and the recursion that builds them are of logarithmic depth | proved | Every stored division passed the test splitImbalance <= 0.99 (added to the specification of a division and carried through the sequential and the concurrent build); with C77 a side holds at most 0.991 of the items; (1000/991)^depth <= items by induction over the tree, 2 <= (1000/991)^77. For the recursion: makeTree with fuel 77*clog+1 gives the same result. |
| C107 | The trees of short vectors do not depend on the vectors | proved | Non-interference by a swap function: replacing the bytes of the item nodes commutes with every step of Build (allocateSize, trySplit, makeTree, threadLoop, copyRoots, countNNS). The only place vectors are read is CreateSplit/Side; for vectorLength <= offV both are shown to be independent of the data (zero start points stay zero through all 200 iterations of TwoMeans). |
| C108 | For short vectors, what a search looks at depends neither on the data nor on the query | proved | C107 gives equal nodes behind the items; the collecting loop reads item nodes only for their descendant count, so it collects the same from both memories (collect_swap); C69 removes the query. |
| C109 | Hyperplanes come from two running means | proved | `Spec/TwoMeans`: two means of vectors, no nodes and no bytes.  The loop of the model is simulated step by step (`Proof/TwoMeans`): the block of a centroid always holds the vector of the mean, and its cached norm is that of the vector (angular) or missing (dot product), so `Distance` is the formula.  Exact arithmetic: invariant `weight * mean = start + sum of directions`.  Built indexes: the divisions of C68 give, for every inner node, the call of `CreateSplit` for the items below it. |
| C110 | Splits see directions only | proved | Each step of the specification of C109 is invariant: direction, distance and the test for length do not see a positive factor. |
| C111 | The order and number of AddItem calls leave no trace | proved | Every byte of the memory after AddItem calls is a function of the final table (`Idx.Imprint`): InitNode writes the same bytes whatever item was there before. A Build is then compared with a Build in an index that has all the memory from the start (`roomy`): forward simulation through allocateSize, takeNode, makeTree, the loop of ThreadBuild, the copies of the roots and the count. Two indexes with one table have the same roomy version. |
| C112 | Indexes of items are checked | partial, refuted as stated | False: no index is checked.  Witness with an index one behind the items and one 2^30 above an item; then the exact behaviour: gaps read as zero bytes, numbers of tree nodes read as vectors, other addresses are out of bounds, `uint32` indexes repeat every 2^30. |
| C113 | What a search costs | proved | The queue keys never grow, and children have smaller numbers than their parents: the search is depth first. A descent of at most 77*log2 n steps (C106) leads to an item or a bucket with something in it, and every collected entry pays for one more inner node. |
| C114 | A search is a depth-first walk through one tree | proved | Keys never grow along a path and children have smaller numbers than their parents, so what a visited node puts on the queue comes before all else on it. Induction on depth and on the frontier, then refinement of the queue by a recursive function; every item is in the first tree, so further trees add nothing. |
| C115 | Several goroutines may add items | partial, refuted as stated | AddItem takes no lock, so this is false: two witnesses (the number of items is read, compared and set without a lock; growing copies the memory). True part: nothing grows because an item with the same or a higher index is there. Then the actions of different goroutines change bytes of different nodes and commute; invariant: the memory is the start memory with the writes of each goroutine applied, goroutine after goroutine. |
| C116 | An index may be saved while it is searched | partial, refuted as stated | Save ends with Load, which begins with Close: false, two witnesses (a search under way reads through a nil pointer; a search begun in between returns nothing). True part: no search takes a step between the Close and the end of the Load. Then a search begun before sees two memories that agree on all nodes it can reach (step by step congruence with Search.Agree), and a search begun afterwards sees the loaded index only. |
| C117 | Items are divided by coin only after three hyperplanes failed | proved | Strengthen the specification of a division (Spec/Sides.lean) by the history of the attempts, carry it through makeTree for one worker and for every schedule of the multi-worker builder to the trees of the built index; 0.95 < 0.99 in float64 makes the coin case imply three failures. |
| C118 | Asking for fewer neighbours returns the beginning of the longer answer | proved | The items looked at do not depend on numReturn when a budget is given (collect is a function of the budget); a right answer (TopK) for a list of candidates is unique, and cutting one off gives a right answer. Default budget: monotone in numReturn, so candidates grow. A witness shows that the default search is not monotone as a prefix. |
| C119 | The size of a built index is bounded by slots, items and trees | proved | A subtree over p items has at most p - 1 tree nodes, because buckets hold two items or more, and at least 2p/K - 1, because they hold at most K (induction over the tree). The trees partition the tree nodes (C09), so the bounds add up. Build(-1) stops at 2n nodes: before the last tree there were fewer (induction over the loop). |
| C120 | Searching while Build runs with several workers | proved | A worker publishes its roots with its last action, and nobody writes a node of a published tree afterwards: the invariant of C11/C12 is extended by the nodes that are published. The nodes a search can reach from the roots it read are item nodes and published nodes; they stay what they were, through growth of the memory, the other workers and the end of Build. So each step of the search is the step it takes alone (C116's step congruence). |
| C121 | The division by coin takes few rounds | proved | The loop reads the coins of the generator in order: induction over the rounds. A rejected throw has |left - right| >= 0.979996 m (C77). The sum of (left - right)^2 over all throws is m*2^m (induction), so that Chebyshev's argument bounds the number of rejected throws; rounds are independent since a throw of k rounds is a table of k throws. |
| C122 | Hyperplanes really separate the items, up to rounding | proved | C68 gives the signs of the computed margins below every inner node; C89 gives that hyperplanes made of moderate items are moderate; the error analysis of computed inner products (Approx.dot) with Cauchy-Schwarz for the sum of absolute values turns the computed sign into a bound on the real inner product. |
| C123 | Close under running searches never makes wrong answers | proved | Close is cut into the four steps that a search can tell apart (memory given back, _nodes, _n_items, _roots), a turn of a search into the read of _nodes and the rest. Invariant: a search is where it would be alone, or it has failed, or it has collected something and measured nothing and will find no memory to measure in. |
| C124 | Answers out of any memory | proved | Taking a search apart: the collected numbers depend on the memory only; the distance loop on an ascending list keeps each number once, and only nodes with one descendant; the partial sort. No invariant of the index is used. |
| C125 | Few items: every answer is exact | proved | Every tree of such an index is one bucket holding all items; the first pop of the search pops a bucket, so the collected numbers are all items after one step; the rest is sort and truncation (TopK). For a loaded index the roots found are buckets too. |
| C126 | The program of the README | partial, refuted as stated | With vectors of length 3 declared, three items fit in a bucket, so C125 gives exactness; the three distances in binary32 differ, so the exact answer is unique. |
| C127 | Copies of copies are the same file | proved | Load depends on the bytes of the file only; Save under another name truncates another inode, so a mapping keeps its bytes while they are written; induction on generations. |
| C128 | Zero vectors are at one distance of everything | proved | The norm of a zero vector is a zero, and a product with a zero is not positive (NaN included), so the formula is left at 2; C16 gives the order of ties, C86 that a budget of the number of items is a linear scan, C89 / C99 that margins of zero queries are finite, C92 that the context has room. |
| C129 | With ordinary data the items and the query alone decide the answer | proved | C86 gives that the answer is the right answer for the distance of the configuration; for moderate vectors this distance is the angular formula in both metrics (C66, C100) and is not NaN (C83); right answers are unique (TopK.unique). |
| C130 | Indexes over parts of the items | proved | TopK over a subset of the items: counting argument, prefix of sorted lists; then bruteForce of C129. |
| C131 | Opposite vectors are at distance exactly 2 and nothing is farther | partial, refuted as stated | Sums and products of opposite numbers are opposite bit for bit (Proof/IeeeMirror.lean), so the cosine is computed as exactly -1; the bound from C83. |
| C132 | Mirror images have the same distances and answers | proved | Signs cancel in the products of the dot products, so the angular formula is the same; then the brute force of C129. |
| C133 | The opposite query finds the farthest items | proved | Rounding is monotone and symmetric (Proof/IeeeFar.lean): 2 - t and 2 + t are ordered in opposite ways; the real distances by the parallelogram law; then the brute force of C129. |
| C134 | Reported distances satisfy the triangle inequality | partial, refuted as stated | The triangle inequality of the real distances and the error of C83; a witness of three nearly parallel vectors. |
| C135 | Doubling a vector changes no angular distance, not even in the last bit | proved | Rounding commutes with powers of two above the subnormal range, sums are on the grid below it; then through inner products, root and quotient. For searches C129. |

## 5. Axioms per theorem

Output of `#print axioms` for every theorem named in `MANIFEST.json`.

**none**: `C37_partial`, `C51_node_vector`

**propext**: `Arena.C103_shows`, `C133_tie`, `C15_load_sets_loaded`, `C24_by_item`, `C48_replay32`, `C48_replay64`, `C48_setSeed_is_not_reset`, `C93_get_seed`, `C93_refuted`, `C93_seed_ignored`, `C93_set_seed_partial`, `C94_plus_refuted`, `C95_no_influence`, `ConcBuild.C120_build`, `Idx.BuildsAtomic.multi`, `angular_signSides`, `dot_signSides`

**propext, Classical.choice, Quot.sound**: `Arena.C103_copy_refuted`, `Arena.C103_kept_partial`, `Arena.C103_live_refuted`, `Arena.C103_write_refuted`, `BestFirst.unique`, `C01_get_item`, `C02_items_unchanged`, `C04_allocateSize_float`, `C04_growth_float`, `C04_hint`, `C04_hint_build`, `C06_dot_factor`, `C06_node_fields`, `C07_children_inside`, `C08_each_item_once_partial`, `C08_refuted_short`, `C08_refuted_sparse`, `C09_refuted`, `C09_well_formed_partial`, `C100_answered_float32`, `C100_answered_float64`, `C100_float32`, `C100_float64`, `C100_history_float32`, `C100_history_float64`, `C100_loaded_float32`, `C100_loaded_float64`, `C101_equal_norms_partial`, `C101_refuted`, `C102_alias_refuted`, `C102_partial`, `C102_refuted`, `C104_default`, `C104_one_worker`, `C105_refuted`, `C106_recursion`, `C109_angular`, `C109_angular_index`, `C109_ball`, `C109_dot`, `C109_dot_index`, `C109_join`, `C109_mean`, `C10_single`, `C10_tree_count`, `C110_means`, `C110_normal`, `C110_side`, `C112_alias`, `C112_refuted`, `C113_dot_float32`, `C113_dot_float64`, `C113_float32`, `C113_float64`, `C113_loaded_dot_float32`, `C113_loaded_dot_float64`, `C113_loaded_float32`, `C113_loaded_float64`, `C117_balance`, `C118_default_no_prefix`, `C11_float`, `C121_mean`, `C121_rounds`, `C121_share`, `C122_dot32`, `C122_dot64`, `C122_float32`, `C122_float64`, `C122_margin32`, `C122_margin64`, `C122_margin_dot32`, `C122_margin_dot64`, `C126_readme_partial`, `C126_readme_refuted`, `C127_built`, `C128_answered_dot32`, `C128_answered_dot64`, `C128_answered_float32`, `C128_answered_float64`, `C128_ascending`, `C128_ascending_dot`, `C128_ascending_loaded`, `C128_distance`, `C128_dot32`, `C128_dot64`, `C128_float32`, `C128_float64`, `C128_loaded_dot32`, `C128_loaded_dot64`, `C128_loaded_float32`, `C128_loaded_float64`, `C128_zero_item`, `C129_dot32`, `C129_dot64`, `C129_float32`, `C129_float64`, `C129_loaded_dot32`, `C129_loaded_dot64`, `C129_loaded_float32`, `C129_loaded_float64`, `C129_metrics`, `C12_concurrent_forest_partial`, `C130_equal_dot32`, `C130_equal_dot64`, `C130_equal_float32`, `C130_equal_float64`, `C130_equal_order`, `C130_part_dot32`, `C130_part_dot64`, `C130_part_float32`, `C130_part_float64`, `C130_shards_dot32`, `C130_shards_dot64`, `C130_shards_float32`, `C130_shards_float64`, `C131_above_two_refuted`, `C131_bound_float32_partial`, `C131_bound_float64_partial`, `C131_opposite_float32_partial`, `C131_opposite_float64_partial`, `C132_distance`, `C132_dot32`, `C132_dot64`, `C132_float32`, `C132_float64`, `C133_dot32`, `C133_dot64`, `C133_float32`, `C133_float64`, `C133_loaded_dot32`, `C133_loaded_dot64`, `C133_loaded_float32`, `C133_loaded_float64`, `C134_float32_partial`, `C134_float64_partial`, `C134_refuted`, `C135_distance_float32`, `C135_distance_float64`, `C135_items_dot32`, `C135_items_dot64`, `C135_items_float32`, `C135_items_float64`, `C135_search_dot32`, `C135_search_dot64`, `C135_search_float32`, `C135_search_float64`, `C13_no_access_while_moving`, `C13_no_deadlock`, `C14_finishes`, `C14_sides`, `C16_cut_refuted`, `C16_loaded_refuted`, `C16_sound`, `C16_sound_loaded`, `C17_C18_refuted`, `C17_exhaustive_loaded_partial`, `C17_exhaustive_partial`, `C18_default_count_loaded_partial`, `C18_default_count_partial`, `C19_budget`, `C20_answers_loaded_partial`, `C20_bound_partial`, `C20_bound_refuted`, `C20_bound_short_partial`, `C21_context_content`, `C21_reuse`, `C22_buckets_partial`, `C22_context_partial`, `C22_refuted`, `C23_refuted`, `C24_distances`, `C25_refuted`, `C25_short_query`, `C27_refuted`, `C27_save_load_partial`, `C28_C29_refuted`, `C28_exhaustive_partial`, `C28_two_workers_refuted`, `C29_roots_partial`, `C31_one_item_partial`, `C31_refuted`, `C36_close`, `C37_refuted`, `C38_partial`, `C38_refuted`, `C38_whole_slice`, `C39_partialSortSlice2`, `C40_sortPairs2`, `C41_priority_queue`, `C42_intersection`, `C43_range`, `C43_same_direction`, `C43_scaling`, `C43_symmetric`, `C43_triangle`, `C43_zero_vector`, `C44_angular32`, `C44_angular64`, `C44_dot32`, `C44_dot64`, `C45_number_partial`, `C45_refuted`, `C46_equal_norms`, `C47_refuted`, `C47_value_partial`, `C50_create_split`, `C50_create_split_dot`, `C50_normalize`, `C50_unit_or_zero`, `C51_dot`, `C51_dot_bilinear`, `C51_euclidean`, `C51_manhattan`, `C51_manhattan_metric`, `C51_norm`, `C51_short_slices`, `C54_refuted`, `C54_single_partial`, `C54_zero_workers`, `C56_file_layout`, `C57_load_ends_partial`, `C57_refuted`, `C57_tame_partial`, `C60_getItem_file`, `C61_padding`, `C62_can_finish`, `C62_exclusive`, `C62_single_writer`, `C62_termination`, `C63_forest`, `C64_C71_case`, `C65_search_terminates`, `C65_search_terminates_loaded`, `C66_angular_value`, `C67_close_refuted`, `C67_own_builder_partial`, `C67_refuted`, `C68_refuted`, `C70_refuted`, `C72_commute`, `C72_steps`, `C73_shared_context_refuted`, `C74_items_decide`, `C75_exhaustive_partial`, `C75_refuted`, `C76_build`, `C76_rounds`, `C77_empty`, `C77_share`, `C78_kiss64`, `C78_kiss64_edge`, `C79_values`, `C81_count_refuted`, `C81_dense_refuted`, `C82_float32_partial`, `C82_float64_partial`, `C82_huge_refuted`, `C82_nan_refuted`, `C82_tiny_refuted`, `C83_float32`, `C83_float64`, `C84_exhaustive_float32`, `C84_exhaustive_float64`, `C84_search_float32`, `C84_search_float64`, `C85_float32`, `C85_float64`, `C89_float32`, `C89_float64`, `C90_float32`, `C90_float64`, `C90_loaded_float32`, `C90_loaded_float64`, `C90_trees_float32`, `C90_trees_float64`, `C92_float32`, `C92_float64`, `C92_two_refuted`, `C93_draws`, `C93_fair`, `C93_range`, `C94_integer_refuted`, `C94_plus_partial`, `C94_refuted`, `C94_round_partial`, `C95_locks_partial`, `C95_refuted`, `C95_shows`, `C96_history`, `C96_index32`, `C97_answered`, `C97_index32`, `C97_program`, `C98_float32`, `C98_float64`, `C99_factor`, `C99_float32`, `C99_float64`, `C99_margin`, `ConcAdd.C115_apart_partial`, `ConcAdd.C115_grow_refuted`, `ConcAdd.C115_refuted`, `ConcBuild.C120_answers`, `ConcBuild.C120_can_finish`, `ConcBuild.C120_failures`, `ConcBuild.C120_items`, `ConcBuild.C120_nearest`, `ConcBuild.C120_none`, `ConcClose.C123_answers`, `ConcClose.C123_case`, `ConcClose.C123_closed`, `ConcClose.C123_finishes`, `ConcSave.C116_apart_partial`, `ConcSave.C116_empty_refuted`, `ConcSave.C116_finishes_partial`, `ConcSave.C116_refuted`, `Idx.C124_answer`, `Idx.C124_budget`, `Idx.C124_context`, `Idx.C124_prefix`, `Index32.shrinks`, `Node.C52_bytes_partial`, `Node.C52_children_partial`, `Node.C52_front_partial`, `Node.C52_header_partial`, `Node.C52_refuted`, `Node.C52_refuted_vector`, `Precision.C91_float32`, `Precision.C91_verify`, `Precision.mem_limits`, `Registry.C35_get_last`, `Registry.C35_get_open`, `Registry.C35_get_unknown`, `Search.C113_results`, `Search.C64_far_items_only`, `Search.collect_swap`, `Search.first_tree_answer`, `Session.C106_depth`, `Session.C106_depth_loaded`, `Session.C107_multi`, `Session.C107_same_trees`, `Session.C108_blind`, `Session.C108_multi`, `Session.C111_answers`, `Session.C111_file`, `Session.C111_order`, `Session.C111_perm`, `Session.C112_partial`, `Session.C113_cost`, `Session.C113_cost_loaded`, `Session.C114_depth_first`, `Session.C114_depth_first_loaded`, `Session.C114_first_tree`, `Session.C114_first_tree_loaded`, `Session.C117_attempts`, `Session.C118_default`, `Session.C118_default_loaded`, `Session.C118_prefix`, `Session.C118_prefix_loaded`, `Session.C119_auto`, `Session.C119_auto_multi`, `Session.C119_file`, `Session.C119_nodes`, `Session.C125_room_loaded`, `Session.C125_small`, `Session.C125_small_loaded`, `Session.C19_budget_loaded`, `Session.C28_buckets_partial`, `Session.C28_one_worker_partial`, `Session.C46_factors`, `Session.C53_far_partial`, `Session.C53_next_index_refuted`, `Session.C53_refuted`, `Session.C53_vectors_partial`, `Session.C64_far_items_only`, `Session.C64_search_order`, `Session.C68_divisions_partial`, `Session.C69_blind`, `Session.C69_prefix`, `Session.C69_prefix_loaded`, `Session.C69_same_items`, `Session.C70_own_vector_partial`, `Session.C70_small_partial`, `Session.C71_first_tree_only`, `Session.C86_items_suffice`, `Session.C86_items_suffice_loaded`, `Session.C86_ordinary`, `Session.C86_ordinary_loaded`, `Session.C87_first_tree_suffices`, `Session.C87_first_tree_suffices_loaded`, `Session.C87_ordinary`, `Session.C87_ordinary_loaded`, `Session.C88_ordinary`, `Session.C88_trees_change_nothing`, `Session.C92_ordinary`, `Session.C92_ordinary_loaded`, `Session.C92_room`, `Session.C92_room_loaded`, `angular32_dataBlind`, `angular32_prefix`, `angular64_dataBlind`, `angular64_prefix`, `angular_graded`, `angular_shrinks`, `bruteForce_congr`, `dot32_dataBlind`, `dot32_prefix`, `dot64_dataBlind`, `dot64_prefix`, `dot_graded`, `dot_shrinks`, `ieee32_mirror`, `ieee64_mirror`, `imbalance_graded`

**propext, Quot.sound**: `BestFirst.first_tree`, `Builder.C55_hint_ignored`, `Builder.C55_last_wins`, `Builder.C55_order`, `Builder.C55_refuted`, `Builder.C55_usable64_partial`, `Builder.C55_usable_partial`, `C03_bad_add`, `C03_good_add`, `C04_memory`, `C05_disjoint`, `C07_max_children`, `C105_copy`, `C105_other_files_partial`, `C11_shares`, `C127_copy`, `C127_generations`, `C15_build_rejected`, `C15_built_once`, `C15_loaded_read_only`, `C15_save_unbuilt`, `C15_save_without_build`, `C25_long_query`, `C25_long_query_overrun`, `C26_empty`, `C30_load_rejects`, `C32_prefix_partial`, `C32_refuted`, `C33_own_file_partial`, `C33_refuted`, `C34_backends_partial`, `C34_refuted`, `C34_refuted_later`, `C37_never_again`, `C42_max`, `C44_angular`, `C44_dot`, `C44_symmetric`, `C48_draws32`, `C48_draws64`, `C48_range32`, `C48_range64`, `C49_every_pair`, `C49_no_panic`, `C49_once`, `C49_starts`, `C51_slices`, `C51_unsafe`, `C58_reproducible`, `C59_pair_order32`, `C59_pair_order64`, `C64_far_side_first`, `C73_answers`, `C73_failures`, `C73_finishes`, `C78_kiss32_carry`, `C78_kiss32_partial`, `C78_kiss32_refuted`, `C79_index`, `C79_refuted`, `C79_sides`, `C80_distinct`, `C80_period`, `C81_in_memory_partial`, `C93_returns`, `C95_inside`, `C95_place`, `ConcAdd.C115_alone`, `ConcClose.C123_nothing`, `Registry.C35_double_open`

