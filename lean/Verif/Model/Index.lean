import Verif.Model.Distance
import Verif.Model.Ieee
import Verif.Model.Alloc
/-!
# `AnnoyIndexImpl`: adding items and building

Models index/annoyindex.go.  Logging (`logVerbose`) is not modelled.
-/
namespace Annoy
open Ieee

/-- The fixed parts of an index: what `New` (index/annoyindex.go:74-114) is given, and the external
functions.

* `lt95 l r` / `le99 l r`: `splitImbalance(l, r) < 0.95` / `<= 0.99` for sides of the given lengths
  (annoyindex.go:381-385, 392-396, 457-464);
* `sortIds`: `Sorter.SortSlice`; `partialSort`: `Sorter.PartialSortSlice`. -/
structure Cfg where
  L : Layout
  N : Num
  C : Codec N.V
  R : Rng
  D : Dist L N R
  lt95 : Nat → Nat → Bool
  le99 : Nat → Nat → Bool
  sortIds : List Nat → List Nat
  partialSort : List (N.V × Nat) → Nat → Int → Nat → List (N.V × Nat)

/-- `splitImbalance` (annoyindex.go:457-464) for sides of `l` and `r` items, as a `float64`: with
`f = l / (l + r + 1e-9)` the larger of `f` and `1 - f`.  (`0x3e112e0be826d695` is `1e-9`.) -/
def splitImbalance (l r : Nat) : Nat :=
  let ls := f64.ofNat l
  let rs := f64.ofNat r
  let f := f64.div ls (f64.add (f64.add ls rs) 0x3e112e0be826d695)
  f64.maxOf f (f64.sub f64.one f)

/-- `splitImbalance(left, right) < 0.95` (annoyindex.go:381-385). -/
def imbalanceLt95 (l r : Nat) : Bool := f64.lt (splitImbalance l r) 0x3fee666666666666

/-- `splitImbalance(left, right) <= 0.99` (annoyindex.go:392-396). -/
def imbalanceLe99 (l r : Nat) : Bool :=
  f64.lt (splitImbalance l r) 0x3fefae147ae147ae || f64.eq (splitImbalance l r) 0x3fefae147ae147ae

/-- What `_nodes` points to. -/
inductive Ptr where
  | null
  | build           -- the block of the build allocator
  | file (h : Handle)

/-- The mutable state of `AnnoyIndexImpl` (annoyindex.go:24-52).  `indexMemory` is the open file, if
any. -/
structure Idx (c : Cfg) where
  nItems : Nat
  nNodes : Nat
  nodesSize : Nat
  nodes : Ptr
  roots : List Nat
  batchMaxNNS : Int
  rng : c.R.σ
  loaded : Bool
  built : Bool
  alloc : Alloc
  indexMemory : Option Handle

namespace Idx
variable {c : Cfg}

/-- `New` (annoyindex.go:74-114): the hint only pre-allocates. -/
def new (c : Cfg) (rng : c.R.σ) (hint : Nat) : Idx c where
  nItems := 0
  nNodes := 0
  nodesSize := 0
  nodes := .null
  roots := []
  batchMaxNNS := 0
  rng := rng
  loaded := false
  built := false
  alloc := if hint > 0 then Alloc.empty.reallocate (c.L.wrap (c.L.nodeSize * hint) * 3 / 2)
    else Alloc.empty
  indexMemory := none

/-- The memory behind `_nodes`. -/
def mem (w : World) (s : Idx c) : Block :=
  match s.nodes with
  | .null => ⟨0, zeros⟩
  | .build => s.alloc.block
  | .file h => h.block w

/-- The memory behind `_nodes` while no file is loaded. -/
def bmem (s : Idx c) : Block :=
  match s.nodes with
  | .build => s.alloc.block
  | _ => ⟨0, zeros⟩

end Idx

/-- `getNode`/`MapNodeToMemory` (annoyindex.go:287-289): address of node `i`.  Go does not check
anything; the model reports an access outside the block. -/
def getNode (L : Layout) (m : Block) (i : Nat) : Except Err Nat :=
  if L.addr i + L.nodeSize ≤ m.size then .ok (L.addr i) else .error .oob

namespace Idx
variable {c : Cfg}

/-- Change the bytes behind `_nodes`. -/
def write (s : Idx c) (f : Bytes → Bytes) : Idx c :=
  { s with alloc := { s.alloc with data := f s.alloc.data } }

/-- `Close` (annoyindex.go:117-138).  `indexBuilt` and `batchMaxNNS` keep their values.  Errors of
`munmap`/`close` are not modelled. -/
def close (s : Idx c) : Idx c :=
  { s with
    indexMemory := none
    alloc := s.alloc.free
    nodes := .null
    loaded := false
    nItems := 0
    nNodes := 0
    nodesSize := 0
    rng := c.R.cloneAndReset s.rng
    roots := [] }

/-- `GetItem` (annoyindex.go:145-147). -/
def getItem (w : World) (s : Idx c) (i : Nat) : Except Err (List c.N.V) := do
  let a ← getNode c.L (s.mem w) i
  .ok (Node.vec c.L c.C (s.mem w).get a)

/-- `allocateSize` (annoyindex.go:466-484).  `float64(x+1)*1.5` converted back to `TIX` is exact below
`2^52`; above the range of `TIX` the Go conversion is implementation-defined, here it wraps. -/
def allocateSize (s : Idx c) (numNodes : Nat) : Idx c :=
  if numNodes > s.nodesSize then
    let newSize := max numNodes (c.L.wrap (c.L.wrap (s.nodesSize + 1) * 3 / 2))
    { s with
      nodes := .build
      alloc := s.alloc.reallocate (c.L.wrap (newSize * c.L.nodeSize))
      nodesSize := newSize }
  else s

/-- `AddItem` (annoyindex.go:149-179). -/
def addItem (s : Idx c) (i : Nat) (v : List c.N.V) : Except Err (Idx c) :=
  if s.loaded then .error (.panic "Can't add items to a loaded index")
  else if v.length ≠ c.L.f then .error (.panic "Vector length mismatch")
  else do
    let s := s.allocateSize (c.L.wrap (i + 1))
    let a ← getNode c.L s.bmem i
    let s := s.write fun b =>
      c.D.initNode (Node.setVec c.L c.C (Node.setNDesc c.L b a 1) a v) a
    .ok (if i ≥ s.nItems then { s with nItems := c.L.wrap (i + 1) } else s)

/-- Assign a side to every item (annoyindex.go:368-379): returns the left and the right items. -/
def assignSides (side : Nat → c.R.σ → Except Err (Side × c.R.σ)) :
    List Nat → c.R.σ → Except Err (List Nat × List Nat × c.R.σ)
  | [], r => .ok ([], [], r)
  | j :: js, r => do
    let (sd, r) ← side j r
    let (l, rt, r) ← assignSides side js r
    match sd with
    | .left => .ok (j :: l, rt, r)
    | .right => .ok (l, j :: rt, r)

/-- `idx.distance.Side(m, n.GetVector(..), idx.random)` for item `j` (annoyindex.go:370-376). -/
def sideOfItem (c : Cfg) (mem : Block) (m : Bytes) (j : Nat) (r : c.R.σ) :
    Except Err (Side × c.R.σ) := do
  let a ← getNode c.L mem j
  c.D.side m (Node.vec c.L c.C mem.get a) r

/-- The attempt loop (annoyindex.go:362-386), `k` attempts left.  `m` is the temporary node. -/
def trySplit (c : Cfg) (mem : Block) (addrs ids : List Nat) :
    Nat → Bytes → List Nat → List Nat → c.R.σ → Except Err (Bytes × List Nat × List Nat × c.R.σ)
  | 0, m, l, rt, r => .ok (m, l, rt, r)
  | k + 1, m, _, _, r => do
    let (m, r) ← c.D.createSplit mem.get addrs r m
    let (l, rt, r) ← assignSides (sideOfItem c mem m) ids r
    if c.lt95 l.length rt.length then .ok (m, l, rt, r)
    else trySplit c mem addrs ids k m l rt r

/-- The randomising loop (annoyindex.go:391-409): at most `fuel` rounds. -/
def randomize (c : Cfg) (ids : List Nat) :
    Nat → Bytes → List Nat → List Nat → c.R.σ → Except Err (Bytes × List Nat × List Nat × c.R.σ)
  | 0, _, _, _, _ => .error .diverge
  | fuel + 1, m, l, rt, r =>
    if c.le99 l.length rt.length then .ok (m, l, rt, r)
    else do
      let m := Node.setVec c.L c.C m 0 (List.replicate c.L.f c.N.zero)
      let (l, rt, r) ← assignSides (fun _ r => .ok (c.R.nextSide r)) ids r
      randomize c ids fuel m l rt r

/-- Take the next node number (annoyindex.go:312-317 and 438-442). -/
def takeNode (s : Idx c) : Nat × Idx c :=
  let s := s.allocateSize (c.L.wrap (s.nNodes + 1))
  (s.nNodes, { s with nNodes := c.L.wrap (s.nNodes + 1) })

/-- The bucket branch of `makeTree` (annoyindex.go:311-342). -/
def makeBucket (s : Idx c) (ids : List Nat) (isRoot : Bool) : Except Err (Nat × Idx c) := do
  let (item, s) := s.takeNode
  let a ← getNode c.L s.bmem item
  let nd := if isRoot then s.nItems else ids.length
  let s := s.write fun b =>
    let b := Node.setNDesc c.L b a nd
    if ids.length > 0 then Node.setChildren c.L b a ids else b
  .ok (item, s)

/-- Write the finished split node into the index (annoyindex.go:438-448).  `CopyNode` is given the vector
length as number of bytes. -/
def placeSplit (s : Idx c) (m : Bytes) : Except Err (Nat × Idx c) := do
  let (item, s) := s.takeNode
  let a ← getNode c.L s.bmem item
  .ok (item, s.write fun b => Node.copyNode b a m 0 c.L.f)

/-- Choose the split of `ids` (annoyindex.go:345-409): temporary node and the two sides. -/
def chooseSplit (rf : Nat) (s : Idx c) (ids : List Nat) :
    Except Err (Bytes × List Nat × List Nat × Idx c) := do
  let addrs ← ids.mapM (getNode c.L s.bmem)
  let (m, l, rt, r) ← trySplit c s.bmem addrs ids 3 zeros [] [] s.rng
  let (m, l, rt, r) ← randomize c ids rf m l rt r
  .ok (m, l, rt, { s with rng := r })

/-- `makeTree` (annoyindex.go:291-455).  `fuel` bounds the recursion depth, `rf` the randomising loop.
The argument `rnd` of the Go function is never used by its body (it uses `idx.random`), so it is
left out. -/
def makeTree (rf : Nat) : Nat → Idx c → List Nat → Bool → Except Err (Nat × Idx c)
  | 0, _, _, _ => .error .diverge
  | fuel + 1, s, ids, isRoot =>
    match ids, isRoot with
    | [j], false => .ok (j, s)
    | _, _ =>
      if ids.length ≤ c.L.K ∧ (isRoot = false ∨ s.nItems ≤ c.L.K ∨ ids.length = 1) then
        makeBucket s ids isRoot
      else do
        let (m, l, rt, s) ← chooseSplit rf s ids
        let m := Node.setNDesc c.L m 0 (if isRoot then s.nItems else ids.length)
        -- smaller side first (annoyindex.go:417-434)
        if l.length > rt.length then
          let (cr, s) ← makeTree rf fuel s rt false
          let (cl, s) ← makeTree rf fuel s l false
          placeSplit s (Node.setChildren c.L m 0 [cl, cr])
        else
          let (cl, s) ← makeTree rf fuel s l false
          let (cr, s) ← makeTree rf fuel s rt false
          placeSplit s (Node.setChildren c.L m 0 [cl, cr])

/-- The item list of one tree (annoyindex.go:262-274): all slots with `n_descendants >= 1`. -/
def liveItems (c : Cfg) (mem : Block) (n : Nat) : Except Err (List Nat) := do
  let ks ← (List.range n).mapM fun i => do
    let a ← getNode c.L mem i
    .ok (i, Node.nDesc c.L mem.get a)
  .ok ((ks.filter fun p => decide (p.2 ≥ 1)).map Prod.fst)

/-- The loop of `ThreadBuild` (annoyindex.go:248-280): at most `fuel` trees; `done` are the roots so
far. -/
def threadLoop (rf tf : Nat) (trees : Int) : Nat → Idx c → List Nat → Except Err (List Nat × Idx c)
  | 0, _, _ => .error .diverge
  | fuel + 1, s, done =>
    if (if trees = -1 then s.nNodes ≥ c.L.wrap (2 * s.nItems) else (done.length : Int) ≥ trees) then
      .ok (done, s)
    else do
      let ids ← liveItems c s.bmem s.nItems
      let (root, s) ← makeTree rf tf s ids true
      threadLoop rf tf trees fuel s (done ++ [root])

/-- `ThreadBuild` (annoyindex.go:237-285) run without other workers.  `rnd` (lines 241-244) is not used
by anything, so the worker number has no effect. -/
def threadBuild (rf tf lf : Nat) (trees : Int) (_workerIdx : Nat) (s : Idx c) :
    Except Err (Idx c) := do
  let (rs, s) ← threadLoop rf tf trees lf s []
  .ok { s with roots := s.roots ++ rs }

/-- First part of `Build` (annoyindex.go:181-193). -/
def buildStart (s : Idx c) : Except Err (Idx c) :=
  if s.loaded then .error (.panic "Can't build a loaded index")
  else if s.built then .error (.panic "Index already built")
  else
    let s := s.write fun b => c.D.preProcess b s.nItems
    .ok { s with nNodes := s.nItems }

/-- Copy the roots behind the last node (annoyindex.go:201-212). -/
def copyRoots (s : Idx c) : List Nat → Nat → Except Err (Idx c)
  | [], _ => .ok s
  | r :: rs, dst => do
    let d ← getNode c.L s.bmem dst
    let a ← getNode c.L s.bmem r
    copyRoots (s.write fun b => Node.copyNode b d b a c.L.f) rs (c.L.wrap (dst + 1))

/-- The contribution of node `i` to `batchMaxNNS` (annoyindex.go:219-229, annoyindex_io.go:103-112). -/
def nnsOf (c : Cfg) (m : Block) (nItems i : Nat) : Except Err Nat := do
  let a ← getNode c.L m i
  let nd := Node.nDesc c.L m.get a
  .ok (if nd = 1 ∧ i < nItems then 1 else if nd ≤ c.L.K then nd else 0)

/-- `batchMaxNNS` (annoyindex.go:217-229). -/
def countNNS (c : Cfg) (m : Block) (nItems nNodes : Nat) : Except Err Int := do
  let ks ← (List.range nNodes).mapM (nnsOf c m nItems)
  .ok ((ks.sum : Nat) - 1 : Int)

/-- Last part of `Build` (annoyindex.go:197-229). -/
def buildFinish (s : Idx c) : Except Err (Idx c) := do
  let s := s.allocateSize (c.L.wrap (s.nNodes + s.roots.length))
  let s ← copyRoots s s.roots s.nNodes
  let s := { s with nNodes := c.L.wrap (s.nNodes + s.roots.length), built := true }
  let k ← countNNS c s.bmem s.nItems s.nNodes
  .ok { s with batchMaxNNS := k }

/-- `Build` (annoyindex.go:181-234) with the single worker policy
(index/policy/index_policy_single.go:11-16). -/
def build (rf tf lf : Nat) (trees : Int) (s : Idx c) : Except Err (Idx c) := do
  let s ← s.buildStart
  let s ← s.threadBuild rf tf lf trees 0
  s.buildFinish

end Idx
end Annoy
