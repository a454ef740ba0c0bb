import Verif.Model.Index
import Verif.Model.Heap
/-!
# Search

Models index/annoyindex_search.go.
-/
namespace Annoy

/-- `BatchContext` (annoyindex_search.go:12-16): the buffers `nns` and `nns_dist` (same length). -/
structure Ctx (c : Cfg) where
  nns : List Nat
  dist : List (c.N.V × Nat)

/-- `CreateContext` (annoyindex_search.go:20-40). -/
def Idx.createContext {c : Cfg} (s : Idx c) : Ctx c :=
  let n := if s.batchMaxNNS < 1 then s.nNodes * 2 else s.batchMaxNNS.toNat
  { nns := List.replicate n 0, dist := List.replicate n (c.N.zero, 0) }

namespace Search
variable (c : Cfg)

/-- Go's `copy(buf[cnt:], src)`: copies as much as fits. -/
def copyAt (buf : List Nat) (cnt : Nat) (src : List Nat) : List Nat :=
  buf.take cnt ++ src.take (buf.length - cnt) ++ buf.drop (cnt + src.length)

/-- The collecting loop (annoyindex_search.go:93-130): priority queue, buffer, `cnt`.  `fuel` bounds the
number of pops. -/
def loop (mem : Block) (nItems : Nat) (query : List c.N.V) (budget : Int) :
    Nat → List (c.N.V × Nat) → List Nat → Nat → Except Err (List Nat × Nat)
  | 0, _, _, _ => .error .diverge
  | fuel + 1, q, buf, cnt =>
    if (cnt : Int) < budget then
      match Heap.pop (pairLess c.N) q with
      | none => .ok (buf, cnt)                              -- q.Empty()
      | some ((d, i), q) => do
        let a ← getNode c.L mem i
        let nd := Node.nDesc c.L mem.get a
        if nd = 1 ∧ i < nItems then
          if cnt < buf.length then loop mem nItems query budget fuel q (buf.set cnt i) (cnt + 1)
          else .error (.panic "index out of range")
        else if nd ≤ c.L.K then
          if cnt ≤ buf.length then
            loop mem nItems query budget fuel q
              (copyAt buf cnt (Node.getChildren c.L mem.get a)) (cnt + nd)
          else .error (.panic "slice bounds out of range")
        else do
          let margin ← c.D.margin mem.get a query
          let q := Heap.push (pairLess c.N) q
            (c.D.pqDistance d margin .right, Node.child c.L mem.get a 1)
          let q := Heap.push (pairLess c.N) q
            (c.D.pqDistance d margin .left, Node.child c.L mem.get a 0)
          loop mem nItems query budget fuel q buf cnt
    else .ok (buf, cnt)

/-- The distance loop (annoyindex_search.go:156-175): skip equal neighbours and nodes that are not
items.  `vn` is the query node. -/
def distances (mem : Block) (vn : Bytes) : Option Nat → List Nat → Except Err (List (c.N.V × Nat))
  | _, [] => .ok []
  | last, j :: js =>
    if last = some j then distances mem vn last js
    else do
      let a ← getNode c.L mem j
      let rest ← distances mem vn (some j) js
      if Node.nDesc c.L mem.get a = 1 then .ok ((c.D.distance vn 0 mem.get a, j) :: rest)
      else .ok rest

/-- The query node (annoyindex_search.go:137-147).  `SetVector` copies the whole query without a
length check: a query that is too long is written past the end of the node. -/
def queryNode (query : List c.N.V) : Except Err Bytes :=
  if c.L.offV + query.length * c.C.sz ≤ c.L.nodeSize then
    .ok (c.D.initNode (Node.setVec c.L c.C zeros 0 query) 0)
  else .error .oob

/-- Order of the initial pushes (annoyindex_search.go:87-89). -/
def initQueue (roots : List Nat) : List (c.N.V × Nat) :=
  roots.foldl (fun q r => Heap.push (pairLess c.N) q (c.D.pqInitialValue, r)) []

/-- `GetNnsByVector` (annoyindex_search.go:75-199) on a memory block.  Returns the result ids, the
distances, and the context as the call leaves it. -/
def run (fuel : Nat) (mem : Block) (nItems : Nat) (roots : List Nat) (query : List c.N.V)
    (numReturn : Int) (numInspect : Int) (ctx : Ctx c) :
    Except Err (List Nat × List c.N.V × Ctx c) := do
  let budget := if numInspect = -1 then numReturn * roots.length else numInspect
  let (buf, cnt) ← loop c mem nItems query budget fuel (initQueue c roots) ctx.nns 0
  if cnt > buf.length then .error (.panic "slice bounds out of range")
  else do
    let nns := c.sortIds (buf.take cnt)
    let vn ← queryNode c query
    let ds ← distances c mem vn none nns
    let middle : Int := if numReturn < ds.length then numReturn else ds.length
    let sorted := c.partialSort ds 0 middle ds.length
    let top := sorted.take middle.toNat
    .ok (top.map Prod.snd, top.map (fun p => c.D.normalizedDistance p.1),
      { nns := nns ++ buf.drop cnt, dist := sorted ++ ctx.dist.drop ds.length })

end Search

namespace Idx
variable {c : Cfg}

/-- `GetNnsByVector` (annoyindex_search.go:75-199). -/
def getNnsByVector (fuel : Nat) (w : World) (s : Idx c) (query : List c.N.V)
    (numReturn numInspect : Int) (ctx : Ctx c) : Except Err (List Nat × List c.N.V × Ctx c) :=
  Search.run c fuel (s.mem w) s.nItems s.roots query numReturn numInspect ctx

/-- `GetNnsByItem` (annoyindex_search.go:54-71). -/
def getNnsByItem (fuel : Nat) (w : World) (s : Idx c) (item : Nat)
    (numReturn numInspect : Int) (ctx : Ctx c) : Except Err (List Nat × List c.N.V × Ctx c) := do
  let a ← getNode c.L (s.mem w) item
  s.getNnsByVector fuel w (Node.vec c.L c.C (s.mem w).get a) numReturn numInspect ctx

/-- `GetDistance` (annoyindex_search.go:43-50). -/
def getDistance (w : World) (s : Idx c) (i j : Nat) : Except Err c.N.V := do
  let a ← getNode c.L (s.mem w) i
  let b ← getNode c.L (s.mem w) j
  .ok (c.D.normalizedDistance (c.D.distance (s.mem w).get a (s.mem w).get b))

end Idx
end Annoy
