import Verif.Model.Layout
import Verif.Model.Rng
import Verif.Model.Vec
/-!
# `interfaces.Distance`, the angular and dot product implementations, `TwoMeans`
-/
namespace Annoy

/-- `interfaces.Distance[TV, TIX]` (interfaces/distance.go:18-61).  Nodes are passed as (memory,
address).  Methods that mutate a node return the new memory.  `NodeSize`, `MaxNumChildren`,
`VectorLength` and `MapNodeToMemory` are in `Layout`. -/
structure Dist (L : Layout) (N : Num) (R : Rng) where
  /-- `PreProcess(nodes, node_count)` -/
  preProcess : Bytes → Nat → Bytes
  /-- `Distance(x, y)` -/
  distance : Bytes → Nat → Bytes → Nat → N.V
  /-- `Margin(n, y)`; reading a `y` that is too short is an out-of-range access -/
  margin : Bytes → Nat → List N.V → Except Err N.V
  /-- `CreateSplit(children, nodeSize, random, m)`: node memory, child addresses, generator, and the
  block of `m` (mapped at address 0) -/
  createSplit : Bytes → List Nat → R.σ → Bytes → Except Err (Bytes × R.σ)
  /-- `Side(m, v, random)`, `m` mapped at address 0 -/
  side : Bytes → List N.V → R.σ → Except Err (Side × R.σ)
  pqDistance : N.V → N.V → Side → N.V
  normalizedDistance : N.V → N.V
  pqInitialValue : N.V
  initNode : Bytes → Nat → Bytes

section
variable {L : Layout} {N : Num} {R : Rng} (C : Codec N.V)

/-- One step of the loop of `TwoMeans` (distance/two_means.go:52-88).  State: the temporary nodes
`p`, `q` (blocks mapped at 0), the weights `ic`, `jc`, the generator. -/
def twoMeansStep (mem : Bytes) (addrs : List Nat) (cosine : Bool)
    (distance : Bytes → Nat → Bytes → Nat → N.V) (initNode : Bytes → Nat → Bytes)
    (st : Bytes × Bytes × N.W × N.W × R.σ) :
    Except Err (Bytes × Bytes × N.W × N.W × R.σ) := do
  let (p, q, ic, jc, r) := st
  let (k, r) ← R.nextIndex r addrs.length
  match addrs[k]? with
  | none => .error (.panic "index out of range")
  | some nk =>
    let di := N.mulW ic (N.toW (distance p 0 mem nk))
    let dj := N.mulW jc (N.toW (distance q 0 mem nk))
    let vec := Node.vec L C mem nk
    let norm := if cosine then Vec.getNorm N vec else N.one
    if cosine && !(N.lt N.zero norm) then
      .ok (p, q, ic, jc, r)                                  -- continue
    else if N.ltW di dj then
      let pvec := List.zipWith
        (fun a b => N.div (N.add (N.mul a (N.ofW ic)) (N.div b norm)) (N.ofW (N.addW ic N.oneW)))
        (Node.vec L C p 0) vec
      .ok (initNode (Node.setVec L C p 0 pvec) 0, q, N.addW ic N.oneW, jc, r)
    else if N.ltW dj di then
      let qvec := List.zipWith
        (fun a b => N.div (N.add (N.mul a (N.ofW jc)) (N.div b norm)) (N.ofW (N.addW jc N.oneW)))
        (Node.vec L C q 0) vec
      .ok (p, initNode (Node.setVec L C q 0 qvec) 0, ic, N.addW jc N.oneW, r)
    else .ok (p, q, ic, jc, r)

/-- The two starting points (distance/two_means.go:28-35): `i`, `j` with `j` shifted past `i`. -/
def twoMeansPick (n : Nat) (r : R.σ) : Except Err (Nat × Nat × R.σ) := do
  let (i, r) ← R.nextIndex r n
  let (j, r) ← R.nextIndex r (n - 1)
  .ok (i, if j ≥ i then j + 1 else j, r)

/-- Iterate a step `k` times. -/
def iterM {σ : Type} (step : σ → Except Err σ) : Nat → σ → Except Err σ
  | 0, s => .ok s
  | k + 1, s => do iterM step k (← step s)

/-- `TwoMeans` (distance/two_means.go:17-89).  Returns `p`, `q` and the generator.  `p` and `q` start
as zeroed temporary blocks (distance/angular/distance.go:145-149).  `CopyNode` is called with the
vector length as byte count (lines 37-38). -/
def twoMeans (mem : Bytes) (addrs : List Nat) (r : R.σ) (cosine : Bool)
    (distance : Bytes → Nat → Bytes → Nat → N.V) (normalize initNode : Bytes → Nat → Bytes) :
    Except Err (Bytes × Bytes × R.σ) := do
  let (i, j, r) ← twoMeansPick addrs.length r
  match addrs[i]?, addrs[j]? with
  | some ni, some nj =>
    let p := Node.copyNode zeros 0 mem ni L.f
    let q := Node.copyNode zeros 0 mem nj L.f
    let p := if cosine then normalize p 0 else p
    let q := if cosine then normalize q 0 else q
    let p := initNode p 0
    let q := initNode q 0
    let (p, q, _, _, r) ←
      iterM (twoMeansStep (L := L) C mem addrs cosine distance initNode) 200 (p, q, N.oneW, N.oneW, r)
    .ok (p, q, r)
  | _, _ => .error (.panic "index out of range")

namespace Angular

/-- `Normalize` (distance/angular/distance.go:65-78). -/
def normalize (b : Bytes) (a : Nat) : Bytes :=
  Node.setVec L C b a (Vec.normalize N (Node.vec L C b a))

/-- `Distance` (distance/angular/distance.go:80-105). -/
def distance (b : Bytes) (x : Nat) (b' : Bytes) (y : Nat) : N.V :=
  Vec.cosDistance N (Node.norm L C b x) (Node.norm L C b' y) (Node.vec L C b x) (Node.vec L C b' y)

/-- `Margin` (distance/angular/distance.go:107-117). -/
def margin (b : Bytes) (a : Nat) (y : List N.V) : Except Err N.V :=
  if y.isEmpty then .error (.panic "y is empty")
  else if y.length < L.f then .error .oob
  else .ok (Vec.dot N (Node.vec L C b a) y)

/-- The sign test of `Side` (distance/angular/distance.go:127-135, dotproduct 126-134). -/
def sideOf (dot : N.V) (r : R.σ) : Side × R.σ :=
  if !(N.eq dot N.zero) then
    if N.lt N.zero dot then (.right, r) else (.left, r)
  else R.nextSide r

/-- `InitNode` (distance/angular/distance.go:180-183). -/
def initNode (b : Bytes) (a : Nat) : Bytes :=
  let v := Node.vec L C b a
  Node.setNorm L C b a (Vec.dot N v v)

/-- `CreateSplit` (distance/angular/distance.go:138-162). -/
def createSplit (mem : Bytes) (addrs : List Nat) (r : R.σ) (m : Bytes) :
    Except Err (Bytes × R.σ) := do
  let (p, q, r) ← twoMeans (L := L) C mem addrs r true (distance (L := L) C)
    (normalize (L := L) C) (initNode (L := L) C)
  let nv := List.zipWith N.sub (Node.vec L C p 0) (Node.vec L C q 0)
  .ok (normalize (L := L) C (Node.setVec L C m 0 nv) 0, r)

/-- `PQDistance` (distance/angular/distance.go:168-173, dotproduct 141-146). -/
def pqDistance (distance margin : N.V) (side : Side) : N.V :=
  N.min distance (if side = .left then N.neg margin else margin)

end Angular

/-- `angular.Distance[TV, TIX]` (distance/angular/distance.go). -/
def angular (L : Layout) (N : Num) (R : Rng) (C : Codec N.V) : Dist L N R where
  preProcess := fun b _ => b                                    -- 61-63: DO NOTHING
  distance := Angular.distance (L := L) C
  margin := Angular.margin (L := L) C
  createSplit := Angular.createSplit (L := L) C
  side := fun m y r => do
    let dot ← Angular.margin (L := L) C m 0 y                   -- 119-136
    .ok (Angular.sideOf dot r)
  pqDistance := Angular.pqDistance
  normalizedDistance := N.sqrt                                  -- 164-166
  pqInitialValue := N.inf                                       -- 175-177
  initNode := Angular.initNode (L := L) C

namespace DotProduct

/-- `x >= y` on floats. -/
def ge (N : Num) (x y : N.V) : Bool := N.lt y x || N.eq x y

/-- `Normalize` (distance/dotproduct/distance.go:87-102). -/
def normalize (b : Bytes) (a : Nat) : Bytes :=
  let v := Node.vec L C b a
  let norm := Vec.getNorm N v
  if N.lt N.zero norm then
    let b := Node.setVec L C b a (v.map fun x => N.div x norm)
    Node.setDotFactor L C b a (N.div (Node.dotFactor L C b a) norm)
  else b

/-- `Margin` (distance/dotproduct/distance.go:104-116). -/
def margin (b : Bytes) (a : Nat) (y : List N.V) : Except Err N.V :=
  if y.isEmpty then .error (.panic "y is empty")
  else if y.length < L.f then .error .oob
  else
    let df := Node.dotFactor L C b a
    .ok (N.add (Vec.dot N (Node.vec L C b a) y) (N.mul df df))

/-- `CreateSplit` (distance/dotproduct/distance.go:61-85). -/
def createSplit (mem : Bytes) (addrs : List Nat) (r : R.σ) (m : Bytes) :
    Except Err (Bytes × R.σ) := do
  let (p, q, r) ← twoMeans (L := L) C mem addrs r true (Angular.distance (L := L) C)
    (normalize (L := L) C) (fun b _ => b)
  let nv := List.zipWith N.sub (Node.vec L C p 0) (Node.vec L C q 0)
  .ok (normalize (L := L) C (Node.setVec L C m 0 nv) 0, r)

/-- Step one of `PreProcess` for one vector (distance/dotproduct/distance.go:187-192). -/
def stepOneFactor (N : Num) (v : List N.V) : N.V :=
  let d := Vec.dot N v v
  if ge N d N.zero then N.sqrt d else N.zero

/-- Step two: running maximum (distance/dotproduct/distance.go:198-207). -/
def maxNorm (N : Num) (dfs : List N.V) : N.V :=
  dfs.foldl (fun m df => if N.lt m df then df else m) N.zero

/-- Step three for one node (distance/dotproduct/distance.go:213-218). -/
def stepThreeFactor (N : Num) (maxN nodeNorm : N.V) : N.V :=
  let d := N.sub (N.powSq maxN) (N.powSq nodeNorm)
  if ge N d N.zero then N.sqrt d else N.zero

/-- `PreProcess` (distance/dotproduct/distance.go:179-222). -/
def preProcess (b : Bytes) (count : Nat) : Bytes :=
  let b := (List.range count).foldl (fun b i =>
    Node.setDotFactor L C b (L.addr i) (stepOneFactor N (Node.vec L C b (L.addr i)))) b
  let mx := maxNorm N ((List.range count).map fun i => Node.dotFactor L C b (L.addr i))
  (List.range count).foldl (fun b i =>
    Node.setDotFactor L C b (L.addr i) (stepThreeFactor N mx (Node.dotFactor L C b (L.addr i)))) b

end DotProduct

/-- `dotproduct.Distance[TV, TIX]` (distance/dotproduct/distance.go). -/
def dotProduct (L : Layout) (N : Num) (R : Rng) (C : Codec N.V) : Dist L N R where
  preProcess := DotProduct.preProcess (L := L) C
  distance := Angular.distance (L := L) C                       -- 152-177, same code as angular
  margin := DotProduct.margin (L := L) C
  createSplit := DotProduct.createSplit (L := L) C
  side := fun m y r => do
    let dot ← DotProduct.margin (L := L) C m 0 y                -- 118-135
    .ok (Angular.sideOf dot r)
  pqDistance := Angular.pqDistance
  normalizedDistance := N.neg                                   -- 137-139
  pqInitialValue := N.inf
  initNode := fun b _ => b                                      -- 225-227: DO NOTHING

end
end Annoy
