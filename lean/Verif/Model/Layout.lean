import Verif.Model.Num
/-!
# Node layout and node accessors

Models distance/angular/node.go, distance/dotproduct/node.go, the layout computation of
distance/angular/distance.go:19-38 and distance/dotproduct/distance.go:19-38, `MapNodeToMemory` and
utils/node.go.

A node occupies `nodeSize` bytes:

    offset 0            n_descendants  (szIX bytes)
    offset szIX         children[0]    (also: norm, `sz` bytes of TV)
    offset 2*szIX       children[1]
    ...                 (dot product: dot_factor directly before the vector)
    offset offV         the vector, f values
-/
namespace Annoy

/-- Size data of a node type, as computed by `Distance(vectorLength)`. -/
structure Layout where
  /-- `unsafe.Sizeof(TIX(0))` -/
  szIX : Nat
  /-- `vectorLength` -/
  f : Nat
  /-- `unsafe.Offsetof(n.v)` -/
  offV : Nat
  /-- `NodeSize()` -/
  nodeSize : Nat
  /-- `MaxNumChildren()` -/
  K : Nat
deriving Repr, DecidableEq

/-- Go's field alignment: next multiple of `a`. -/
def alignUp (x a : Nat) : Nat := (x + a - 1) / a * a

/-- Number of values of `TIX`. -/
def Layout.range (L : Layout) : Nat := 2 ^ (8 * L.szIX)

/-- Conversion to `TIX` / `TIX` arithmetic: reduce modulo `2^bits`. -/
def Layout.wrap (L : Layout) (n : Nat) : Nat := n % L.range

/-- Layout of `AngularNodeImpl` (distance/angular/node.go:17-41, distance.go:19-38):
`n_descendants TIX; children [2]TIX; v [0]TV`. -/
def angularLayout (szIX szV f : Nat) : Layout :=
  let offV := alignUp (3 * szIX) szV
  let nodeSize := (offV + f * szV) % 2 ^ (8 * szIX)
  { szIX := szIX, f := f, offV := offV, nodeSize := nodeSize, K := (nodeSize - szIX) / szIX }

/-- Layout of `DotProductNodeImpl` (distance/dotproduct/node.go:12-17, distance.go:19-38):
`n_descendants TIX; children [2]TIX; dot_factor TV; v [0]TV`. -/
def dotLayout (szIX szV f : Nat) : Layout :=
  let offV := alignUp (3 * szIX) szV + szV
  let nodeSize := (offV + f * szV) % 2 ^ (8 * szIX)
  { szIX := szIX, f := f, offV := offV, nodeSize := nodeSize, K := (nodeSize - szIX) / szIX }

/-- `MapNodeToMemory`: byte offset of a node.  `itemIndex*a.nodeSize` is `TIX` arithmetic
(distance/angular/distance.go:52-59, distance/dotproduct/distance.go:52-59). -/
def Layout.addr (L : Layout) (i : Nat) : Nat := L.wrap (i * L.nodeSize)

namespace Node

/-- `GetNumberOfDescendants` (distance/angular/node.go:79-81). -/
def nDesc (L : Layout) (b : Bytes) (a : Nat) : Nat := readLE b a L.szIX

/-- `SetNumberOfDescendants` (distance/angular/node.go:83-85). -/
def setNDesc (L : Layout) (b : Bytes) (a n : Nat) : Bytes := writeLE b a L.szIX n

/-- The `k`-th child number behind `&n.children`. -/
def child (L : Layout) (b : Bytes) (a k : Nat) : Nat := readLE b (a + L.szIX + k * L.szIX) L.szIX

/-- `GetChildren` (distance/angular/node.go:63-69): a slice of `n_descendants` child numbers. -/
def getChildren (L : Layout) (b : Bytes) (a : Nat) : List Nat :=
  (List.range (nDesc L b a)).map (child L b a)

/-- `SetChildren` (distance/angular/node.go:71-77): copies the raw bytes of the slice. -/
def setChildren (L : Layout) (b : Bytes) (a : Nat) (cs : List Nat) : Bytes :=
  writeBytes b (a + L.szIX) (cs.flatMap (leBytes L.szIX))

variable {V : Type} (L : Layout) (C : Codec V)

/-- `GetVector(vectorLength)` (distance/angular/node.go:47-49). -/
def vec (b : Bytes) (a : Nat) : List V :=
  (List.range L.f).map fun k => C.dec (readBytes b (a + L.offV + k * C.sz) C.sz)

/-- `SetVector` (distance/angular/node.go:51-57).  (The Go code panics for vectors of more than
`2^30` bytes; not modelled.) -/
def setVec (b : Bytes) (a : Nat) (v : List V) : Bytes :=
  writeBytes b (a + L.offV) (v.flatMap C.enc)

/-- `GetNorm` (distance/angular/node.go:87-89): the bytes of `children` read as `TV`. -/
def norm (b : Bytes) (a : Nat) : V := C.dec (readBytes b (a + L.szIX) C.sz)

/-- `SetNorm` (distance/angular/node.go:91-93). -/
def setNorm (b : Bytes) (a : Nat) (x : V) : Bytes := writeBytes b (a + L.szIX) (C.enc x)

/-- Field `dot_factor` of `DotProductNodeImpl` (distance/dotproduct/node.go:15): it lies directly
before the vector. -/
def dotFactor (b : Bytes) (a : Nat) : V := C.dec (readBytes b (a + L.offV - C.sz) C.sz)

def setDotFactor (b : Bytes) (a : Nat) (x : V) : Bytes :=
  writeBytes b (a + L.offV - C.sz) (C.enc x)

/-- `CopyNode(dst, src, size)` (utils/node.go:23-31): copies `size` **bytes**. -/
def copyNode (dst : Bytes) (da : Nat) (src : Bytes) (sa size : Nat) : Bytes :=
  writeBytes dst da (readBytes src sa size)

end Node
end Annoy
