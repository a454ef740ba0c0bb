import Verif.Model.Num
/-!
# Package `vector`

Vectors are lists of `TV`.  The Go functions take an explicit `vectorLength`; a shorter slice would
panic (`Dot`) or be read out of bounds (`DotUnsafe`), callers in the model check this.
-/
namespace Annoy
namespace Vec

/-- Loop body shared by `Dot`/`DotUnsafe`: `sum += a[i] * b[i]` in index order
(vector/dot.go:9-15 and 17-31; the unsafe variant reads the same elements through pointers). -/
def dotFrom (N : Num) (sum : N.V) : List N.V → List N.V → N.V
  | a :: as, b :: bs => dotFrom N (N.add sum (N.mul a b)) as bs
  | _, _ => sum

/-- `Dot` / `DotUnsafe` (vector/dot.go:9-31), `var sum TV` starts at zero. -/
def dot (N : Num) (a b : List N.V) : N.V := dotFrom N N.zero a b

/-- `GetNorm` / `GetNormUnsafe` (vector/get_norm.go:10-16). -/
def getNorm (N : Num) (v : List N.V) : N.V := N.sqrt (dot N v v)

/-- `Abs` (vector/abs.go:9-15). -/
def abs (N : Num) (x : N.V) : N.V := if N.lt x N.zero then N.neg x else x

def euclidFrom (N : Num) (sum : N.V) : List N.V → List N.V → N.V
  | a :: as, b :: bs =>
    euclidFrom N (N.add sum (N.mul (N.sub a b) (N.sub a b))) as bs
  | _, _ => sum

/-- `EuclideanDistance` (vector/euclidean_distance.go:5-13): the *squared* distance. -/
def euclideanDistance (N : Num) (a b : List N.V) : N.V := euclidFrom N N.zero a b

def manhattanFrom (N : Num) (sum : N.V) : List N.V → List N.V → N.V
  | a :: as, b :: bs => manhattanFrom N (N.add sum (abs N (N.sub a b))) as bs
  | _, _ => sum

/-- `ManhattanDistance` (vector/manhattan_distance.go:5-13). -/
def manhattanDistance (N : Num) (a b : List N.V) : N.V := manhattanFrom N N.zero a b

/-- The in-place loop of `Normalize` (distance/angular/distance.go:65-78): divide by the norm if it
is positive. -/
def normalize (N : Num) (v : List N.V) : List N.V :=
  let norm := getNorm N v
  if N.lt N.zero norm then v.map fun x => N.div x norm else v

/-- The angular distance formula on given cached norms `pp`, `qq`
(distance/angular/distance.go:80-105, identical in distance/dotproduct/distance.go:152-177). -/
def cosDistance (N : Num) (pp qq : N.V) (xv yv : List N.V) : N.V :=
  let pp := if N.eq pp N.zero then dot N xv xv else pp
  let qq := if N.eq qq N.zero then dot N yv yv else qq
  let ppqq := if N.eq pp N.zero then N.zero else N.mul pp qq
  if N.lt N.zero ppqq then
    N.sub N.two (N.div (N.mul N.two (dot N xv yv)) (N.sqrt ppqq))
  else N.two

end Vec
end Annoy
