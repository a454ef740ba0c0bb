import Verif.Model.Vec
import Verif.Model.Bytes
/-!
# Package `vector`, loop by loop

The functions of package `vector` with the explicit length argument and the two ways of access: through slices (an index beyond the end
panics) and through raw pointers.  `Verif.Model.Vec` has the same functions on whole lists.
-/
namespace Annoy
namespace Vec
variable {N : Num}

/-- `a[i]` for a slice. -/
def at? (a : List N.V) (i : Nat) : Except Err N.V :=
  match a[i]? with
  | some x => .ok x
  | none => .error (.panic "index out of range")

/-- `for i := i0; i < i0+n; i++ { sum += term(a[i], b[i]) }` over slices. -/
def sliceLoop (N : Num) (term : N.V → N.V → N.V) (a b : List N.V) : Nat → Nat → N.V → Except Err N.V
  | 0, _, sum => .ok sum
  | n + 1, i, sum => do
    let x ← at? a i
    let y ← at? b i
    sliceLoop N term a b n (i + 1) (N.add sum (term x y))

/-- `Dot` (vector/dot.go:9-15). -/
def dotSlice (N : Num) (a b : List N.V) (n : Nat) : Except Err N.V := sliceLoop N N.mul a b n 0 N.zero

/-- `EuclideanDistance` (vector/euclidean_distance.go:5-13). -/
def euclideanSlice (N : Num) (a b : List N.V) (n : Nat) : Except Err N.V :=
  sliceLoop N (fun x y => N.mul (N.sub x y) (N.sub x y)) a b n 0 N.zero

/-- `ManhattanDistance` (vector/manhattan_distance.go:5-13). -/
def manhattanSlice (N : Num) (a b : List N.V) (n : Nat) : Except Err N.V :=
  sliceLoop N (fun x y => abs N (N.sub x y)) a b n 0 N.zero

/-- `GetNorm` (vector/get_norm.go:10-12). -/
def getNormSlice (N : Num) (v : List N.V) (n : Nat) : Except Err N.V := do .ok (N.sqrt (← dotSlice N v v n))

/-- The loop of `DotUnsafe` (vector/dot.go:24-28): `*(*TV)(ptr + i*size)`, no checks. -/
def ptrLoop (N : Num) (C : Codec N.V) (ma : Bytes) (pa : Nat) (mb : Bytes) (pb : Nat) : Nat → Nat → N.V → N.V
  | 0, _, sum => sum
  | n + 1, i, sum =>
    let x := C.dec (readBytes ma (pa + i * C.sz) C.sz)
    let y := C.dec (readBytes mb (pb + i * C.sz) C.sz)
    ptrLoop N C ma pa mb pb n (i + 1) (N.add sum (N.mul x y))

/-- `DotUnsafe` (vector/dot.go:17-31) on two addresses. -/
def dotPtr (N : Num) (C : Codec N.V) (ma : Bytes) (pa : Nat) (mb : Bytes) (pb : Nat) (n : Nat) : N.V :=
  ptrLoop N C ma pa mb pb n 0 N.zero

/-- `GetNormUnsafe` (vector/get_norm.go:14-16). -/
def getNormPtr (N : Num) (C : Codec N.V) (m : Bytes) (p n : Nat) : N.V := N.sqrt (dotPtr N C m p m p n)

end Vec
end Annoy
