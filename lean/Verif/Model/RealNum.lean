import Verif.Model.Num
import Mathlib.Analysis.SpecialFunctions.Sqrt
/-!
# Exact arithmetic

The same formulas over the real numbers.  Used for the geometric properties; no index runs on it (a real number has no representation in
bytes).  `inf` has no counterpart and is 0; no theorem about exact arithmetic mentions it.
-/
namespace Annoy

/-- Exact real arithmetic. -/
noncomputable abbrev realNum : Num where
  V := ℝ
  W := ℝ
  zero := 0
  one := 1
  two := 2
  add x y := x + y
  sub x y := x - y
  mul x y := x * y
  div x y := x / y
  neg x := -x
  sqrt x := Real.sqrt x
  min x y := Min.min x y
  powSq x := x ^ 2
  inf := 0
  lt x y := by classical exact decide (x < y)
  eq x y := by classical exact decide (x = y)
  toW x := x
  ofW x := x
  oneW := 1
  addW x y := x + y
  mulW x y := x * y
  ltW x y := by classical exact decide (x < y)

end Annoy
