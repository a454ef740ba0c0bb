import Verif.Model.Ieee
/-!
# `utils.Round` and `utils.RoundPlus`
-/
namespace Annoy
open Ieee

/-- `math.Floor` (Go standard library): zeros, infinities and NaN are returned as they are. -/
def Ieee.Fmt.floorF (F : Fmt) (x : Nat) : Nat :=
  if F.mag x = 0 ∨ F.infBits ≤ F.mag x then x else F.ofInt (F.floor x)

/-- The constant `0.5` of type `float64`. -/
def half64 : Nat := 1022 * 2 ^ 52

/-- `utils.Round` (utils/math.go:47-49). -/
def goRound (x : Nat) : Nat := f64.floorF (f64.add x half64)

/-- `utils.RoundPlus` (utils/math.go:51-54).  `shift` is the `float64` that `math.Pow(10, places)` returns; the library's power
function is not modelled. -/
def goRoundPlus (x shift : Nat) : Nat := f64.div (goRound (f64.mul x shift)) shift

end Annoy
