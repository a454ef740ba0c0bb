import Verif.Model.Ieee
import Mathlib.Data.Real.Basic
import Mathlib.Algebra.Order.AbsoluteValue.Basic
/-!
# Specification: IEEE-754 rounding

What the standard says about a result: the value of a bit pattern, and which pattern is the one nearest to a real number, ties
to even.  Independent of the algorithms in `Verif.Model.Ieee`.
-/
namespace Annoy
namespace Ieee

/-- The value of a magnitude (a bit pattern without the sign): significand times a power of two.  The formula goes on beyond the
largest finite magnitude as if there were no limit for the exponent. -/
noncomputable def Fmt.value (F : Fmt) (b : Nat) : ℝ :=
  ((b - (b / 2 ^ F.mb - 1) * 2 ^ F.mb : Nat) : ℝ) * 2 ^ (F.emin + ((b / 2 ^ F.mb - 1 : Nat) : Int))

/-- `b` is `v` rounded to the nearest magnitude, ties to the even one, as if there were no limit for the exponent. -/
def Fmt.RoundsTo (F : Fmt) (v : ℝ) (b : Nat) : Prop :=
  ∀ b', |F.value b - v| < |F.value b' - v| ∨ (|F.value b - v| = |F.value b' - v| ∧ (b' = b ∨ b % 2 = 0))

/-- The pattern for a rounded magnitude: magnitudes beyond the largest finite one become infinity. -/
def Fmt.cap (F : Fmt) (b : Nat) : Nat := if F.infBits ≤ b then F.infBits else b

/-- The value of a finite pattern. -/
noncomputable def Fmt.real (F : Fmt) (x : Nat) : ℝ := if F.isNeg x then -F.value (F.mag x) else F.value (F.mag x)

/-- A pattern of a finite number. -/
def Fmt.Finite (F : Fmt) (x : Nat) : Prop := F.mag x < F.infBits

/-- `z` is the correctly rounded result for the real number `v`: of the right sign (a zero may have any), and its magnitude is the
rounded absolute value, infinity if that is too large. -/
def Fmt.Correct (F : Fmt) (v : ℝ) (z : Nat) : Prop :=
  z < 2 * F.signBit ∧ (∃ b, F.RoundsTo |v| b ∧ F.mag z = F.cap b) ∧ (v < 0 → F.isNeg z = true) ∧ (0 < v → F.isNeg z = false)

end Ieee
end Annoy
