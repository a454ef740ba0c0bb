import Verif.Model.Bytes
/-!
# Arithmetic of `TV` (`float32`/`float64`) and of `float64`

The code is generic in `TV interfaces.VectorType` (interfaces/distance.go:14-16).  The model takes
the arithmetic as a record, so that index-level theorems hold for every arithmetic; `Verif.Model.Ieee`
gives the IEEE-754 instances and `Verif.Model.RealNum` the instance over the real numbers.
-/
namespace Annoy

/-- Which child of a split node (interfaces/distance.go:7-12). -/
inductive Side where
  | left   -- SideLeft  Side = 0
  | right  -- SideRight Side = 1
deriving Repr, DecidableEq, Inhabited

/-- Arithmetic on `TV` (carrier `V`) and on `float64` (carrier `W`) as used by the code. -/
structure Num where
  V : Type
  W : Type
  /-- `TV(0)`, `TV(1)`, `TV(2.0)` -/
  zero : V
  one : V
  two : V
  add : V → V → V
  sub : V → V → V
  mul : V → V → V
  div : V → V → V
  neg : V → V
  /-- `TV(math.Sqrt(float64(x)))` (vector/get_norm.go:11,15, distance/angular/distance.go:102,165) -/
  sqrt : V → V
  /-- `TV(math.Min(float64(x), float64(y)))` (distance/angular/distance.go:172) -/
  min : V → V → V
  /-- `TV(math.Pow(float64(x), 2.0))` (distance/dotproduct/distance.go:213) -/
  powSq : V → V
  /-- `TV(math.Inf(1))` (distance/angular/distance.go:176) -/
  inf : V
  /-- `x < y` -/
  lt : V → V → Bool
  /-- `x == y` (IEEE equality, not bit equality) -/
  eq : V → V → Bool
  /-- `float64(x)`, `TV(w)` -/
  toW : V → W
  ofW : W → V
  oneW : W
  addW : W → W → W
  mulW : W → W → W
  ltW : W → W → Bool

/-- How values of `TV` are laid out in memory: `sz = unsafe.Sizeof(TV(0))` bytes. -/
structure Codec (V : Type) where
  sz : Nat
  enc : V → List Byte
  dec : List Byte → V
  enc_length : ∀ v, (enc v).length = sz
  dec_enc : ∀ v, dec (enc v) = v

/-- `x` is not a NaN: it equals itself. -/
def Num.Ordinary (N : Num) (x : N.V) : Prop := N.eq x x = true

/-- The laws of IEEE comparison that the ordering theorems use.  Proved for the IEEE instances
(`Verif.Proof.IeeeOrder`) and for the reals. -/
structure Num.Lawful (N : Num) : Prop where
  lt_irrefl : ∀ x, N.lt x x = false
  lt_trans : ∀ x y z, N.lt x y = true → N.lt y z = true → N.lt x z = true
  trichotomy : ∀ x y, N.Ordinary x → N.Ordinary y →
    N.lt x y = true ∨ N.eq x y = true ∨ N.lt y x = true
  eq_symm : ∀ x y, N.eq x y = true → N.eq y x = true
  eq_trans : ∀ x y z, N.eq x y = true → N.eq y z = true → N.eq x z = true
  lt_of_lt_of_eq : ∀ x y z, N.lt x y = true → N.eq y z = true → N.lt x z = true
  lt_of_eq_of_lt : ∀ x y z, N.eq x y = true → N.lt y z = true → N.lt x z = true

end Annoy
