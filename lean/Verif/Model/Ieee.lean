import Verif.Model.Num
/-!
# IEEE-754 binary32 / binary64

Bit-exact model of Go's `float32`/`float64` arithmetic on amd64 (round to nearest even, no fused
multiply-add).  Values are bit patterns.  NaN results of arithmetic are one canonical quiet NaN; the
hardware's choice of NaN payload is not modelled.
-/
namespace Annoy
namespace Ieee

/-- A binary interchange format: `mb` stored fraction bits, `eb` exponent bits. -/
structure Fmt where
  mb : Nat
  eb : Nat

def f32 : Fmt := ⟨23, 8⟩
def f64 : Fmt := ⟨52, 11⟩

/-- Bit pattern of `+Inf`. -/
def Fmt.infBits (F : Fmt) : Nat := (2 ^ F.eb - 1) * 2 ^ F.mb
/-- The sign bit. -/
def Fmt.signBit (F : Fmt) : Nat := 2 ^ (F.mb + F.eb)
/-- Canonical quiet NaN. -/
def Fmt.nanBits (F : Fmt) : Nat := F.infBits + 2 ^ (F.mb - 1)
/-- Exponent of the least significant bit of subnormal numbers. -/
def Fmt.emin (F : Fmt) : Int := 2 - 2 ^ (F.eb - 1) - F.mb

/-- A decoded value: NaN, an infinity, or `(-1)^neg * m * 2^e`. -/
inductive Fl where
  | nan
  | inf (neg : Bool)
  | fin (neg : Bool) (m : Nat) (e : Int)
deriving Repr, DecidableEq

def Fmt.isNeg (F : Fmt) (x : Nat) : Bool := decide (F.signBit ≤ x)
def Fmt.mag (F : Fmt) (x : Nat) : Nat := x % F.signBit
def Fmt.isNaN (F : Fmt) (x : Nat) : Bool := decide (F.infBits < F.mag x)

/-- Decode a bit pattern. -/
def Fmt.decode (F : Fmt) (x : Nat) : Fl :=
  let ex := F.mag x / 2 ^ F.mb
  let fr := F.mag x % 2 ^ F.mb
  if ex = 2 ^ F.eb - 1 then (if fr = 0 then .inf (F.isNeg x) else .nan)
  else if ex = 0 then .fin (F.isNeg x) fr F.emin
  else .fin (F.isNeg x) (fr + 2 ^ F.mb) (F.emin + ex - 1)

def Fmt.signed (F : Fmt) (neg : Bool) (mag : Nat) : Nat := if neg then F.signBit + mag else mag

/-- Round `m * 2^e` (plus a bit less than one unit of `2^e` if `sticky`) to nearest even and encode the
magnitude.  With `sticky` the callers supply `m` with more than `mb + 2` bits. -/
def Fmt.roundMag (F : Fmt) (m : Nat) (e : Int) (sticky : Bool) : Nat :=
  if m = 0 then 0
  else
    let e' := max F.emin (e + Nat.log2 m - F.mb)
    let q := if e' ≤ e then m * 2 ^ (e - e').toNat
      else
        let sh := (e' - e).toNat
        let q := m / 2 ^ sh
        let rem := m % 2 ^ sh
        let half := 2 ^ (sh - 1)
        if rem > half ∨ (rem = half ∧ (sticky = true ∨ q % 2 = 1)) then q + 1 else q
    let bits := (e' - F.emin).toNat * 2 ^ F.mb + q
    if bits ≥ F.infBits then F.infBits else bits

/-- Encode a rounded result. -/
def Fmt.encode (F : Fmt) (neg : Bool) (m : Nat) (e : Int) (sticky : Bool := false) : Nat :=
  F.signed neg (F.roundMag m e sticky)

def Fmt.ofFl (F : Fmt) : Fl → Nat
  | .nan => F.nanBits
  | .inf neg => F.signed neg F.infBits
  | .fin neg m e => F.encode neg m e

/-- Exact sum of two finite values; the sign of an exact zero is `+` unless both are negative. -/
def addFin (n1 : Bool) (m1 : Nat) (e1 : Int) (n2 : Bool) (m2 : Nat) (e2 : Int) : Fl :=
  let e := min e1 e2
  let a : Int := (m1 * 2 ^ (e1 - e).toNat : Nat)
  let b : Int := (m2 * 2 ^ (e2 - e).toNat : Nat)
  let s := (if n1 then -a else a) + (if n2 then -b else b)
  if s = 0 then .fin (n1 && n2) 0 e else .fin (decide (s < 0)) s.natAbs e

def Fmt.add (F : Fmt) (x y : Nat) : Nat :=
  match F.decode x, F.decode y with
  | .nan, _ | _, .nan => F.nanBits
  | .inf a, .inf b => if a = b then F.signed a F.infBits else F.nanBits
  | .inf a, _ | _, .inf a => F.signed a F.infBits
  | .fin n1 m1 e1, .fin n2 m2 e2 => F.ofFl (addFin n1 m1 e1 n2 m2 e2)

/-- Go's unary minus on floats: flip the sign bit. -/
def Fmt.neg (F : Fmt) (x : Nat) : Nat := if F.isNeg x then F.mag x else F.signBit + F.mag x

/-- `x - y`: NaN stays NaN, otherwise add the negation. -/
def Fmt.sub (F : Fmt) (x y : Nat) : Nat := F.add x (F.neg y)

def Fmt.mul (F : Fmt) (x y : Nat) : Nat :=
  match F.decode x, F.decode y with
  | .nan, _ | _, .nan => F.nanBits
  | .inf a, .inf b => F.signed (a != b) F.infBits
  | .inf a, .fin b m _ | .fin b m _, .inf a =>
    if m = 0 then F.nanBits else F.signed (a != b) F.infBits
  | .fin n1 m1 e1, .fin n2 m2 e2 => F.encode (n1 != n2) (m1 * m2) (e1 + e2)

def Fmt.div (F : Fmt) (x y : Nat) : Nat :=
  match F.decode x, F.decode y with
  | .nan, _ | _, .nan => F.nanBits
  | .inf _, .inf _ => F.nanBits
  | .inf a, .fin b _ _ => F.signed (a != b) F.infBits
  | .fin a _ _, .inf b => F.signed (a != b) 0
  | .fin n1 m1 e1, .fin n2 m2 e2 =>
    if m2 = 0 then (if m1 = 0 then F.nanBits else F.signed (n1 != n2) F.infBits)
    else
      -- enough quotient bits for rounding: at least mb+3
      let k := 2 * F.mb + 6
      F.encode (n1 != n2) (m1 * 2 ^ k / m2) (e1 - e2 - k) (m1 * 2 ^ k % m2 != 0)

/-- Integer square root by bisection on bits: `fuel` bits, from the top. -/
def isqrtAux (n : Nat) : Nat → Nat → Nat
  | 0, acc => acc
  | k + 1, acc =>
    let t := acc + 2 ^ k
    isqrtAux n k (if t * t ≤ n then t else acc)

/-- `⌊√n⌋`. -/
def isqrt (n : Nat) : Nat := isqrtAux n (Nat.log2 n / 2 + 1) 0

def Fmt.sqrt (F : Fmt) (x : Nat) : Nat :=
  match F.decode x with
  | .nan => F.nanBits
  | .inf neg => if neg then F.nanBits else F.infBits
  | .fin neg m e =>
    if m = 0 then x
    else if neg then F.nanBits
    else
      -- make the exponent even and the significand long enough
      let k := 2 * F.mb + 6 + (if (e - (2 * F.mb + 6 : Nat)) % 2 = 0 then 0 else 1)
      let n := m * 2 ^ k
      let s := isqrt n
      F.encode false s ((e - k) / 2) (s * s != n)

/-- Ordering key of a non-NaN pattern; both zeros have key 0. -/
def Fmt.key (F : Fmt) (x : Nat) : Int := if F.isNeg x then -(F.mag x : Int) else F.mag x

def Fmt.lt (F : Fmt) (x y : Nat) : Bool :=
  !F.isNaN x && !F.isNaN y && decide (F.key x < F.key y)

def Fmt.eq (F : Fmt) (x y : Nat) : Bool :=
  !F.isNaN x && !F.isNaN y && decide (F.key x = F.key y)

/-- Convert between formats. -/
def conv (F G : Fmt) (x : Nat) : Nat := G.ofFl (F.decode x)

/-- `math.Min` (Go standard library, math/dim.go). -/
def Fmt.min (F : Fmt) (x y : Nat) : Nat :=
  if x = F.signed true F.infBits ∨ y = F.signed true F.infBits then F.signed true F.infBits
  else if F.isNaN x ∨ F.isNaN y then F.nanBits
  else if F.mag x = 0 ∧ F.mag y = 0 then (if F.isNeg x then x else y)
  else if F.lt x y then x else y

/-- `math.Max` (Go standard library, math/dim.go). -/
def Fmt.maxOf (F : Fmt) (x y : Nat) : Nat :=
  if x = F.signed false F.infBits ∨ y = F.signed false F.infBits then F.signed false F.infBits
  else if F.isNaN x ∨ F.isNaN y then F.nanBits
  else if F.mag x = 0 ∧ F.mag y = 0 then (if F.isNeg x then y else x)
  else if F.lt y x then x else y

/-- `float64(n)` of an integer that is not negative. -/
def Fmt.ofNat (F : Fmt) (n : Nat) : Nat := F.encode false n 0

/-- `float64(i)` of an integer. -/
def Fmt.ofInt (F : Fmt) (i : Int) : Nat := F.encode (decide (i < 0)) i.natAbs 0

/-- `int(math.Floor(x))`.  (For NaN and infinities Go leaves the result to the machine; the model says 0.) -/
def Fmt.floor (F : Fmt) (x : Nat) : Int :=
  match F.decode x with
  | .fin neg m e =>
    let m : Int := if neg then -m else m
    if 0 ≤ e then m * 2 ^ e.toNat else m / 2 ^ (-e).toNat
  | _ => 0

def Fmt.one (F : Fmt) : Nat := (2 ^ (F.eb - 1) - 1) * 2 ^ F.mb
def Fmt.two (F : Fmt) : Nat := (2 ^ (F.eb - 1)) * 2 ^ F.mb

end Ieee
open Ieee

/-- `TV = float32`.  Functions of package `math` work on `float64`, so they convert, compute, convert
back.  `math.Pow(x, 2)` is `x*x` in `float64`. -/
def ieee32 : Num where
  V := BitVec 32
  W := BitVec 64
  zero := 0
  one := .ofNat 32 f32.one
  two := .ofNat 32 f32.two
  add x y := .ofNat 32 (f32.add x.toNat y.toNat)
  sub x y := .ofNat 32 (f32.sub x.toNat y.toNat)
  mul x y := .ofNat 32 (f32.mul x.toNat y.toNat)
  div x y := .ofNat 32 (f32.div x.toNat y.toNat)
  neg x := .ofNat 32 (f32.neg x.toNat)
  sqrt x := .ofNat 32 (conv f64 f32 (f64.sqrt (conv f32 f64 x.toNat)))
  min x y := .ofNat 32 (conv f64 f32 (f64.min (conv f32 f64 x.toNat) (conv f32 f64 y.toNat)))
  powSq x := .ofNat 32 (conv f64 f32 (f64.mul (conv f32 f64 x.toNat) (conv f32 f64 x.toNat)))
  inf := .ofNat 32 f32.infBits
  lt x y := f32.lt x.toNat y.toNat
  eq x y := f32.eq x.toNat y.toNat
  toW x := .ofNat 64 (conv f32 f64 x.toNat)
  ofW x := .ofNat 32 (conv f64 f32 x.toNat)
  oneW := .ofNat 64 f64.one
  addW x y := .ofNat 64 (f64.add x.toNat y.toNat)
  mulW x y := .ofNat 64 (f64.mul x.toNat y.toNat)
  ltW x y := f64.lt x.toNat y.toNat

/-- `TV = float64`. -/
def ieee64 : Num where
  V := BitVec 64
  W := BitVec 64
  zero := 0
  one := .ofNat 64 f64.one
  two := .ofNat 64 f64.two
  add x y := .ofNat 64 (f64.add x.toNat y.toNat)
  sub x y := .ofNat 64 (f64.sub x.toNat y.toNat)
  mul x y := .ofNat 64 (f64.mul x.toNat y.toNat)
  div x y := .ofNat 64 (f64.div x.toNat y.toNat)
  neg x := .ofNat 64 (f64.neg x.toNat)
  sqrt x := .ofNat 64 (f64.sqrt x.toNat)
  min x y := .ofNat 64 (f64.min x.toNat y.toNat)
  powSq x := .ofNat 64 (f64.mul x.toNat x.toNat)
  inf := .ofNat 64 f64.infBits
  lt x y := f64.lt x.toNat y.toNat
  eq x y := f64.eq x.toNat y.toNat
  toW x := x
  ofW x := x
  oneW := .ofNat 64 f64.one
  addW x y := .ofNat 64 (f64.add x.toNat y.toNat)
  mulW x y := .ofNat 64 (f64.mul x.toNat y.toNat)
  ltW x y := f64.lt x.toNat y.toNat

end Annoy
