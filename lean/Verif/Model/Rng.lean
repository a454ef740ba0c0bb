import Verif.Model.Num
/-!
# Random number generators

`interfaces.Random` (interfaces/random.go) as a record over a state type, and the generators of
package `random`.  Values are natural numbers; wrap-around of the Go types is explicit.
-/
namespace Annoy

/-- `interfaces.Random[TIX]` (interfaces/random.go:3-12).  A Go generator mutates itself; here each
method returns the new state.  `nextIndex` can panic (`% 0`). -/
structure Rng where
  σ : Type
  next : σ → Nat × σ
  nextSide : σ → Side × σ
  nextIndex : σ → Nat → Except Err (Nat × σ)
  setSeed : σ → Nat → σ
  getSeed : σ → Nat
  cloneAndReset : σ → σ

/-- `Kiss32Random[TIX]` (random/kiss32random.go:16-18).  The fields of the Go type have `w` bits; a number in the model stands for
its remainder mod `2 ^ w`, and `next` starts by taking it, so every value of this structure is a state of the Go type. -/
structure Kiss32 where
  x : Nat
  y : Nat
  z : Nat
  c : Nat
  seed : Nat
deriving Repr, DecidableEq, Inhabited

namespace Kiss32

/-- `NewKiss32Random` (random/kiss32random.go:22-34). -/
def new (seed : Nat) : Kiss32 :=
  let seed := if seed = 0 then 123456789 else seed
  { x := seed, y := 362436000, z := 521288629, c := 7654321, seed := seed }

/-- `Next` (random/kiss32random.go:37-49) for an index type of `w` bits.  `t` is computed in
`uint64`; the conversions `TIX(..)` cut to `w` bits. -/
def next (w : Nat) (r : Kiss32) : Nat × Kiss32 :=
  let x := (69069 * r.x + 12345) % 2 ^ w
  let y := r.y % 2 ^ w
  let y := y ^^^ ((y <<< 13) % 2 ^ w)
  let y := y ^^^ (y >>> 17)
  let y := y ^^^ ((y <<< 5) % 2 ^ w)
  let t := (698769069 + r.z % 2 ^ w + r.c % 2 ^ w) % 2 ^ 64
  let c := (t >>> 32) % 2 ^ w
  let z := t % 2 ^ w
  ((x + y + z) % 2 ^ w, { r with x := x, y := y, z := z, c := c })

/-- `NextBool` (random/kiss32random.go:51-53). -/
def nextBool (w : Nat) (r : Kiss32) : Bool × Kiss32 :=
  let (n, r) := next w r
  (n &&& 1 == 1, r)

/-- `NextSide` (random/kiss32random.go:55-60). -/
def nextSide (w : Nat) (r : Kiss32) : Side × Kiss32 :=
  let (b, r) := nextBool w r
  (if b then .left else .right, r)

/-- `NextIndex` (random/kiss32random.go:62-64): `Next() % n`, which panics for `n = 0`. -/
def nextIndex (w : Nat) (r : Kiss32) (n : Nat) : Except Err (Nat × Kiss32) :=
  let (v, r) := next w r
  if n = 0 then .error (.panic "integer divide by zero") else .ok (v % n, r)

/-- `SetSeed` (random/kiss32random.go:66-69): only `x` and `seed` change. -/
def setSeed (r : Kiss32) (seed : Nat) : Kiss32 := { r with x := seed, seed := seed }

/-- `GetSeed` (random/kiss32random.go:71-73). -/
def getSeed (r : Kiss32) : Nat := r.seed

/-- `CloneAndReset` (random/kiss32random.go:75-77). -/
def cloneAndReset (r : Kiss32) : Kiss32 := new r.seed

end Kiss32

/-- `Kiss32Random[TIX]` as `interfaces.Random[TIX]`, `w` = number of bits of `TIX`. -/
def kiss32Rng (w : Nat) : Rng where
  σ := Kiss32
  next := Kiss32.next w
  nextSide := Kiss32.nextSide w
  nextIndex := Kiss32.nextIndex w
  setSeed := Kiss32.setSeed
  getSeed := Kiss32.getSeed
  cloneAndReset := Kiss32.cloneAndReset

/-- A generator that returns an arbitrary stream of numbers, cut to an index (`% n`) or to the lowest bit the
way the generators of the repository do.  Stands for any generator under races, see
`Verif.Model.Conc`. -/
def oracleRng : Rng where
  σ := Nat → Nat
  next s := (s 0, fun i => s (i + 1))
  nextSide s := (if s 0 &&& 1 == 1 then .left else .right, fun i => s (i + 1))
  nextIndex s n := if n = 0 then .error (.panic "integer divide by zero") else .ok (s 0 % n, fun i => s (i + 1))
  setSeed s _ := s
  getSeed _ := 0
  cloneAndReset s := s

/-- `Kiss64Random` (random/kiss64random.go:16-18).  As for `Kiss32`, a number stands for its remainder mod `2 ^ 64`. -/
structure Kiss64 where
  x : Nat
  y : Nat
  z : Nat
  c : Nat
  seed : Nat
deriving Repr, DecidableEq, Inhabited

namespace Kiss64

/-- `NewKiss64Random` (random/kiss64random.go:20-32). -/
def new (seed : Nat) : Kiss64 :=
  let seed := if seed = 0 then 1234567890987654321 else seed
  { x := seed, y := 362436362436362436, z := 1066149217761810, c := 123456123456123456,
    seed := seed }

/-- `Next` (random/kiss64random.go:34-50), all in `uint64`. -/
def next (r : Kiss64) : Nat × Kiss64 :=
  let z := (6906969069 * r.z + 1234567) % 2 ^ 64
  let y := r.y % 2 ^ 64
  let y := y ^^^ ((y <<< 13) % 2 ^ 64)
  let y := y ^^^ (y >>> 17)
  let y := y ^^^ ((y <<< 43) % 2 ^ 64)
  let t := ((r.x <<< 58) % 2 ^ 64 + r.c) % 2 ^ 64
  let c := (r.x % 2 ^ 64) >>> 6
  let x := (r.x + t) % 2 ^ 64
  let c := if x < t then (c + 1) % 2 ^ 64 else c
  ((x + y + z) % 2 ^ 64, { r with x := x, y := y, z := z, c := c })

/-- `NextSide` (random/kiss64random.go:52-61). -/
def nextSide (r : Kiss64) : Side × Kiss64 :=
  let (n, r) := next r
  (if n &&& 1 == 1 then .left else .right, r)

/-- `NextIndex` (random/kiss64random.go:63-65). -/
def nextIndex (r : Kiss64) (n : Nat) : Except Err (Nat × Kiss64) :=
  let (v, r) := next r
  if n = 0 then .error (.panic "integer divide by zero") else .ok (v % n, r)

/-- `SetSeed` (random/kiss64random.go:67-70). -/
def setSeed (r : Kiss64) (seed : Nat) : Kiss64 := { r with x := seed, seed := seed }

/-- `GetSeed` (random/kiss64random.go:72-74). -/
def getSeed (r : Kiss64) : Nat := r.seed

/-- `CloneAndReset` (random/kiss64random.go:76-78).  In Go it returns `*Kiss64Random`, so the type
does not implement `interfaces.Random`; the model only uses it as a stand-alone generator. -/
def cloneAndReset (r : Kiss64) : Kiss64 := new r.seed

end Kiss64
end Annoy
