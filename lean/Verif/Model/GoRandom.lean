import Verif.Model.Rng
/-!
# `random.GoRandom`

random/gorand.go wraps `math/rand` of the Go standard library.  The wrapper is modelled completely, except `NormFloat64`.  Of the library
the model has `Rand.Intn` and what it calls (math/rand/rand.go); the additive generator behind `rand.NewSource` is a parameter.  The clock
readings `time.Now().UnixNano()` are arguments.

`GoRandom` is no `interfaces.Random` (its `CloneAndReset` returns `*GoRandom`), so it cannot be given to an index.  `cmd/precision`
and the tests draw their vectors from it.
-/
namespace Annoy

/-- A `rand.Source`: `Seed` fixes the state, `Int63` draws. -/
structure Source where
  σ : Type
  seed : Int → σ
  int63 : σ → Nat × σ

namespace Source
variable (S : Source)

/-- `Rand.Int31` (math/rand): `int32(r.Int63() >> 32)`. -/
def int31 (s : S.σ) : Nat × S.σ := ((S.int63 s).1 >>> 32, (S.int63 s).2)

/-- What `Int31n` (`top = 2^31`) and `Int63n` (`top = 2^63`) of math/rand make of one draw `v`: a mask for powers of two, otherwise a remainder
unless `v` is above the last multiple of `n`; `none` means "draw again". -/
def keep (top n v : Nat) : Option Nat :=
  if n &&& (n - 1) = 0 then some (v &&& (n - 1))
  else if v > top - 1 - top % n then none else some (v % n)

/-- The loop of `Int31n` and `Int63n`.  The fuel bounds the number of draws. -/
def loop (draw : S.σ → Nat × S.σ) (top n : Nat) : Nat → S.σ → Except Err (Nat × S.σ)
  | 0, _ => .error .diverge
  | fuel + 1, s =>
    match keep top n (draw s).1 with
    | some v => .ok (v, (draw s).2)
    | none => loop draw top n fuel (draw s).2

/-- `Rand.Intn` (math/rand). -/
def intn (fuel : Nat) (s : S.σ) (n : Nat) : Except Err (Nat × S.σ) :=
  if n = 0 then .error (.panic "invalid argument to Intn")
  else if n ≤ 2 ^ 31 - 1 then S.loop S.int31 (2 ^ 31) n fuel s
  else S.loop S.int63 (2 ^ 63) n fuel s

end Source

/-- `GoRandom` (random/gorand.go:10-13). -/
structure GoRandom (S : Source) where
  rng : S.σ
  seed : Nat

namespace GoRandom
variable {S : Source}

/-- `NewGoRandomWithSeed` (gorand.go:19-25); `now` is the clock.  The source is seeded with the clock. -/
def newWithSeed (S : Source) (now : Int) (seed : Nat) : GoRandom S := ⟨S.seed now, seed⟩

/-- `NewGoRandom` (gorand.go:15-17): two readings of the clock. -/
def new (S : Source) (now1 now2 : Int) : GoRandom S := newWithSeed S now2 (now1 % 2 ^ 32).toNat

/-- Draw with `Intn`. -/
def draw (fuel : Nat) (r : GoRandom S) (n : Nat) : Except Err (Nat × GoRandom S) :=
  match S.intn fuel r.rng n with
  | .ok (v, s) => .ok (v, { r with rng := s })
  | .error e => .error e

/-- `Next` (gorand.go:27-29). -/
def next (fuel : Nat) (r : GoRandom S) : Except Err (Nat × GoRandom S) := r.draw fuel 0x7fffffff

/-- `NextBool` (gorand.go:31-33). -/
def nextBool (fuel : Nat) (r : GoRandom S) : Except Err (Bool × GoRandom S) :=
  match r.draw fuel 2 with
  | .ok (v, r) => .ok (v == 1, r)
  | .error e => .error e

/-- `NextSide` (gorand.go:35-40). -/
def nextSide (fuel : Nat) (r : GoRandom S) : Except Err (Side × GoRandom S) :=
  match r.nextBool fuel with
  | .ok (b, r) => .ok (if b then .left else .right, r)
  | .error e => .error e

/-- `NextIndex` (gorand.go:46-48). -/
def nextIndex (fuel : Nat) (r : GoRandom S) (n : Nat) : Except Err (Nat × GoRandom S) := r.draw fuel n

/-- `GetSeed` (gorand.go:50-52). -/
def getSeed (r : GoRandom S) : Nat := r.seed

/-- `SetSeed` (gorand.go:54-56): the field `seed` stays. -/
def setSeed (r : GoRandom S) (seed : Nat) : GoRandom S := { r with rng := S.seed seed }

/-- `CloneAndReset` (gorand.go:58-60); `now` is the clock. -/
def cloneAndReset (r : GoRandom S) (now : Int) : GoRandom S := newWithSeed S now r.seed

end GoRandom
end Annoy
