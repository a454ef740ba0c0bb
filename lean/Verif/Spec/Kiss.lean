/-!
# The KISS generators as published

Written from the publications that the repository cites (random/kiss32random.go:7-15, random/kiss64random.go:7-15), with 32-bit and
64-bit machine words, independently of `Verif.Model.Rng`.
-/
namespace Annoy.Published

/-- State of Marsaglia's KISS: a linear congruential number, a xorshift number and a multiply-with-carry pair. -/
structure Kiss where
  lcg : BitVec 32
  shr : BitVec 32
  mwc : BitVec 32
  carry : BitVec 32
deriving DecidableEq

/-- A multiply-with-carry step with multiplier 698769069: the 64-bit number `698769069 * mwc + carry`, its low half and its high half. -/
def mwc32 (z c : BitVec 32) : BitVec 32 × BitVec 32 :=
  let t : BitVec 64 := 698769069#64 * z.setWidth 64 + c.setWidth 64
  (t.setWidth 32, (t >>> 32).setWidth 32)

/-- The linear congruential step. -/
def lcg32 (x : BitVec 32) : BitVec 32 := 69069#32 * x + 12345#32

/-- The three-shift step. -/
def shr32 (y : BitVec 32) : BitVec 32 :=
  let y := y ^^^ (y <<< 13)
  let y := y ^^^ (y >>> 17)
  y ^^^ (y <<< 5)

/-- One step of KISS (G. Marsaglia, 2003): the sum of the three. -/
def Kiss.step (s : Kiss) : BitVec 32 × Kiss :=
  let x := lcg32 s.lcg
  let y := shr32 s.shr
  let m := mwc32 s.mwc s.carry
  (x + y + m.1, ⟨x, y, m.1, m.2⟩)

/-- The published start values, which are also those of `NewKiss32Random(0)`. -/
def Kiss.start : Kiss := ⟨123456789#32, 362436000#32, 521288629#32, 7654321#32⟩

/-- The three-shift step of the 64-bit KISS (G. Marsaglia, 2009). -/
def shr64 (y : BitVec 64) : BitVec 64 :=
  let y := y ^^^ (y <<< 13)
  let y := y ^^^ (y >>> 17)
  y ^^^ (y <<< 43)

end Annoy.Published
