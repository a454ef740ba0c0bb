import Verif.Model.Ieee
import Verif.Model.IO
import Verif.Proof.Bytes
import Mathlib.Data.List.Sort
/-!
# Concrete configurations

The configurations a user gets from the builder: IEEE arithmetic, `Kiss32Random`, angular or dot product distance.
The external sorts are instantiated by insertion sort (any correct sort gives the same result
on non-NaN data).  Used for executable sanity checks and for counterexamples.
-/
namespace Annoy

/-- `float32` / `float64` with the given bit pattern. -/
def x32 (bits : Nat) : ieee32.V := BitVec.ofNat 32 bits
def x64 (bits : Nat) : ieee64.V := BitVec.ofNat 64 bits

instance : DecidableEq ieee32.V := inferInstanceAs (DecidableEq (BitVec 32))
instance : DecidableEq ieee64.V := inferInstanceAs (DecidableEq (BitVec 64))
instance (N : Num) (x : N.V) : Decidable (N.Ordinary x) := inferInstanceAs (Decidable (N.eq x x = true))

/-- Memory representation of a bit pattern of `8*k` bits. -/
def bvCodec (k : Nat) : Codec (BitVec (8 * k)) where
  sz := k
  enc v := leBytes k v.toNat
  dec l := BitVec.ofNat (8 * k) (ofLE l)
  enc_length := by simp
  dec_enc := by
    intro v
    rw [ofLE_leBytes]
    apply BitVec.eq_of_toNat_eq
    simp

/-- Insertion sort of ids (`sorty.SortSlice`). -/
def sortNat (l : List Nat) : List Nat := l.insertionSort (· ≤ ·)

/-- Insertion sort of pairs (`sort.Slice` with `Pair.Less`, sort/sort.go:32-37). -/
def sortPairs (N : Num) (l : List (N.V × Nat)) : List (N.V × Nat) :=
  l.insertionSort (fun a b => pairLess N b a = false)

/-- An index with the angular distance (distance/angular): vector type given by `N`, `C`, index type of
`k` bytes, vectors of length `f`, generator `R`, external sorts `sortIds` (`sorty.SortSlice`) and
`sortP` (`sort.Slice`). -/
def angularCfg (N : Num) (C : Codec N.V) (R : Rng) (sortIds : List Nat → List Nat)
    (sortP : List (N.V × Nat) → List (N.V × Nat)) (k f : Nat) : Cfg where
  L := angularLayout k C.sz f
  N := N
  C := C
  R := R
  D := angular _ N _ C
  lt95 := imbalanceLt95
  le99 := imbalanceLe99
  sortIds := sortIds
  partialSort := fun s a m b =>
    Srt.partialSortSlice (pairLess N) sortP s a m b

/-- An index with the dot product distance (distance/dotproduct). -/
def dotCfg (N : Num) (C : Codec N.V) (R : Rng) (sortIds : List Nat → List Nat)
    (sortP : List (N.V × Nat) → List (N.V × Nat)) (k f : Nat) : Cfg where
  L := dotLayout k C.sz f
  N := N
  C := C
  R := R
  D := dotProduct _ N _ C
  lt95 := imbalanceLt95
  le99 := imbalanceLe99
  sortIds := sortIds
  partialSort := fun s a m b =>
    Srt.partialSortSlice (pairLess N) sortP s a m b

/-- `float32` vectors, `TIX` of `k` bytes, angular distance. -/
def angular32 (k f : Nat) : Cfg :=
  angularCfg ieee32 (bvCodec 4) (kiss32Rng (8 * k)) sortNat (sortPairs ieee32) k f

/-- `float32` vectors, dot product distance. -/
def dot32 (k f : Nat) : Cfg :=
  dotCfg ieee32 (bvCodec 4) (kiss32Rng (8 * k)) sortNat (sortPairs ieee32) k f

/-- `float64` vectors, angular distance. -/
def angular64 (k f : Nat) : Cfg :=
  angularCfg ieee64 (bvCodec 8) (kiss32Rng (8 * k)) sortNat (sortPairs ieee64) k f

/-- `float64` vectors, dot product distance. -/
def dot64 (k f : Nat) : Cfg :=
  dotCfg ieee64 (bvCodec 8) (kiss32Rng (8 * k)) sortNat (sortPairs ieee64) k f

end Annoy
