/-!
# Package `utils`
-/
namespace Annoy

/-- The merge loop of `Intersection` (utils/math.go:31-42) on sorted slices. -/
def mergeCommon : List Nat → List Nat → List Nat
  | [], _ => []
  | _ :: _, [] => []
  | a :: as, b :: bs =>
    if a < b then mergeCommon as (b :: bs)
    else if a > b then mergeCommon (a :: as) bs
    else a :: mergeCommon as bs
termination_by l r => l.length + r.length

/-- `Intersection` (utils/math.go:17-45): sorts both arguments in place (`sortIds` is
`sort.SortSlice`), returns the merge and the two arguments as the call leaves them. -/
def intersection (sortIds : List Nat → List Nat) (a b : List Nat) :
    List Nat × List Nat × List Nat :=
  let a := sortIds a
  let b := sortIds b
  (mergeCommon a b, a, b)

/-- `utils.Max` (utils/math.go:10-15). -/
def umax (a b : Nat) : Nat := if a > b then a else b

end Annoy
