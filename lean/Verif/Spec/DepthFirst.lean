import Verif.Spec.BestFirst
/-!
# Specification: going through a tree depth first

Without queue, frontier and memory: below an inner node first one subtree completely, then the other.
-/
namespace Annoy

/-- The leaves of a tree in the order of a depth-first walk, each with the item numbers it yields.  An inner node with margin `x` reached
with key `d`: its left subtree has the key `min d (-x)`, its right subtree the key `min d x`, and the one with the smaller key comes
first, between equal keys the one with the smaller node number. -/
def Tree.order (N : Num) (m : Nat → N.V) : N.V → Tree → List (List Nat)
  | d, .split i l r =>
    if N.lt (N.min d (m i)) (N.min d (N.neg (m i))) = true ∨
        (N.lt (N.min d (N.neg (m i))) (N.min d (m i)) = false ∧ r.root < l.root) then
      r.order N m (N.min d (m i)) ++ l.order N m (N.min d (N.neg (m i)))
    else l.order N m (N.min d (N.neg (m i))) ++ r.order N m (N.min d (m i))
  | _, t => [t.items]

/-- Taking lists until there are `budget` numbers. -/
def takeUpTo (budget : Int) : List (List Nat) → List Nat
  | [] => []
  | l :: ls => if 0 < budget then l ++ takeUpTo (budget - l.length) ls else []

end Annoy
