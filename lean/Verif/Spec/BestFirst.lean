import Verif.Spec.Tree
import Verif.Spec.Sort
/-!
# Specification: serving trees in order of their keys

A best-first walk through trees, without a heap and without memory: a frontier of trees with keys; the one with the smallest
(key, node number) is visited next; an inner node is replaced by its two subtrees.
-/
namespace Annoy

/-- What a visited node puts on the frontier: an inner node with margin `x`, visited with key `d`, its left subtree with key
`min d (-x)`, its right subtree with key `min d x`. -/
def opened (N : Num) (m : Nat → N.V) : N.V × Tree → List (N.V × Tree)
  | (d, .split i l r) => [(N.min d (N.neg (m i)), l), (N.min d (m i), r)]
  | _ => []

/-- `BestFirst N m F vs G`: starting with the frontier `F` the nodes `vs` are visited in this order, and then `G` is left. -/
inductive BestFirst (N : Num) (m : Nat → N.V) :
    List (N.V × Tree) → List (N.V × Tree) → List (N.V × Tree) → Prop
  | stop {F G} : F.Perm G → BestFirst N m F [] G
  | visit {F e F' vs G} : F.Perm (e :: F') → (∀ e' ∈ F', ¬ PairLt N (e'.1, e'.2.root) (e.1, e.2.root)) →
      BestFirst N m (opened N m e ++ F') vs G → BestFirst N m F (e :: vs) G

/-- The item numbers a visit of the root of a tree yields: those of an item or a bucket, none of an inner node. -/
def Tree.own : Tree → List Nat
  | .split _ _ _ => []
  | t => t.items

/-- The item numbers found by visiting `vs`. -/
def gathered {V : Type} (vs : List (V × Tree)) : List Nat := vs.flatMap fun e => e.2.own

/-- The walk ends when nothing is left or the budget is reached, and not before. -/
structure StopsAt {V : Type} (budget : Int) (vs G : List (V × Tree)) : Prop where
  finished : G = [] ∨ budget ≤ (gathered vs).length
  before : ∀ vs₁ e vs₂, vs = vs₁ ++ e :: vs₂ → ((gathered vs₁).length : Int) < budget

/-- Numbers of the inner nodes of a tree. -/
def Tree.splitNodes : Tree → List Nat
  | .split i l r => i :: (l.splitNodes ++ r.splitNodes)
  | _ => []

end Annoy
