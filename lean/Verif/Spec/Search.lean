import Verif.Spec.Sort
import Verif.Spec.Cfg
/-!
# Specification: nearest neighbours

Independent of trees, queues and memory.
-/
namespace Annoy

/-- The distance between two vectors, as the distance implementation computes it for nodes that hold just these
vectors. -/
def vecDist (c : Cfg) (q v : List c.N.V) : c.N.V :=
  c.D.distance (c.D.initNode (Node.setVec c.L c.C zeros 0 q) 0) 0
    (c.D.initNode (Node.setVec c.L c.C zeros 0 v) 0) 0

/-- `(ids, ds)` is a right answer when the items `S` (any order, no duplicates) were looked at and `k` are asked for:
as many as possible but at most `k` different ones; distances belong to them; and if no distance is NaN,
they are in ascending order of (distance, index), and no item that was looked at but not returned comes before
a returned one. -/
structure TopK (N : Num) (norm : N.V → N.V) (δ : Nat → N.V) (S : List Nat) (k : Nat) (ids : List Nat)
    (ds : List N.V) : Prop where
  length : ids.length = min k S.length
  nodup : ids.Nodup
  sub : ∀ i ∈ ids, i ∈ S
  dists : ds = ids.map fun i => norm (δ i)
  sorted : (∀ i ∈ S, N.Ordinary (δ i)) → (ids.map fun i => (δ i, i)).Pairwise (PairLt N)
  least : (∀ i ∈ S, N.Ordinary (δ i)) → ∀ i ∈ ids, ∀ j ∈ S, j ∉ ids → PairLt N (δ i, i) (δ j, j)

open Classical in
/-- A linear scan: insert one item after the other into the list of the best. -/
noncomputable def scanInsert (N : Num) (δ : Nat → N.V) (i : Nat) : List Nat → List Nat
  | [] => [i]
  | j :: js => if PairLt N (δ i, i) (δ j, j) then i :: j :: js else j :: scanInsert N δ i js

/-- The `k` nearest of the items `S` by brute force. -/
noncomputable def nearest (N : Num) (δ : Nat → N.V) (S : List Nat) (k : Nat) : List Nat :=
  (S.foldr (scanInsert N δ) []).take k

end Annoy
