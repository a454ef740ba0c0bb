import Verif.Spec.Layout
import Verif.Model.Search
/-!
# Specification: contracts of the pluggable parts of an index

The index-level theorems hold for every distance implementation, generator, arithmetic and sorter that
meets these contracts.  The implementations of the repository are shown to meet them in
`Verif.Proof.Instances`.
-/
namespace Annoy

/-- Two nodes are the same item: same vector, same bytes in the two child slots (which hold the cached
norm of an item). -/
def SameItem (c : Cfg) (b : Bytes) (a : Nat) (b' : Bytes) (a' : Nat) : Prop :=
  Node.vec c.L c.C b a = Node.vec c.L c.C b' a' ∧
  ∀ j, c.L.szIX ≤ j → j < 3 * c.L.szIX → b (a + j) = b' (a' + j)

/-- Pairs in ascending order: `y` is not less than `x`. -/
def PairLe (N : Num) (x y : N.V × Nat) : Prop := pairLess N y x = false

/-- The contracts. -/
structure Cfg.WF (c : Cfg) : Prop where
  layout : c.L.Ok c.C.sz
  /-- `InitNode` writes at most the two child slots, and what it writes depends on the vector only. -/
  initNode : ∃ w, w ≤ 2 * c.L.szIX ∧
    (∀ b a x, (x < a + c.L.szIX ∨ a + c.L.szIX + w ≤ x) → c.D.initNode b a x = b x) ∧
    (∀ b a b' a', Node.vec c.L c.C b a = Node.vec c.L c.C b' a' →
      ∀ j, j < w → c.D.initNode b a (a + c.L.szIX + j) = c.D.initNode b' a' (a' + c.L.szIX + j))
  /-- `PreProcess` only writes between the child slots and the vector of the first `n` nodes. -/
  preProcess : ∀ b n x,
    (∀ i, i < n → ¬ (c.L.addr i + 3 * c.L.szIX ≤ x ∧ x < c.L.addr i + c.L.offV)) →
    c.D.preProcess b n x = b x
  /-- `Distance` only looks at vectors and cached norms. -/
  distance : ∀ b a b' a' d e d' e', SameItem c b a d e → SameItem c b' a' d' e' →
    c.D.distance b a b' a' = c.D.distance d e d' e'
  /-- `Margin` only looks at the node it is given. -/
  margin : ∀ b a b' a' v, (∀ j, j < c.L.nodeSize → b (a + j) = b' (a' + j)) →
    c.D.margin b a v = c.D.margin b' a' v
  /-- `CreateSplit` only looks at the nodes it is given. -/
  createSplit : ∀ b b' addrs r m, (∀ a ∈ addrs, ∀ j, j < c.L.nodeSize → b (a + j) = b' (a + j)) →
    c.D.createSplit b addrs r m = c.D.createSplit b' addrs r m
  /-- A split with an empty side is never accepted. -/
  le99 : ∀ l r, c.le99 l r = true → 0 < l ∧ 0 < r
  /-- `SortSlice` sorts. -/
  sortIds_perm : ∀ l, (c.sortIds l).Perm l
  sortIds_sorted : ∀ l, (c.sortIds l).Pairwise (· ≤ ·)
  /-- `PartialSortSlice(s, 0, m, len(s))` permutes … -/
  partialSort_perm : ∀ l m, (c.partialSort l 0 m l.length).Perm l
  /-- … and puts the `m` smallest in front, in order, if no NaN is involved. -/
  partialSort_sorted : ∀ l (m : Nat), (∀ p ∈ l, c.N.Ordinary p.1) → m ≤ l.length →
    ((c.partialSort l 0 m l.length).take m).Pairwise (PairLe c.N) ∧
    ∀ p ∈ (c.partialSort l 0 m l.length).take m, ∀ q ∈ (c.partialSort l 0 m l.length).drop m,
      PairLe c.N p q

end Annoy
