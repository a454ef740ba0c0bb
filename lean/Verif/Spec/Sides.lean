import Verif.Spec.Tree
import Verif.Model.Index
/-!
# Specification: why the items of a tree are where they are

A stored inner node was cut out of a temporary node, the hyperplane.  `Sided` says of a tree in memory that every inner
node comes from a hyperplane made of the items below it, and that the items below its left child are those which that
hyperplane sends left, the items below its right child those it sends right - unless the hyperplane was given up for a
random division.
-/
namespace Annoy

/-- The hyperplane `m` sends item `i` to side `sd`, for some state of the generator. -/
def SentTo (c : Cfg) (b m : Bytes) (i : Nat) (sd : Side) : Prop :=
  ∃ r r', c.D.side m (Node.vec c.L c.C b (i * c.L.nodeSize)) r = .ok (sd, r')

/-- The hyperplane `m` sends the items `l` left and the items `rt` right. -/
def Divides (c : Cfg) (b m : Bytes) (l rt : List Nat) : Prop :=
  (∀ i ∈ l, SentTo c b m i .left) ∧ ∀ i ∈ rt, SentTo c b m i .right

/-- The bytes of a temporary node before an attempt: fresh, or as earlier attempts left them. -/
inductive Scratch (c : Cfg) : Bytes → Prop
  | fresh : Scratch c zeros
  | used {m d : Bytes} {addrs : List Nat} {r : c.R.σ} {m' : Bytes} {r' : c.R.σ} : Scratch c m →
      c.D.createSplit d addrs r m = .ok (m', r') → Scratch c m'

/-- `CreateSplit` made the hyperplane `m` for the items `ids`, seeing the `n` item slots of `b`. -/
def CutFor (c : Cfg) (b : Bytes) (n : Nat) (ids : List Nat) (m : Bytes) : Prop :=
  ∃ d r m0 r', (∀ x, x < n * c.L.nodeSize → d x = b x) ∧ Scratch c m0 ∧
    c.D.createSplit d (ids.map (· * c.L.nodeSize)) r m0 = .ok (m, r')

/-- `CreateSplit` made `m'` out of the temporary node `m` for the items `ids`, seeing the `n` item slots of `b`. -/
def CutFrom (c : Cfg) (b : Bytes) (n : Nat) (ids : List Nat) (m m' : Bytes) : Prop :=
  ∃ d r r', (∀ x, x < n * c.L.nodeSize → d x = b x) ∧ c.D.createSplit d (ids.map (· * c.L.nodeSize)) r m = .ok (m', r')

/-- `k` hyperplanes in a row were made for the items, and each divided them badly; the last one left `m` in the temporary node. -/
inductive Spoilt (c : Cfg) (b : Bytes) (n : Nat) (ids : List Nat) : Nat → Bytes → Prop
  | none : Spoilt c b n ids 0 zeros
  | more {k : Nat} {m m' : Bytes} {l rt : List Nat} : Spoilt c b n ids k m → CutFrom c b n ids m m' → (l ++ rt).Perm ids →
      Divides c b m' l rt → c.lt95 l.length rt.length = false → Spoilt c b n ids (k + 1) m'

/-- The hyperplane `m` divides the items into `l` and `rt`.  Fewer than three were tried before it, none of them good; it is good, or
the third. -/
def LastTry (c : Cfg) (b : Bytes) (n : Nat) (ids : List Nat) (m : Bytes) (l rt : List Nat) : Prop :=
  ∃ k m0, k < 3 ∧ Spoilt c b n ids k m0 ∧ CutFrom c b n ids m0 m ∧ (l ++ rt).Perm ids ∧ Divides c b m l rt ∧
    (c.lt95 l.length rt.length = true ∨ k = 2)

/-- `m` is the temporary node of a division of items into `l` and `rt`: the last hyperplane tried for these items, which divides
them, or whose vector was set to zero because it divided them too badly, and the items were divided at random.  The division passed the
test of balance. -/
def DivisionBy (c : Cfg) (b : Bytes) (n : Nat) (m : Bytes) (l rt : List Nat) : Prop :=
  c.le99 l.length rt.length = true ∧ ∃ ids, ids.Perm (l ++ rt) ∧
    (LastTry c b n ids m l rt ∨ ∃ m0 l0 rt0, LastTry c b n ids m0 l0 rt0 ∧ c.le99 l0.length rt0.length = false ∧
      m = Node.setVec c.L c.C m0 0 (List.replicate c.L.f c.N.zero))

/-- Node number `i` keeps what `CopyNode` copied of `m` (`vectorLength` bytes) behind count and children. -/
def KeptFrom (c : Cfg) (b : Bytes) (i : Nat) (m : Bytes) : Prop :=
  ∀ j, 3 * c.L.szIX ≤ j → j < c.L.f → b (i * c.L.nodeSize + j) = m j

/-- Every inner node of the tree is cut out of the division of its items.  (The inner node over a lonely item is blank
instead.) -/
def Sided (c : Cfg) (b : Bytes) (n : Nat) : Tree → Prop
  | .split i l r =>
    ((∃ m, DivisionBy c b n m l.items r.items ∧ KeptFrom c b i m) ∧ Sided c b n l ∧ Sided c b n r) ∨
    ((∃ j k, l = .item j ∧ r = .hole k) ∧ BlankFrom c.L b i (3 * c.L.szIX))
  | _ => True

/-- Item `x` lies on the left of the stored inner node `i`, the way a search reads it: its margin is not positive. -/
def LeftOf (c : Cfg) (b : Bytes) (i x : Nat) : Prop :=
  ∃ m, c.D.margin b (i * c.L.nodeSize) (Node.vec c.L c.C b (x * c.L.nodeSize)) = .ok m ∧ c.N.lt c.N.zero m = false

/-- Item `x` lies on the right of the stored inner node `i`: its margin is not negative (and not NaN). -/
def RightOf (c : Cfg) (b : Bytes) (i x : Nat) : Prop :=
  ∃ m, c.D.margin b (i * c.L.nodeSize) (Node.vec c.L c.C b (x * c.L.nodeSize)) = .ok m ∧
    (c.N.lt c.N.zero m = true ∨ c.N.eq m c.N.zero = true)

/-- Every stored inner node separates the items below its two children. -/
def Separated (c : Cfg) (b : Bytes) : Tree → Prop
  | .split i l r => (∀ x ∈ l.items, LeftOf c b i x) ∧ (∀ x ∈ r.items, RightOf c b i x) ∧
      Separated c b l ∧ Separated c b r
  | _ => True

/-- The inner nodes of a tree, each with its two subtrees. -/
def Tree.splits : Tree → List (Nat × Tree × Tree)
  | .split i l r => (i, l, r) :: (l.splits ++ r.splits)
  | _ => []

/-- A well formed subtree with its reasons. -/
def SidedTree (c : Cfg) (b : Bytes) (n : Nat) (t : Tree) : Prop := SubTree c.L b n t ∧ Sided c b n t

/-- A well formed complete tree with its reasons. -/
def SidedRoot (c : Cfg) (b : Bytes) (n : Nat) (live : List Nat) (t : Tree) : Prop :=
  RootTree c.L b n live t ∧ Sided c b n t

end Annoy
