import Verif.Spec.Layout
/-!
# Specification: trees in node memory

What it means that a memory holds a tree.  Independent of how the tree was built.
-/
namespace Annoy

/-- A tree as a value: an item, an empty slot, a bucket of items, an inner node.  The first number is
the node number. -/
inductive Tree where
  | item (i : Nat)
  | hole (i : Nat)
  | bucket (i : Nat) (ids : List Nat)
  | split (i : Nat) (l r : Tree)
deriving Repr, DecidableEq

namespace Tree

/-- Node number of the root. -/
def root : Tree → Nat
  | item i => i
  | hole i => i
  | bucket i _ => i
  | split i _ _ => i

/-- The item numbers a walk reaches, from left to right. -/
def items : Tree → List Nat
  | item i => [i]
  | hole _ => []
  | bucket _ ids => ids
  | split _ l r => l.items ++ r.items

/-- The node numbers used by the tree itself (buckets and inner nodes). -/
def inner : Tree → List Nat
  | item _ => []
  | hole _ => []
  | bucket i _ => [i]
  | split i l r => l.inner ++ r.inner ++ [i]

/-- Number of nodes a complete walk visits. -/
def size : Tree → Nat
  | item _ => 1
  | hole _ => 1
  | bucket _ _ => 1
  | split _ l r => l.size + r.size + 1

/-- All node numbers a walk visits. -/
def nodes : Tree → List Nat
  | item i => [i]
  | hole i => [i]
  | bucket i _ => [i]
  | split i l r => i :: (l.nodes ++ r.nodes)

end Tree

/-- Number of descendants stored in node number `i`. -/
abbrev ndAt (L : Layout) (b : Bytes) (i : Nat) : Nat := Node.nDesc L b (i * L.nodeSize)

/-- Child `k` of node number `i`. -/
abbrev childAt (L : Layout) (b : Bytes) (i k : Nat) : Nat := Node.child L b (i * L.nodeSize) k

/-- All children of node number `i`. -/
abbrev childrenAt (L : Layout) (b : Bytes) (i : Nat) : List Nat :=
  Node.getChildren L b (i * L.nodeSize)

/-- Node number `i` is an item of an index with `n` item slots. -/
def IsItem (L : Layout) (b : Bytes) (n i : Nat) : Prop := i < n ∧ ndAt L b i = 1

/-- Memory `b` holds the tree `t`, read the way a search reads it: a node with one descendant below
`n` is an item; any other node with at most `K` descendants is a bucket; any other node is an inner
node with two children. -/
def Holds (L : Layout) (b : Bytes) (n : Nat) : Tree → Prop
  | .item i => IsItem L b n i
  | .hole i => ndAt L b i = 0
  | .bucket i ids => ¬ IsItem L b n i ∧ ndAt L b i ≤ L.K ∧ childrenAt L b i = ids
  | .split i l r => L.K < ndAt L b i ∧ childAt L b i 0 = l.root ∧ childAt L b i 1 = r.root ∧
      Holds L b n l ∧ Holds L b n r

/-- A complete walk from node `i`, the way a search goes through a tree, but without a queue: the item numbers
reached, from left to right; `none` if the walk does not end within `fuel` levels. -/
def walk (L : Layout) (b : Bytes) (n : Nat) : Nat → Nat → Option (List Nat)
  | 0, _ => none
  | fuel + 1, i =>
    if ndAt L b i = 1 ∧ i < n then some [i]
    else if ndAt L b i ≤ L.K then some (childrenAt L b i)
    else do
      let l ← walk L b n fuel (childAt L b i 0)
      let r ← walk L b n fuel (childAt L b i 1)
      some (l ++ r)

/-- The bytes of node `i` from offset `o` on are zero. -/
def BlankFrom (L : Layout) (b : Bytes) (i o : Nat) : Prop := ∀ j, o ≤ j → j < L.nodeSize → b (i * L.nodeSize + j) = 0

/-- Node number `i` leads only downwards: a bucket to item slots, an inner node to nodes before it.  An inner node is
blank from byte `vectorLength` on (or behind its first child, if that is later). -/
def Downward (L : Layout) (b : Bytes) (n i : Nat) : Prop :=
  (ndAt L b i ≤ L.K → ∀ x ∈ childrenAt L b i, x < n) ∧
  (L.K < ndAt L b i → childAt L b i 0 < i ∧ childAt L b i 1 < i) ∧
  (L.K < ndAt L b i → BlankFrom L b i (max L.f (2 * L.szIX)))

/-- Well formed subtree (below the root): children come before their parents, counts are exact, buckets
hold at least two and at most `K` items, inner nodes more than `K`, no empty subtree. -/
def SubTree (L : Layout) (b : Bytes) (n : Nat) : Tree → Prop
  | .item i => IsItem L b n i
  | .hole _ => False
  | .bucket i ids => n ≤ i ∧ 2 ≤ ids.length ∧ ids.length ≤ L.K ∧ ndAt L b i = ids.length ∧
      childrenAt L b i = ids ∧ ∀ x ∈ ids, IsItem L b n x
  | .split i l r => n ≤ i ∧ l.root < i ∧ r.root < i ∧ L.K < ndAt L b i ∧
      ndAt L b i = (l.items ++ r.items).length ∧
      childAt L b i 0 = l.root ∧ childAt L b i 1 = r.root ∧
      l.items ≠ [] ∧ r.items ≠ [] ∧ SubTree L b n l ∧ SubTree L b n r

/-- Well formed complete tree over the items `live` of an index with `n` slots.  The root counts the
slots, not the items.

* up to `K` slots: one bucket, holding the items and, if slots are unused, zeros behind them;
* more slots: an inner node over two subtrees; if there is only one item, an inner node over that item and
  the unused slot 0. -/
def RootTree (L : Layout) (b : Bytes) (n : Nat) (live : List Nat) : Tree → Prop
  | .bucket i ids => n ≤ i ∧ n ≤ L.K ∧ ndAt L b i = n ∧ childrenAt L b i = ids ∧
      ∃ l, l.Perm live ∧ ids = l ++ List.replicate (n - l.length) 0
  | .split i l r => n ≤ i ∧ l.root < i ∧ r.root < i ∧ L.K < n ∧ ndAt L b i = n ∧
      childAt L b i 0 = l.root ∧ childAt L b i 1 = r.root ∧
      ((l.items ≠ [] ∧ r.items ≠ [] ∧ (l.items ++ r.items).Perm live ∧
          SubTree L b n l ∧ SubTree L b n r) ∨
        ∃ j, live = [j] ∧ IsItem L b n j ∧ l = .item j ∧ r = .hole 0 ∧ ndAt L b 0 = 0)
  | _ => False

end Annoy
