import Verif.Model.Num
/-!
# Specification: orders, sorting

Independent of the sorting code.
-/
namespace Annoy

/-- The order on (distance, index) pairs as mathematics: by distance, ties by index.  `N.lt`/`N.eq` are
the floating point comparisons. -/
def PairLt (N : Num) (x y : N.V × Nat) : Prop :=
  N.lt x.1 y.1 = true ∨ (N.eq x.1 y.1 = true ∧ x.2 < y.2)

/-- `x` may stand before `y`. -/
def NotAfter {α : Type} (lt : α → α → Prop) (x y : α) : Prop := ¬ lt y x

/-- `r` is `s` with positions `[b, e)` rearranged so that `[b, m)` holds the smallest elements of the
range in ascending order. -/
structure PartiallySorted {α : Type} (lt : α → α → Prop) (s r : List α) (b m e : Nat) : Prop where
  before : r.take b = s.take b
  after : r.drop e = s.drop e
  perm : ((r.drop b).take (e - b)).Perm ((s.drop b).take (e - b))
  sorted : ((r.drop b).take (m - b)).Pairwise (NotAfter lt)
  least : ∀ x ∈ (r.drop b).take (m - b), ∀ y ∈ (r.drop m).take (e - m), NotAfter lt x y

/-- `r` is `s` in ascending order. -/
def IsSorting {α : Type} (lt : α → α → Prop) (s r : List α) : Prop :=
  r.Perm s ∧ r.Pairwise (NotAfter lt)

/-- What `sort.Slice` promises: always a permutation; ascending if `lt` is a strict weak order on the
elements (here: if all elements satisfy `P`). -/
structure SortsOn {α : Type} (lt : α → α → Prop) (P : α → Prop) (f : List α → List α) : Prop where
  perm : ∀ s, (f s).Perm s
  sorted : ∀ s, (∀ x ∈ s, P x) → (f s).Pairwise (NotAfter lt)

end Annoy

namespace Annoy

/-- Calls on a priority queue. -/
inductive QOp (α : Type) where
  | push (x : α)
  | pop

/-- What a priority queue may do: `QueueRun lt ops outs bag` means that the calls `ops` on an empty
queue may return `outs` (one entry per `pop`, `none` on an empty queue) and leave the elements `bag`.
Every `pop` returns an element no other element of the queue is smaller than. -/
inductive QueueRun {α : Type} (lt : α → α → Prop) : List (QOp α) → List (Option α) → List α → Prop where
  | start : QueueRun lt [] [] []
  | push {ops outs bag bag'} (x : α) : QueueRun lt ops outs bag → bag'.Perm (x :: bag) →
      QueueRun lt (ops ++ [.push x]) outs bag'
  | pop {ops outs bag bag'} (x : α) : QueueRun lt ops outs bag → (x :: bag').Perm bag →
      (∀ y ∈ bag, NotAfter lt x y) → QueueRun lt (ops ++ [.pop]) (outs ++ [some x]) bag'
  | popEmpty {ops outs} : QueueRun lt ops outs [] → QueueRun lt (ops ++ [.pop]) (outs ++ [none]) []

end Annoy
