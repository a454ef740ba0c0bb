import Verif.Model.Sort
/-!
# `container/heap` and `PriorityQueue`

`container/heap` is part of the Go standard library (go1.20, src/container/heap/heap.go); `up`, `down`,
`Push`, `Pop` are modelled from it.  `interfaces.Pairs` (interfaces/sorter.go:59-90) supplies
`Less`, `Swap`, `Push` (append) and `Pop` (drop last).  `PriorityQueue` is sort/priority_queue.go.
-/
namespace Annoy
namespace Heap
open Srt

variable {α : Type} [Inhabited α] (less : α → α → Bool)

/-- `heap.up`: `i := (j-1)/2; if i == j || !Less(j,i) break; Swap(i,j); j = i`. `j` is enough fuel. -/
def up : Nat → List α → Nat → List α
  | 0, h, _ => h
  | fuel + 1, h, j =>
    let i := (j - 1) / 2
    if i = j ∨ less (get h j) (get h i) = false then h
    else up fuel (swap h i j) i

/-- `heap.down(h, i, n)`. -/
def down (n : Nat) : Nat → List α → Nat → List α
  | 0, h, _ => h
  | fuel + 1, h, i =>
    let j1 := 2 * i + 1
    if j1 ≥ n then h
    else
      let j2 := j1 + 1
      let j := if j2 < n ∧ less (get h j2) (get h j1) = true then j2 else j1
      if less (get h j) (get h i) = false then h
      else down n fuel (swap h i j) j

/-- `heap.Push` as used by `PriorityQueue.Push` (sort/priority_queue.go:29-31). -/
def push (h : List α) (x : α) : List α := up less (h.length + 1) (h ++ [x]) h.length

/-- `heap.Pop` as used by `PriorityQueue.Pop` (sort/priority_queue.go:33-35).  On an empty queue Go
panics (index -1); the model returns `none`. -/
def pop (h : List α) : Option (α × List α) :=
  if h.isEmpty then none
  else
    let n := h.length - 1
    let h := down less n n (swap h 0 n) 0
    some (get h n, h.take n)

/-- `PriorityQueue.Top` (sort/priority_queue.go:37-42). -/
def top (h : List α) : Option α := h.head?

end Heap
end Annoy
