import Verif.Model.Num
/-!
# Package `sort` and `interfaces.Pairs`

Slices are lists.  A Go slice shares memory with its parent slice; where the code sorts a sub-slice in
place the model puts the sorted part back.  `[]*Pair` holds pointers to pairwise distinct objects and
the code only permutes the pointers, so the list of pair values is modelled.

`sort.Slice` (Go standard library) and `sorty.SortSlice` (github.com/jfcg/sorty) are external: they
are parameters of the model.
-/
namespace Annoy
namespace Srt

variable {α : Type} [Inhabited α]

/-- `s[i]`; only used with `i < len(s)`. -/
def get (s : List α) (i : Nat) : α := s.getD i default

/-- `s[i], s[j] = s[j], s[i]` (also `Pairs.Swap`, interfaces/sorter.go:68-70). -/
def swap (s : List α) (i j : Nat) : List α := (s.set i (get s j)).set j (get s i)

variable (less : α → α → Bool)

/-- Inner loop of the selection phase (sort/partial_sort.go:24-31): index of the smallest element among
`minIndex` and the `r` positions from `j` on. -/
def findMin (s : List α) (minIndex j : Nat) : Nat → Nat
  | 0 => minIndex
  | r + 1 => findMin s (if less (get s j) (get s minIndex) then j else minIndex) (j + 1) r

/-- Selection phase (sort/partial_sort.go:23-37): `n` rounds starting at position `k = begin+i`. -/
def selectLoop (stop : Nat) (s : List α) (k : Nat) : Nat → List α
  | 0 => s
  | n + 1 =>
    let m := findMin less s k (k + 1) (stop - (k + 1))
    let s := if m ≠ k then swap s k m else s
    selectLoop stop s (k + 1) n

/-- Inner insertion loop (sort/partial_sort.go:44-46). -/
def sink (start : Nat) (s : List α) : Nat → List α
  | 0 => s
  | j + 1 =>
    if j + 1 > start ∧ less (get s (j + 1)) (get s j) = true then
      sink start (swap s (j + 1) j) j
    else s

/-- Insertion sort of `[begin, middle)` (sort/partial_sort.go:43-47): `n` rounds from position `i`. -/
def insertLoop (start : Nat) (s : List α) (i : Nat) : Nat → List α
  | 0 => s
  | n + 1 => insertLoop start (sink less start s i) (i + 1) n

/-- `PartialSortSlice` (sort/partial_sort.go:7-49).  `sortPairs` is `SortPairs` (sort/sort.go:32-51),
i.e. `sort.Slice` with `Pair.Less`. -/
def partialSortSlice (sortPairs : List α → List α) (s : List α) (start : Nat) (middle : Int)
    (stop : Nat) : List α :=
  if (start : Int) ≥ stop ∨ middle ≤ start ∨ middle > stop then s
  else
    let middle := middle.toNat
    let n := middle - start
    if stop - start > 20 ∧ stop - start < 5000000 then sortPairs s
    else
      let s := selectLoop less stop s start n
      if n > 15 then
        s.take start ++ sortPairs ((s.drop start).take n) ++ s.drop middle
      else insertLoop less start s (start + 1) (middle - (start + 1))

/-- `maxHeapify(arr, i, n)` (sort/partial_sort.go:85-102) and `heapify(arr, n, i)`
(sort/sort.go:66-83), which are the same code.  The recursion moves to a larger index below `n`, so
`n` is enough fuel. -/
def siftDown (n : Nat) : Nat → List α → Nat → List α
  | 0, s, _ => s
  | fuel + 1, s, i =>
    let largest := i
    let largest := if 2 * i + 1 < n ∧ less (get s largest) (get s (2 * i + 1)) = true
      then 2 * i + 1 else largest
    let largest := if 2 * i + 2 < n ∧ less (get s largest) (get s (2 * i + 2)) = true
      then 2 * i + 2 else largest
    if largest ≠ i then siftDown n fuel (swap s i largest) largest else s

/-- `for i := k-1; i >= 0; i-- { maxHeapify(arr, i, n) }`. -/
def heapDownFrom (n : Nat) : Nat → List α → List α
  | 0, s => s
  | k + 1, s => heapDownFrom n k (siftDown less n n s k)

/-- `buildMaxHeap(arr, n)` (sort/partial_sort.go:79-83). -/
def buildMaxHeap (s : List α) (n : Nat) : List α := heapDownFrom less n (n / 2) s

/-- Second loop of `SortPairs2` (sort/sort.go:60-63), for `i = k-1 … 0`. -/
def extractLoop : Nat → List α → List α
  | 0, s => s
  | k + 1, s => extractLoop k (siftDown less k k (swap s 0 k) 0)

/-- `SortPairs2` (sort/sort.go:53-64). -/
def sortPairs2 (s : List α) : List α := extractLoop less s.length (buildMaxHeap less s s.length)

/-- Loop of `PartialSortSlice2` (sort/partial_sort.go:68-73) over positions `i, i+1, …` (`n` of them);
`h` is the heap `s[begin:middle]`, `t` the elements from `middle` on not yet looked at, `done` those
already passed. -/
def select2Loop (hn : Nat) (h : List α) (done : List α) : List α → List α × List α
  | [] => (h, done)
  | x :: t =>
    if less x (get h 0) = true then
      select2Loop hn (siftDown less hn hn (h.set 0 x) 0) (done ++ [get h 0]) t
    else select2Loop hn h (done ++ [x]) t

/-- `PartialSortSlice2` (sort/partial_sort.go:51-77). -/
def partialSortSlice2 (sortPairs : List α → List α) (s : List α) (start : Nat) (middle : Int)
    (stop : Nat) : List α :=
  if middle - start ≥ s.length then sortPairs s
  else if (start : Int) ≥ stop ∨ middle ≤ start ∨ middle > stop then s
  else
    let middle := middle.toNat
    let n := middle - start
    let h := buildMaxHeap less ((s.drop start).take n) n
    let (h, rest) := select2Loop less n h [] ((s.drop middle).take (stop - middle))
    s.take start ++ sortPairs2 less h ++ rest ++ s.drop stop

end Srt

/-- Zero pair: what Go's `make` puts into new slots. -/
instance pairInhabited (N : Num) : Inhabited (N.V × Nat) := ⟨(N.zero, 0)⟩

/-- `Pair.Less` (interfaces/sorter.go:34-37) and `Pairs.Less` (63-66). -/
def pairLess (N : Num) (p q : N.V × Nat) : Bool :=
  N.lt p.1 q.1 || (N.eq p.1 q.1 && decide (p.2 < q.2))

end Annoy
