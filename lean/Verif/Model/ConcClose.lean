import Verif.Model.ConcSearch
import Verif.Model.IO
/-!
# `Close` while the index is searched

`Close` (index/annoyindex.go:117-138) takes no lock and searches take none.  Here `Close` is cut into the steps that a search can tell apart, and calls of
`GetNnsByVector` take their steps in between.  A turn of a loop of a search is two steps: it evaluates `idx._nodes` (index/annoyindex_search.go:100, 164),
then it does the rest of the turn, reading `idx._n_items` (105) and the memory behind the pointer it got.

The memory behind the pointer: an arena of the build allocator or a file read into the heap stays as long as somebody points to it (garbage collector); a mapping
of a file is gone when `Close` has given it back (index/memory/index_allocator_mmap.go:33-53), and reading it then is a fault.

Simplifications: a search reads the slice `idx._roots` at once (lines 83-91); the second half of a turn is one step (there is one read of a field of the index
in it, and a mapping that vanishes in the middle of it is a fault one read later than here).
-/
namespace Annoy
namespace ConcClose
open ConcSearch
variable (c : Cfg)

/-- A goroutine in `GetNnsByVector`: the arguments, the number of its context, and, when it has read the roots, these, where it is, and in the middle of
a turn the memory it got. -/
structure Search where
  query : List c.N.V
  numReturn : Int
  numInspect : Int
  ctx : Nat
  at? : Option (List Nat × Task c × Option Block)

/-- The fields of the index that searches read (`nodes` is the memory behind `_nodes`, empty for nil), whether the memory is still there, how many steps
`Close` has taken, and the goroutines that search. -/
structure State where
  nodes : Block
  nItems : Nat
  roots : List Nat
  alive : Bool
  pc : Nat
  ctxs : Nat → Ctx c
  searches : List (Search c)

variable {c}

/-- Whether the nodes of an index are in a mapping of a file. -/
def mapped (s : Idx c) : Bool :=
  match s.nodes with
  | .file (.mmap _ _) => true
  | _ => false

/-- A step of `Close` (annoyindex.go:117-138). -/
def State.close (mapping : Bool) (x : State c) : State c :=
  match x.pc with
  | 0 => { x with alive := !mapping, pc := 1 }            -- 120-127
  | 1 => { x with nodes := ⟨0, zeros⟩, pc := 2 }          -- 129
  | 2 => { x with nItems := 0, pc := 3 }                  -- 131
  | 3 => { x with roots := [], pc := 4 }                  -- 135
  | _ => x

/-- A step of search number `n`. -/
def State.search (x : State c) (n : Nat) : State c :=
  match x.searches[n]? with
  | none => x
  | some t =>
    match t.at? with
    | none =>                                                                       -- 80-91
      { x with searches := x.searches.set n { t with at? := some (x.roots, .collect (Search.initQueue c x.roots) 0, none) } }
    | some (roots, task, none) =>                                                   -- 100, 164: `idx._nodes`
      { x with searches := x.searches.set n { t with at? := some (roots, task, some x.nodes) } }
    | some (roots, task, some b) =>                                                 -- the rest of the turn
      let k : Call c := ⟨if x.alive then b else ⟨0, zeros⟩, x.nItems, roots, t.query, t.numReturn, t.numInspect⟩
      let (task', ctx) := k.step task (x.ctxs t.ctx)
      { x with
        ctxs := fun i => if i = t.ctx then ctx else x.ctxs i
        searches := x.searches.set n { t with at? := some (roots, task', none) } }

/-- A step of `Close` (`none`) or of a search. -/
def State.step (mapping : Bool) (x : State c) : Option Nat → State c
  | none => x.close mapping
  | some n => x.search n

/-- The steps of a schedule. -/
def State.run (mapping : Bool) (x : State c) (schedule : List (Option Nat)) : State c := schedule.foldl (State.step mapping) x

/-- The moment before `Close` and the searches begin. -/
def State.start (s : Idx c) (w : World) (ctxs : Nat → Ctx c) (calls : List (List c.N.V × Int × Int × Nat)) : State c :=
  ⟨s.mem w, s.nItems, s.roots, true, 0, ctxs, calls.map fun q => ⟨q.1, q.2.1, q.2.2.1, q.2.2.2, none⟩⟩

end ConcClose
end Annoy
