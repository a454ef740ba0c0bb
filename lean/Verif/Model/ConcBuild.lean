import Verif.Model.ConcSave
import Verif.Model.Conc
import Mathlib.Logic.Relation
/-!
# Searches while `Build` runs

Searches take no lock and do not look at `indexBuilt`, so nothing keeps a goroutine from searching while another one builds.  `GetNnsByVector`
(index/annoyindex_search.go:75-199) reads `idx._roots` at its beginning and `idx._nodes` and `idx._n_items` in every turn of its loops; a worker appends its
roots to `idx._roots` with its last action (index/annoyindex.go:282-284).  Here the goroutine in `Build`, the workers, and calls of `GetNnsByVector`
take their steps (Model/Conc.lean, Model/ConcSearch.lean) in any order.

Simplifications: the beginning of `Build` (annoyindex.go:182-193), the end of it (197-233), the beginning of a search (82-91) and each turn of the loops of a
search are one step each; the slice `idx._roots` is read and written as a whole.  A turn reads `idx._nodes` and the node behind it in one step; with an allocator that returns the old memory to the system, a turn
that is interrupted by a growth of the memory reads memory that is gone.
-/
namespace Annoy
namespace ConcBuild
open ConcSearch
variable (c : Cfg)

/-- Where `Build` (annoyindex.go:181-234) is. -/
inductive Phase where
  /-- line 181 -/
  | before
  /-- line 195, until all workers are done -/
  | working
  /-- `Build` returned -/
  | after
deriving DecidableEq

/-- The index, the goroutine in `Build`, the workers, and the goroutines that search. -/
structure State where
  idx : Idx c
  phase : Phase
  ths : List (Held × Prog c)
  ctxs : Nat → Ctx c
  searches : List (ConcSave.Search c)

variable {c}

/-- A step of search number `n` (annoyindex_search.go:75-199). -/
def State.search (w : World) (x : State c) (n : Nat) : State c :=
  let y := ConcSave.State.search ⟨x.idx, w, .start, x.ctxs, x.searches⟩ n
  { x with ctxs := y.ctxs, searches := y.searches }

/-- A step of somebody. -/
inductive Step (w : World) (trees : Int) (workers : Nat) : State c → State c → Prop where
  /-- the beginning of `Build`, and the start of the workers (annoyindex.go:182-195, index_policy_multi.go:31-46) -/
  | start {x : State c} {s1 : Idx c} : x.phase = .before → x.idx.buildStart = .ok s1 →
      Step w trees workers x { x with idx := s1, phase := .working, ths := (startWorkers s1 trees workers).ths }
  /-- a step of a worker (annoyindex.go:237-285) -/
  | work {x : State c} {y : Conf c} : x.phase = .working → Annoy.Step ⟨x.idx, x.ths⟩ y →
      Step w trees workers x { x with idx := y.idx, ths := y.ths }
  /-- the end of `Build` (annoyindex.go:197-233) -/
  | finish {x : State c} {s' : Idx c} : x.phase = .working → Conf.Finished ⟨x.idx, x.ths⟩ → x.idx.buildFinish = .ok s' →
      Step w trees workers x { x with idx := s', phase := .after }
  /-- a step of a search -/
  | search {x : State c} (n : Nat) : Step w trees workers x (x.search w n)

/-- Any number of steps. -/
def Steps (w : World) (trees : Int) (workers : Nat) : State c → State c → Prop := Relation.ReflTransGen (Step w trees workers)

/-- The moment before `Build` and the searches begin. -/
def State.start (s : Idx c) (ctxs : Nat → Ctx c) (calls : List (List c.N.V × Int × Int × Nat)) : State c :=
  ⟨s, .before, [], ctxs, calls.map fun q => ⟨q.1, q.2.1, q.2.2.1, q.2.2.2, none⟩⟩

end ConcBuild
end Annoy
