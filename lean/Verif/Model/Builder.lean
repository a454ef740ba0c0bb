import Verif.Model.Rng
import Verif.Model.Alloc
/-!
# Package `builder`
-/
namespace Annoy
namespace Builder

inductive Pol where
  | single
  | multi
deriving DecidableEq, Repr

/-- `AnnoyIndexBuilderImpl` (builder/index.go:12-21).  `random` and `sorter` are opaque objects,
identified by a number; `distance` is the vector length given to `AngularDistance`; `allocator` is
never set by any method. -/
structure Conf where
  allocHint : Nat
  random : Option Nat
  distance : Option Nat
  buildPolicy : Option Pol
  indexMemory : Option Backend
  sorter : Option Nat
  logVerbose : Bool
deriving DecidableEq, Repr

/-- `Index()` (builder/index.go:24-26). -/
def init : Conf := ⟨0, none, none, none, none, none, false⟩

/-- The setter methods (builder/index.go:28-75). -/
inductive Call where
  | random (r : Nat)
  | indexNumHint (n : Int)
  | angularDistance (f : Int)
  | multiWorker
  | singleWorker
  | mmapIndex
  | gcIndex
  | useSorter (s : Nat)
  | verbose
deriving DecidableEq, Repr

/-- Effect of one setter; `TIX` has `w` bits. -/
def apply (w : Nat) (b : Conf) : Call → Conf
  | .random r => { b with random := some r }                    -- 28-31
  | .indexNumHint n =>                                          -- 33-40
    if n ≤ 0 then b else { b with allocHint := n.toNat % 2 ^ w }
  | .angularDistance f => { b with distance := some (f % 2 ^ w).toNat }  -- 42-45, `TIX(vectorLength)`
  | .multiWorker => { b with buildPolicy := some .multi }       -- 47-50
  | .singleWorker => { b with buildPolicy := some .single }     -- 52-55
  | .mmapIndex => { b with indexMemory := some .mmap }          -- 57-60
  | .gcIndex => { b with indexMemory := some .gc }              -- 62-65
  | .useSorter s => { b with sorter := some s }                 -- 67-70
  | .verbose => { b with logVerbose := true }                   -- 72-75

def run (w : Nat) (cs : List Call) : Conf := cs.foldl (apply w) init

/-- What `index.New` receives (builder/index.go:77-113).  `random = none` is the nil interface. -/
structure Final where
  /-- 0 = the default `Kiss32Random(0)`, otherwise the user's object number + 1 -/
  random : Option Nat
  distance : Option Nat
  buildPolicy : Pol
  indexMemory : Backend
  sorter : Option Nat
  logVerbose : Bool
  allocHint : Nat
deriving DecidableEq, Repr

/-- `Build` (builder/index.go:77-113): the default generator exists only for `uint32` (lines 91-101). -/
def build (w : Nat) (b : Conf) : Final where
  random := match b.random with
    | some r => some (r + 1)
    | none => if w = 32 then some 0 else none
  distance := b.distance
  buildPolicy := b.buildPolicy.getD .single
  indexMemory := b.indexMemory.getD .mmap
  sorter := b.sorter
  logVerbose := b.logVerbose
  allocHint := b.allocHint

/-- The parts of an `AnnoyIndexImpl` that `New` sets from its parameters (index/annoyindex.go:74-116);
memory is modelled in `Verif.Model.Index`. -/
structure Made where
  random : Option Nat
  vectorLength : Nat
  buildPolicy : Pol
  indexMemory : Backend
  /-- `none`: the default sorter of index/annoyindex.go:87-93 -/
  sorter : Option Nat
  logVerbose : Bool
  /-- `hintNumIndexes > 0`: memory for this many items is allocated (lines 111-113) -/
  preallocated : Option Nat
deriving DecidableEq, Repr

/-- `index.New` (index/annoyindex.go:74-116).  `distance.VectorLength()` on a nil interface panics. -/
def new (p : Final) : Except Err Made :=
  match p.distance with
  | none => .error (.panic "nil pointer dereference")
  | some f => .ok
    { random := p.random, vectorLength := f, buildPolicy := p.buildPolicy,
      indexMemory := p.indexMemory, sorter := p.sorter, logVerbose := p.logVerbose,
      preallocated := if p.allocHint > 0 then some p.allocHint else none }

/-- `idx.random.CloneAndReset()`, executed by every `Close` (index/annoyindex.go:134) and by every worker of
a `Build` (index/annoyindex.go:241): on a nil generator it panics. -/
def Made.cloneRandom (m : Made) : Except Err Nat :=
  match m.random with
  | none => .error (.panic "nil pointer dereference")
  | some r => .ok r

end Builder
end Annoy
