import Verif.Model.Search
import Verif.Model.Utils
import Verif.Model.Ieee
/-!
# The program `cmd/precision`

Models cmd/precision/main.go from the point where the index was saved (line 121) to the printed precisions.  What comes before – adding
`numItems` vectors, `Build`, `Save` – are calls of the API.  Not modelled: flags, profiling, the output, timing.
-/
namespace Annoy.Precision
variable {c : Cfg}

/-- Comparing a vector with what `GetItem` returns (main.go:158-163): Go's `!=`, so a NaN differs from itself; `iv[j]` panics beyond the end. -/
def compare (N : Num) : List N.V → List N.V → Except Err Unit
  | [], _ => .ok ()
  | _ :: _, [] => .error (.panic "index out of range")
  | v :: vs, x :: xs => if N.eq v x = true then compare N vs xs else .error (.panic "Vector mismatch")

/-- Comparing all items (main.go:154-164). -/
def verify (w : World) (s : Idx c) : Nat → List (List c.N.V) → Except Err Unit
  | _, [] => .ok ()
  | i, v :: vs => do
    compare c.N v (← s.getItem w i)
    verify w s (i + 1) vs

/-- `limits` from `i` on (main.go:166-172); `fuel` bounds the rounds. -/
def limitsFrom (numItems : Nat) : Nat → Nat → List Nat
  | 0, _ => []
  | fuel + 1, i =>
    if i ≤ numItems then i :: (if i = 100 then [500] else []) ++ limitsFrom numItems fuel (i * 10) else []

/-- `limits` (main.go:166-172). -/
def limits (numItems : Nat) : List Nat := limitsFrom numItems (numItems + 1) 1

/-- The map `prec_sum` (main.go:174): `float64` bit patterns. -/
abbrev Sums := Nat → Nat

/-- One pass through the limits for item `j` (main.go:214-227): `closest`, which `Intersection` sorts in place, the sums and the context
are carried along.  Simplification: the clock (`time_sum`) is left out. -/
def pass (fuel : Nat) (w : World) (s : Idx c) (numReturn : Nat) (j : Nat) :
    List Nat → List Nat → Sums → Ctx c → Except Err (Sums × Ctx c)
  | [], _, sums, ctx => .ok (sums, ctx)
  | limit :: ls, closest, sums, ctx => do
    let (topList, _, ctx) ← s.getNnsByItem fuel w j limit (-1) ctx
    let (common, closest, _) := intersection c.sortIds closest topList
    let hitRate := Ieee.f64.div (Ieee.f64.ofNat common.length) (Ieee.f64.ofNat numReturn)
    pass fuel w s numReturn j ls closest (fun l => if l = limit then Ieee.f64.add (sums limit) hitRate else sums l) ctx

/-- The rounds (main.go:205-228): `n` are left, the generator is in state `r`. -/
def rounds (R : Rng) (fuel : Nat) (w : World) (s : Idx c) (numItems numReturn : Nat) (ls : List Nat) :
    Nat → R.σ → Sums → Ctx c → Except Err Sums
  | 0, _, sums, _ => .ok sums
  | n + 1, r, sums, ctx => do
    let (j, r) ← R.nextIndex r numItems
    let (closest, _, ctx) ← s.getNnsByItem fuel w j numReturn numItems ctx
    let (sums, ctx) ← pass fuel w s numReturn j ls closest sums ctx
    rounds R fuel w s numItems numReturn ls n r sums ctx

/-- The program after `Save` (main.go:154-247): the precision printed for each limit (bit patterns of `float64`). -/
def report (R : Rng) (r : R.σ) (fuel : Nat) (w : World) (s : Idx c) (vectors : List (List c.N.V)) (numReturn precN : Nat) :
    Except Err (List (Nat × Nat)) := do
  verify w s 0 vectors
  let ls := limits vectors.length
  let sums ← rounds R fuel w s vectors.length numReturn ls precN r (fun _ => 0) s.createContext
  .ok (ls.map fun l => (l, Ieee.f64.div (sums l) (Ieee.f64.ofNat precN)))

end Annoy.Precision
