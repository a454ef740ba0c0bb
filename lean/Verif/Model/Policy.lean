import Verif.Model.Conc
import Verif.Model.Utils
/-!
# Build policies
-/
namespace Annoy

/-- `interfaces.AnnoyIndexBuildPolicy`: package `policy` has two implementations,
`SingleWorker` (index/policy/index_policy_single.go) and `MultiWorker`
(index/policy/index_policy_multi.go). -/
inductive BuildPolicy where
  | single
  | multi
deriving DecidableEq, Repr

/-- Number of workers the multi worker policy starts (index/policy/index_policy_multi.go:25-31):
`-1` means one per CPU, `wg.Add` panics for other negative numbers (represented by `none`). -/
def numWorkers (numCPU : Nat) (requested : Int) : Option Nat :=
  if requested = -1 then some (umax 1 numCPU)
  else if requested < 0 then none
  else some requested.toNat

/-- `Build(trees, workers)` (index/annoyindex.go:181-234) can end in `s'`.

* single worker (index_policy_single.go:11-16): `workers` is ignored; `rf tf lf` are fuel, so any
  finished run counts;
* several workers: any interleaving. -/
inductive Idx.Builds {c : Cfg} (numCPU : Nat) (trees workers : Int) : BuildPolicy → Idx c → Idx c → Prop where
  | single {s s'} (rf tf lf : Nat) : s.build rf tf lf trees = .ok s' → Builds numCPU trees workers .single s s'
  | multi {s s' W} : numWorkers numCPU workers = some W → s.BuildsMulti trees W s' →
      Builds numCPU trees workers .multi s s'

end Annoy
