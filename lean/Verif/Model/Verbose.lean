import Verif.Model.Conc
/-!
# Verbose logging

`DumpNode` (utils/dump.go) and the workers of a build with `logVerbose` set.  The text that is printed is not modelled, only what it shows.
-/
namespace Annoy

/-- What `DumpNode` shows. -/
inductive Dump (V : Type) where
  | leaf (vec : List V)
  | inner (children : List Nat)
  | split (norm : V) (vec : List V)
deriving DecidableEq

/-- `DumpNode` (utils/dump.go:9-32) of the node at address `a`. -/
def dumpNode (L : Layout) {V : Type} (C : Codec V) (b : Bytes) (a : Nat) : Dump V :=
  let n := Node.nDesc L b a
  if n = 1 then .leaf (Node.vec L C b a)
  else if n ≤ L.K then .inner (Node.getChildren L b a)
  else .split (Node.norm L C b a) (Node.vec L C b a)

namespace Prog
variable {c : Cfg}

/-- `fmt.Printf(.., DumpNode(idx.distance, m))` (annoyindex.go:337-339, 450-452): a read of node `i` that the program does not use.  The Go code
still has the pointer to the node, so there is no `getNode` that could fail. -/
def dump (i : Nat) (k : Prog c) : Prog c :=
  read (fun mem r => .ok (dumpNode c.L c.C mem.get (c.L.addr i), r)) fun _ => k

/-- `makeTree` (annoyindex.go:291-455) with `logVerbose`: both dumps come after `UnlockSharedNodes`. -/
def makeTreeV (n : Nat) : Nat → List Nat → Bool → (Nat → Prog c) → Prog c
  | 0, _, _, _ => fail .diverge
  | fuel + 1, ids, isRoot, k =>
    match ids, isRoot with
    | [j], false => k j
    | _, _ =>
      if ids.length ≤ c.L.K ∧ (isRoot = false ∨ n ≤ c.L.K ∨ ids.length = 1) then bucket n ids isRoot fun item => dump item (k item)
      else
        choose ids fun m l rt =>
          let m := Node.setNDesc c.L m 0 (if isRoot then n else ids.length)
          if l.length > rt.length then
            makeTreeV n fuel rt false fun cr => makeTreeV n fuel l false fun cl =>
              place (Node.setChildren c.L m 0 [cl, cr]) fun item => dump item (k item)
          else
            makeTreeV n fuel l false fun cl => makeTreeV n fuel rt false fun cr =>
              place (Node.setChildren c.L m 0 [cl, cr]) fun item => dump item (k item)

/-- `ThreadBuild` (annoyindex.go:237-285) with `logVerbose`. -/
def threadV (n : Nat) (trees : Int) : Nat → List Nat → Prog c
  | 0, _ => fail .diverge
  | fuel + 1, rs =>
    let go : Prog c := rlock <| scan (List.range n) [] fun ids => runlock <|
      makeTreeV n (n + 2) ids true fun root => threadV n trees fuel (rs ++ [root])
    let stop : Prog c := lockR <| readRoots fun old => setRoots (old ++ rs) <| unlockR done
    if trees = -1 then
      lockN <| readN fun v => unlockN <| if v ≥ c.L.wrap (2 * n) then stop else go
    else if (rs.length : Int) ≥ trees then stop else go

/-- A worker with its own share of trees. -/
def workerV (n : Nat) (trees : Int) : Prog c := threadV n trees (n + trees.toNat + 2) []

end Prog

/-- The workers just started (index_policy_multi.go:31-46), with `logVerbose`. -/
def startWorkersV {c : Cfg} (s : Idx c) (trees : Int) (workers : Nat) : Conf c :=
  ⟨s, (List.range workers).map fun w => ({}, Prog.workerV s.nItems (share trees workers w))⟩

end Annoy
