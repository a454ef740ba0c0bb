import Verif.Model.Arena
/-!
# `AddItem` in several goroutines

`AddItem` (index/annoyindex.go:149-179) takes no lock: it calls `allocateSize` without a policy (line 159).  Here it is cut into accesses to fields of the
index, calls of the allocator and writes into the node, so that calls on one index can be interleaved.  Old arenas stay alive while somebody
points to them.

Simplifications: `Reallocate` (make, copy, store the pointer), `SetVector` and `InitNode` are one action each.  Finer actions would give more executions in
which something goes wrong; where nothing grows the actions of different goroutines touch different nodes, so that it makes no difference.
-/
namespace Annoy
namespace ConcAdd
open Arena
variable (c : Cfg)

/-- What the goroutines share: the heap and the index. -/
structure Shared where
  mem : Mem
  x : Index

/-- Where a call of `AddItem` is.  `p`, `a`: the arena and the address the node was mapped to. -/
inductive Task where
  /-- lines 154-156 and the test in line 470 -/
  | test
  /-- lines 476-477 -/
  | grow
  /-- the assignment to `_nodes` in line 477 -/
  | setNodes (p size : Nat)
  /-- line 478 -/
  | setSize (size : Nat)
  /-- line 162 -/
  | map
  /-- line 165 -/
  | count (p a : Nat)
  /-- line 166 -/
  | vector (p a : Nat)
  /-- line 167 -/
  | init (p a : Nat)
  /-- line 170 -/
  | items
  /-- line 171 -/
  | setItems
deriving DecidableEq

/-- A goroutine: the calls it still has to make (it is in the first one), where it is, and whether it panicked. -/
structure Thread where
  todo : List (Nat × List c.N.V)
  task : Task
  failed : Option Err

variable {c}

/-- One action. -/
def Thread.step (t : Thread c) (s : Shared) : Thread c × Shared :=
  match t.failed, t.todo with
  | some _, _ => (t, s)
  | none, [] => (t, s)
  | none, (i, v) :: rest =>
    match t.task with
    | .test =>
      if v.length ≠ c.L.f then ({ t with failed := some (.panic "Vector length mismatch") }, s)
      else ({ t with task := if c.L.wrap (i + 1) > s.x.nodesSize then .grow else .map }, s)
    | .grow =>
      let size := max (c.L.wrap (i + 1)) (c.L.wrap (c.L.wrap (s.x.nodesSize + 1) * 3 / 2))
      let (p, m) := s.mem.reallocate s.x.alloc (c.L.wrap (size * c.L.nodeSize))
      ({ t with task := .setNodes p size }, { s with mem := m })
    | .setNodes p size => ({ t with task := .setSize size }, { s with x := { s.x with ptr := some p } })
    | .setSize size => ({ t with task := .map }, { s with x := { s.x with nodesSize := size } })
    | .map =>
      match s.x.ptr with
      | none => ({ t with failed := some .oob }, s)
      | some p =>
        match getNode c.L (s.mem.arena p) i with
        | .error e => ({ t with failed := some e }, s)
        | .ok a => ({ t with task := .count p a }, s)
    | .count p a =>
      ({ t with task := .vector p a }, { s with mem := s.mem.write (some p) fun b => Node.setNDesc c.L b a 1 })
    | .vector p a =>
      ({ t with task := .init p a }, { s with mem := s.mem.write (some p) fun b => Node.setVec c.L c.C b a v })
    | .init p a => ({ t with task := .items }, { s with mem := s.mem.write (some p) fun b => c.D.initNode b a })
    | .items => if i ≥ s.x.nItems then ({ t with task := .setItems }, s) else ({ t with todo := rest, task := .test }, s)
    | .setItems =>
      ({ t with todo := rest, task := .test }, { s with x := { s.x with nItems := c.L.wrap (i + 1) } })

/-- The shared state and all goroutines. -/
structure Adding (c : Cfg) where
  shared : Shared
  threads : List (Thread c)

/-- Goroutine number `n` does one action. -/
def Adding.step (x : Adding c) (n : Nat) : Adding c :=
  match x.threads[n]? with
  | none => x
  | some t =>
    let (t', s) := t.step x.shared
    { shared := s, threads := x.threads.set n t' }

/-- The goroutines act in the order of a schedule. -/
def Adding.run (x : Adding c) (schedule : List Nat) : Adding c := schedule.foldl Adding.step x

/-- Each goroutine makes the calls of one list. -/
def Adding.start (s : Shared) (calls : List (List (Nat × List c.N.V))) : Adding c :=
  ⟨s, calls.map fun l => ⟨l, .test, none⟩⟩

/-- All goroutines returned. -/
def Adding.Finished (x : Adding c) : Prop := ∀ t ∈ x.threads, t.todo = [] ∧ t.failed = none

/-- The index as index number 0 of a system. -/
def Shared.sys (s : Shared) : Sys := ⟨s.mem, [s.x]⟩

end ConcAdd
end Annoy
