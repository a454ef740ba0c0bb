import Verif.Model.Arena
/-!
# The slices that `GetItem` returns

`GetItem` does not copy the vector: `GetVector` (distance/angular/node.go:47-49, distance/dotproduct/node.go:23-25) makes a slice header over the memory of the node.
The slice keeps the arena alive.
-/
namespace Annoy
namespace Arena

/-- A slice `unsafe.Slice(&n.v, vectorLength)`: the arena, and the address of the node in it. -/
structure View where
  arena : Nat
  addr : Nat

/-- `GetItem` (index/annoyindex.go:145-147): the slice. -/
def Sys.getView (c : Cfg) (y : Sys) (k i : Nat) : Except Err View :=
  match y.idx[k]? with
  | none => .error (.panic "no such index")
  | some x =>
    match x.ptr with
    | none => .error .oob
    | some p =>
      match getNode c.L (y.mem.arena p) i with
      | .error e => .error e
      | .ok a => .ok ⟨p, a⟩

/-- The components of the slice. -/
def View.read (c : Cfg) (z : View) (y : Sys) : List c.N.V := Node.vec c.L c.C (y.mem.arena z.arena).get z.addr

/-- The program assigns `x` to component `j < vectorLength` of the slice. -/
def View.assign (c : Cfg) (z : View) (y : Sys) (j : Nat) (x : c.N.V) : Sys :=
  { y with mem := y.mem.write (some z.arena) fun b => writeBytes b (z.addr + c.L.offV + j * c.C.sz) (c.C.enc x) }

/-- `GetDistance` (index/annoyindex_search.go:43-50) on index number `k`. -/
def Sys.getDistance (c : Cfg) (y : Sys) (k i j : Nat) : Except Err c.N.V :=
  match y.idx[k]? with
  | none => .error (.panic "no such index")
  | some x =>
    match getNode c.L (y.block x) i, getNode c.L (y.block x) j with
    | .ok a, .ok b => .ok (c.D.normalizedDistance (c.D.distance (y.block x).get a (y.block x).get b))
    | _, _ => .error .oob

end Arena
end Annoy
