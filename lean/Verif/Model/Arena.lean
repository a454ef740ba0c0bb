import Verif.Model.Index
/-!
# Several indexes, build allocators as objects

`builder.Build` keeps the build allocator in the builder (builder/index.go:83-85) and hands the same object to every index it
makes (builder/index.go:103-112).  `Verif.Model.Index` gives each index an allocator of its own; here allocators are numbered
objects, and the slices they made (arenas) stay alive as long as an index points to them.  Modelled are making an index,
`AddItem`, `GetItem` and `Close`.
-/
namespace Annoy
namespace Arena

/-- The heap: arenas made so far, and for each build allocator the arena behind `ptr` (`none`: `memory == nil`; `ptrSize` is the
size of the arena). -/
structure Mem where
  arena : Nat → Block
  next : Nat
  alloc : Nat → Option Nat

/-- `Reallocate` of allocator `a` (index/memory/gc_index_build_allocator.go:26-49): returns the arena. -/
def Mem.reallocate (m : Mem) (a byteSize : Nat) : Nat × Mem :=
  let fresh (old : Block) : Nat × Mem :=
    (m.next,
     { arena := fun p => if p = m.next then ⟨byteSize, ⟨fun x => if x < old.size then old.get x else 0⟩⟩ else m.arena p
       next := m.next + 1
       alloc := fun b => if b = a then some m.next else m.alloc b })
  match m.alloc a with
  | some p => if byteSize < (m.arena p).size then (p, m) else fresh (m.arena p)
  | none => fresh ⟨0, zeros⟩

/-- `Free` (gc_index_build_allocator.go:20-24). -/
def Mem.free (m : Mem) (a : Nat) : Mem := { m with alloc := fun b => if b = a then none else m.alloc b }

/-- The fields of an index used here: the number of its build allocator, the arena behind `_nodes`, `_n_items`,
`_nodes_size`. -/
structure Index where
  alloc : Nat
  ptr : Option Nat
  nItems : Nat
  nodesSize : Nat

structure Sys where
  mem : Mem
  idx : List Index

def Sys.empty : Sys := ⟨⟨fun _ => ⟨0, zeros⟩, 0, fun _ => none⟩, []⟩

variable {c : Cfg}

/-- `index.New` (index/annoyindex.go:74-114) as called by the builder with allocator `a`. -/
def Sys.make (c : Cfg) (y : Sys) (a hint : Nat) : Sys :=
  { mem := if hint > 0 then (y.mem.reallocate a (c.L.wrap (c.L.nodeSize * hint) * 3 / 2)).2 else y.mem
    idx := y.idx ++ [⟨a, none, 0, 0⟩] }

/-- The memory behind `_nodes` of an index. -/
def Sys.block (y : Sys) (x : Index) : Block :=
  match x.ptr with
  | none => ⟨0, zeros⟩
  | some p => y.mem.arena p

/-- `allocateSize` (index/annoyindex.go:466-484). -/
def allocateSize (c : Cfg) (m : Mem) (x : Index) (numNodes : Nat) : Mem × Index :=
  if numNodes > x.nodesSize then
    let newSize := max numNodes (c.L.wrap (c.L.wrap (x.nodesSize + 1) * 3 / 2))
    let (p, m) := m.reallocate x.alloc (c.L.wrap (newSize * c.L.nodeSize))
    (m, { x with ptr := some p, nodesSize := newSize })
  else (m, x)

/-- Change the bytes of an arena. -/
def Mem.write (m : Mem) (p : Option Nat) (f : Bytes → Bytes) : Mem :=
  { m with arena := fun q => if some q = p then ⟨(m.arena q).size, f (m.arena q).get⟩ else m.arena q }

/-- `AddItem` on index number `k` (index/annoyindex.go:149-179). -/
def Sys.addItem (c : Cfg) (y : Sys) (k i : Nat) (v : List c.N.V) : Except Err Sys :=
  match y.idx[k]? with
  | none => .error (.panic "no such index")
  | some x =>
    if v.length ≠ c.L.f then .error (.panic "Vector length mismatch")
    else
      let (m, x) := allocateSize c y.mem x (c.L.wrap (i + 1))
      match getNode c.L (match x.ptr with | none => ⟨0, zeros⟩ | some p => m.arena p) i with
      | .error e => .error e
      | .ok a =>
        let m := m.write x.ptr fun b => c.D.initNode (Node.setVec c.L c.C (Node.setNDesc c.L b a 1) a v) a
        let x := if i ≥ x.nItems then { x with nItems := c.L.wrap (i + 1) } else x
        .ok { mem := m, idx := y.idx.set k x }

/-- `GetItem` on index number `k` (index/annoyindex.go:145-147). -/
def Sys.getItem (c : Cfg) (y : Sys) (k i : Nat) : Except Err (List c.N.V) :=
  match y.idx[k]? with
  | none => .error (.panic "no such index")
  | some x =>
    match getNode c.L (y.block x) i with
    | .error e => .error e
    | .ok a => .ok (Node.vec c.L c.C (y.block x).get a)

/-- `Close` of index number `k` (index/annoyindex.go:117-138). -/
def Sys.close (y : Sys) (k : Nat) : Except Err Sys :=
  match y.idx[k]? with
  | none => .error (.panic "no such index")
  | some x => .ok { mem := y.mem.free x.alloc, idx := y.idx.set k ⟨x.alloc, none, 0, 0⟩ }

/-- What a program does with its indexes. -/
inductive Op (c : Cfg) where
  /-- the next index, made by the builder that owns allocator `a` -/
  | make (a hint : Nat)
  | add (k i : Nat) (v : List c.N.V)
  | close (k : Nat)

def Sys.apply (y : Sys) : Op c → Except Err Sys
  | .make a hint => .ok (y.make c a hint)
  | .add k i v => y.addItem c k i v
  | .close k => y.close k

/-- A program. -/
def Sys.run (y : Sys) : List (Op c) → Except Err Sys
  | [] => .ok y
  | o :: os =>
    match y.apply o with
    | .error e => .error e
    | .ok y => y.run os

end Arena
end Annoy
