import Verif.Model.Alloc
/-!
# The registry of open files of the file allocators

Both allocators keep `indexes map[string]*allocation`
(index/memory/index_allocator_mmap.go:11-13, index_allocator_gcmem.go:12-14).  Allocations are numbered in
order of creation.
-/
namespace Annoy

/-- An allocation object: its path and whether it was closed (`data`, `ptr` set to nil). -/
structure RegObj where
  path : String
  closed : Bool
deriving DecidableEq, Repr

structure Registry where
  /-- all allocation objects ever handed out -/
  objs : List RegObj
  /-- the map `indexes`: path ↦ object number -/
  map : String → Option Nat

namespace Registry

def empty : Registry := ⟨[], fun _ => none⟩

/-- A successful `Open` (index_allocator_mmap.go:93-103, index_allocator_gcmem.go:84-93): a new object,
registered under its path (replacing an older entry). -/
def opn (r : Registry) (path : String) : Nat × Registry :=
  (r.objs.length,
   { objs := r.objs ++ [⟨path, false⟩]
     map := fun p => if p = path then some r.objs.length else r.map p })

/-- `Close` on object `i` (index_allocator_mmap.go:33-53, index_allocator_gcmem.go:33-40): removes the
map entry of its path, whatever object it holds, and marks the object closed. -/
def close (r : Registry) (i : Nat) : Registry :=
  match r.objs[i]? with
  | none => r
  | some o =>
    { objs := r.objs.set i { o with closed := true }
      map := fun p => if p = o.path then none else r.map p }

/-- `Get` (index_allocator_mmap.go:61-64, index_allocator_gcmem.go:48-51). -/
def get (r : Registry) (path : String) : Option Nat := r.map path

/-- Is object `i` closed? -/
def isClosed (r : Registry) (i : Nat) : Prop := ∃ o, r.objs[i]? = some o ∧ o.closed = true

end Registry
end Annoy
