import Verif.Model.Bytes
/-!
# Memory: build allocator, files, file allocators
-/
namespace Annoy

/-- `GoGCIndexBuildAllocatorImpl` (index/memory/gc_index_build_allocator.go:7-12): `memory != nil`,
`ptrSize` and the content of the block behind `ptr`.  (`is64` only selects an array type.) -/
structure Alloc where
  present : Bool
  size : Nat
  data : Bytes

namespace Alloc

/-- `GoGCIndexAllocator()` (gc_index_build_allocator.go:14-18); also the effect of `Free` (20-24). -/
def empty : Alloc := ⟨false, 0, zeros⟩

/-- `Reallocate` (gc_index_build_allocator.go:26-49).  The returned pointer is the block of the
resulting allocator state. -/
def reallocate (a : Alloc) (byteSize : Nat) : Alloc :=
  if a.present = true ∧ byteSize < a.size then a
  else ⟨true, byteSize, ⟨fun x => if x < a.size then a.data x else 0⟩⟩

/-- `Free` (gc_index_build_allocator.go:20-24). -/
def free (_ : Alloc) : Alloc := empty

/-- The block behind `ptr`. -/
def block (a : Alloc) : Block := ⟨a.size, a.data⟩

end Alloc

/-- The part of the file system the code touches: a directory from path to inode and the content of each
inode.  `creatable p` says whether `os.Create p` succeeds (permissions, existing directory). -/
structure World where
  dir : String → Option Nat
  content : Nat → List Byte
  next : Nat
  creatable : String → Bool

namespace World

/-- `os.Create` (used at index/annoyindex_io.go:16): truncate an existing file or make a new one.
Returns the inode. -/
def create (w : World) (path : String) : Option (Nat × World) :=
  if w.creatable path then
    match w.dir path with
    | some i => some (i, { w with content := fun j => if j = i then [] else w.content j })
    | none =>
      some (w.next, { w with
        dir := fun p => if p = path then some w.next else w.dir p
        content := fun j => if j = w.next then [] else w.content j
        next := w.next + 1 })
  else none

/-- `file.Write` to a freshly truncated file (index/annoyindex_io.go:33). -/
def write (w : World) (inode : Nat) (bytes : List Byte) : World :=
  { w with content := fun j => if j = inode then w.content j ++ bytes else w.content j }

/-- Content of a path. -/
def read (w : World) (path : String) : Option (List Byte) := (w.dir path).map w.content

end World

/-- The two `interfaces.IndexAllocator`s. -/
inductive Backend where
  | mmap  -- index/memory/index_allocator_mmap.go
  | gc    -- index/memory/index_allocator_gcmem.go
deriving Repr, DecidableEq

/-- `interfaces.AllocatedIndex`: a shared read-only mapping of an inode (`MAP_SHARED`,
index_allocator_mmap.go:80-86), or a private copy of the file (index_allocator_gcmem.go:67-77). -/
inductive Handle where
  | mmap (inode size : Nat)
  | gc (data : Block)

namespace Handle

/-- `Size()`. -/
def size : Handle → Nat
  | mmap _ s => s
  | gc b => b.size

/-- The memory behind `Ptr()`.  A mapping shows the current content of the inode; beyond the current end
of the file an access faults (simplification: page granularity is ignored). -/
def block (w : World) : Handle → Block
  | mmap i s => ⟨min s (w.content i).length, (Block.ofList (w.content i)).get⟩
  | gc b => b

end Handle

/-- Result of a call that returns a Go `error`. -/
inductive GoErr where
  | nil
  | err (msg : String)
deriving Repr, DecidableEq

/-- `Open` of both allocators.  Outer error: panic; inner `none`: the returned Go error.

* mmap (index_allocator_mmap.go:66-104): `syscall.Mmap` with length 0 fails with EINVAL, so an empty file is an error;
* gc (index_allocator_gcmem.go:53-94): `&data[0]` panics for an empty file. -/
def openIndex (bk : Backend) (w : World) (path : String) : Except Err (Option Handle) :=
  match w.dir path with
  | none => .ok none
  | some i =>
    match bk with
    | .mmap => if (w.content i).length = 0 then .ok none else .ok (some (.mmap i (w.content i).length))
    | .gc =>
      if (w.content i).length = 0 then .error (.panic "index out of range [0] with length 0")
      else .ok (some (.gc (Block.ofList (w.content i))))

end Annoy
