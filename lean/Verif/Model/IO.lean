import Verif.Model.Search
/-!
# Save and Load

Models index/annoyindex_io.go.
-/
namespace Annoy
namespace Idx
variable {c : Cfg}

/-- The backward scan of `Load` (annoyindex_io.go:69-81): collect node numbers from `i` down while
`n_descendants` stays the same.  `i` is unsigned: below 0 it wraps to the largest `TIX`. -/
def scanRoots (c : Cfg) (m : Block) : Nat → Nat → Option Nat → Except Err (List Nat × Option Nat)
  | 0, _, _ => .error .diverge
  | fuel + 1, i, md => do
    let a ← getNode c.L m i
    let k := Node.nDesc c.L m.get a
    if md = none ∨ md = some k then
      let (rs, md') ← scanRoots c m fuel (if i = 0 then c.L.range - 1 else i - 1) (some k)
      .ok (i :: rs, md')
    else .ok ([], md)

/-- The "hacky fix" (annoyindex_io.go:83-91). -/
def dropDup (c : Cfg) (m : Block) (roots : List Nat) : Except Err (List Nat) :=
  match roots with
  | first :: _ :: _ => do
    let fa ← getNode c.L m first
    let la ← getNode c.L m (roots.getLastD 0)
    if Node.nDesc c.L m.get fa = 0 ∨ Node.nDesc c.L m.get la = 0 then
      .error (.panic "index out of range [0] with length 0")
    else if Node.child c.L m.get fa 0 = Node.child c.L m.get la 0 then .ok roots.dropLast
    else .ok roots
  | _ => .ok roots

/-- `Load` (annoyindex_io.go:42-124).  On a Go error the state is that of a closed index.  The scan gets
fuel for one step below node 0; only for files larger than the range of `TIX` could it go on. -/
def load (bk : Backend) (w : World) (s : Idx c) (path : String) : Except Err (GoErr × Idx c) := do
  let s := s.close
  match ← openIndex bk w path with
  | none => .ok (.err "open", s)
  | some h =>
    if h.size % c.L.nodeSize ≠ 0 then
      .ok (.err "file size is not a multiple of node size", s.close)
    else do
      let m := h.block w
      let n := c.L.wrap h.size / c.L.nodeSize
      let (roots, md) ← scanRoots c m (n + 2) (if n = 0 then c.L.range - 1 else n - 1) none
      let roots ← dropDup c m roots
      let nItems := md.getD 0
      let k ← countNNS c m nItems n
      .ok (.nil, { s with
        indexMemory := some h
        nodes := .file h
        nNodes := n
        roots := roots
        built := true
        loaded := true
        nItems := nItems
        batchMaxNNS := k })

/-- The bytes `Save` hands to `file.Write` (annoyindex_io.go:31-33), read after the file was truncated;
`none` is the error `EFAULT` that `write(2)` returns when a mapping of the truncated file is read. -/
def saveBytes (w : World) (s : Idx c) : Except Err (Option (List Byte)) :=
  let n := c.L.wrap (s.nNodes * c.L.nodeSize)
  match s.nodes with
  | .null => if n = 0 then .ok (some []) else .error (.panic "unsafe.Slice: ptr is nil and len is not zero")
  | .build => if n ≤ s.alloc.size then .ok (some (s.alloc.block.prefix n)) else .error .oob
  | .file (.gc b) => if n ≤ b.size then .ok (some (b.prefix n)) else .error .oob
  | .file h@(.mmap _ _) => if n ≤ (h.block w).size then .ok (some ((h.block w).prefix n)) else .ok none

/-- `Save` (annoyindex_io.go:11-40).  Write errors other than the one above (disk full) are not
modelled. -/
def save (bk : Backend) (w : World) (s : Idx c) (path : String) :
    Except Err (GoErr × Idx c × World) :=
  if s.built = false then .ok (.err "can't save an index that hasn't been built", s, w)
  else
    match w.create path with
    | none => .ok (.err "create", s, w)
    | some (inode, w) => do
      match ← s.saveBytes w with
      | none => .ok (.err "write", s, w)
      | some bytes =>
        let w := w.write inode bytes
        let (e, s) ← s.load bk w path
        .ok (e, s, w)

/-- The file system at a moment at which the process may stop during `Save` (annoyindex_io.go:11-40): before `os.Create` (16), after it, and
while `file.Write` (33) has written the first `k` bytes (`Load`, which follows, does not write).  Simplification: a file system that
keeps its own order of operations when the machine loses power could do worse. -/
inductive SaveMoment (s : Idx c) (w : World) (path : String) : World → Prop where
  | before : SaveMoment s w path w
  | writing (inode : Nat) (w1 : World) (bytes : List Byte) (k : Nat) (hc : w.create path = some (inode, w1))
      (hb : s.saveBytes w1 = .ok (some bytes)) : SaveMoment s w path (w1.write inode (bytes.take k))
  | failed (inode : Nat) (w1 : World) (hc : w.create path = some (inode, w1)) : SaveMoment s w path w1

end Idx
end Annoy
