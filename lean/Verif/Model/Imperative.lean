import Verif.Model.IO
/-!
# The public operations, statement by statement

The functions of `Verif.Model.Index` and `Verif.Model.IO` do not return a state when they panic.  Here
the same Go statements are written in a state monad that keeps the state reached when a panic is raised, to say
what a recovered panic leaves behind.  `Verif.Props.Lifecycle` shows that the results agree.
-/
namespace Annoy

/-- The index object and the file system. -/
structure Sys (c : Cfg) where
  idx : Idx c
  w : World

/-- A Go function body: a panic keeps the state it happened in. -/
abbrev Stmt (c : Cfg) := EStateM Err (Sys c)

namespace Stmt
variable {c : Cfg}

/-- Raise the error of an expression. -/
def lift {α : Type} : Except Err α → Stmt c α
  | .ok a => pure a
  | .error e => throw e

/-- Change the index object. -/
def upd (f : Idx c → Idx c) : Stmt c Unit := modify fun s => { s with idx := f s.idx }

/-- `AddItem` (annoyindex.go:149-179), one statement per line. -/
def addItem (i : Nat) (v : List c.N.V) : Stmt c Unit := do
  if (← get).idx.loaded then throw (.panic "Can't add items to a loaded index")    -- 150-152
  if v.length ≠ c.L.f then throw (.panic "Vector length mismatch")                 -- 154-156
  upd fun s => s.allocateSize (c.L.wrap (i + 1))                                   -- 159
  let a ← lift (getNode c.L (← get).idx.bmem i)                                    -- 162
  upd fun s => s.write fun b => Node.setNDesc c.L b a 1                            -- 165
  upd fun s => s.write fun b => Node.setVec c.L c.C b a v                          -- 166
  upd fun s => s.write fun b => c.D.initNode b a                                   -- 167
  if i ≥ (← get).idx.nItems then upd fun s => { s with nItems := c.L.wrap (i + 1) } -- 170-172

/-- `Build` (annoyindex.go:181-234), single worker policy.  `junk` is the state a panic inside
`ThreadBuild` (or the copying of the roots) leaves behind; it is not modelled further and left
arbitrary except that nothing in these lines assigns `indexLoaded`. -/
def build (junk : Idx c → Idx c) (rf tf lf : Nat) (trees : Int) : Stmt c Unit := do
  if (← get).idx.loaded then throw (.panic "Can't build a loaded index")           -- 182-184
  if (← get).idx.built then throw (.panic "Index already built")                   -- 186-188
  upd fun s => s.write fun b => c.D.preProcess b s.nItems                          -- 191
  upd fun s => { s with nNodes := s.nItems }                                       -- 193
  match (← get).idx.threadBuild rf tf lf trees 0 >>= Idx.buildFinish with          -- 195-229
  | .ok s => upd fun _ => s
  | .error e =>
    upd fun s => { junk s with loaded := s.loaded }
    throw e

/-- `Close` (annoyindex.go:117-138). -/
def close : Stmt c Unit := upd Idx.close

/-- The scan of `Load` (annoyindex_io.go:69-81). -/
def scan (m : Block) : Nat → Nat → Option Nat → Stmt c (Option Nat)
  | 0, _, _ => throw .diverge
  | fuel + 1, i, md => do
    let a ← lift (getNode c.L m i)
    let k := Node.nDesc c.L m.get a
    if md = none ∨ md = some k then
      upd fun s => { s with roots := s.roots ++ [i] }
      scan m fuel (if i = 0 then c.L.range - 1 else i - 1) (some k)
    else return md

/-- `Load` (annoyindex_io.go:42-124).  The counting loop (101-117) is one step. -/
def load (bk : Backend) (path : String) : Stmt c GoErr := do
  close                                                                            -- 44
  match ← lift (openIndex bk (← get).w path) with                                  -- 48
  | none => return .err "open"                                                     -- 50-52
  | some h =>
    upd fun s => { s with indexMemory := some h }
    if h.size % c.L.nodeSize ≠ 0 then                                              -- 54-58
      close
      return .err "file size is not a multiple of node size"
    let m := h.block (← get).w
    let n := c.L.wrap h.size / c.L.nodeSize
    upd fun s => { s with nodes := .file h, roots := [], nNodes := n }             -- 60-62
    let md ← scan m (n + 2) (if n = 0 then c.L.range - 1 else n - 1) none          -- 64-81
    let roots ← lift (Idx.dropDup c m (← get).idx.roots)                           -- 84-91
    upd fun s => { s with roots := roots }
    upd fun s => { s with built := true, loaded := true, nItems := md.getD 0 }     -- 93-95
    let k ← lift (Idx.countNNS c m (md.getD 0) n)                                  -- 101-117
    upd fun s => { s with batchMaxNNS := k }
    return .nil

/-- `Save` (annoyindex_io.go:11-40). -/
def save (bk : Backend) (path : String) : Stmt c GoErr := do
  if (← get).idx.built = false then                                                -- 12-14
    return .err "can't save an index that hasn't been built"
  match (← get).w.create path with                                                 -- 16
  | none => return .err "create"                                                   -- 17-19
  | some (inode, w) =>
    modify fun s => { s with w := w }
    match ← lift ((← get).idx.saveBytes (← get).w) with                            -- 31-33
    | none => return .err "write"                                                  -- 35-37
    | some bytes =>
      modify fun s => { s with w := s.w.write inode bytes }
      load bk path                                                                 -- 39

end Stmt

/-- A call of a state changing method. -/
inductive Op (c : Cfg) where
  | add (i : Nat) (v : List c.N.V)
  | build (junk : Idx c → Idx c) (rf tf lf : Nat) (trees : Int)
  | save (path : String)
  | load (path : String)
  | close

/-- How a call ends. -/
inductive Outcome where
  | done (e : GoErr)
  | panic (e : Err)

/-- One call; the caller recovers from panics. -/
def Op.exec {c : Cfg} (bk : Backend) (o : Op c) (s : Sys c) : Outcome × Sys c :=
  let fin (r : EStateM.Result Err (Sys c) GoErr) : Outcome × Sys c :=
    match r with
    | .ok e s => (.done e, s)
    | .error e s => (.panic e, s)
  match o with
  | .add i v => fin ((do Stmt.addItem i v; pure GoErr.nil : Stmt c GoErr).run s)
  | .build junk rf tf lf t => fin ((do Stmt.build junk rf tf lf t; pure GoErr.nil : Stmt c GoErr).run s)
  | .save p => fin ((Stmt.save bk p).run s)
  | .load p => fin ((Stmt.load bk p).run s)
  | .close => fin ((do Stmt.close; pure GoErr.nil : Stmt c GoErr).run s)

/-- A history of calls: outcomes and final state. -/
def Sys.run {c : Cfg} (bk : Backend) (s : Sys c) : List (Op c) → List Outcome × Sys c
  | [] => ([], s)
  | o :: os =>
    let r := o.exec bk s
    let rs := r.2.run bk os
    (r.1 :: rs.1, rs.2)

end Annoy
