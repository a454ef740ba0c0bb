import Verif.Model.ConcSearch
import Verif.Model.IO
/-!
# `Save` while the index is searched

`Save` (index/annoyindex_io.go:11-40) ends with a `Load` of the file it wrote, and `Load` begins with a `Close` (line 44): for a moment the index has no
nodes, no items and no roots.  Searches take no lock.  Here `Save` is cut into four steps, and calls of `GetNnsByVector` on the same index take their
steps (Model/ConcSearch.lean) in between.

A search reads `idx._roots` in lines 83-91 only, and `idx._nodes` and `idx._n_items` in every turn of its loops (lines 100, 104, 164), so a step of a search sees
the fields as they are at that moment, and the budget and the queue of its beginning.

Simplifications: each of the four parts of `Save` is one step.  Finer steps would give more executions, all of them with a search between the `Close`
and the end of the `Load`.
-/
namespace Annoy
namespace ConcSave
open ConcSearch
variable (c : Cfg)

/-- Where `Save` is. -/
inductive Saver where
  /-- line 12 -/
  | start
  /-- after `os.Create` (16-20), before `file.Write` (31-33) -/
  | opened (inode : Nat)
  /-- before `Load` (39) -/
  | written
  /-- in `Load`, after the `Close` of line 44; `old` is the index before it -/
  | closed (old : Idx c)
  | returned (e : GoErr)
  | failed (e : Err)

/-- A goroutine in `GetNnsByVector`: the arguments, the number of its context, and, when it has read the roots, where it is. -/
structure Search where
  query : List c.N.V
  numReturn : Int
  numInspect : Int
  ctx : Nat
  at? : Option (Call c × Task c)

/-- The index, the files, the goroutine that saves, and the goroutines that search. -/
structure State where
  idx : Idx c
  w : World
  saver : Saver c
  ctxs : Nat → Ctx c
  searches : List (Search c)

variable {c}

/-- A step of `Save` (annoyindex_io.go:11-40). -/
def State.save (bk : Backend) (path : String) (x : State c) : State c :=
  match x.saver with
  | .start =>
    if x.idx.built = false then { x with saver := .returned (.err "can't save an index that hasn't been built") }
    else
      match x.w.create path with
      | none => { x with saver := .returned (.err "create") }
      | some (inode, w) => { x with w := w, saver := .opened inode }
  | .opened inode =>
    match x.idx.saveBytes x.w with
    | .error e => { x with saver := .failed e }
    | .ok none => { x with saver := .returned (.err "write") }
    | .ok (some bytes) => { x with w := x.w.write inode bytes, saver := .written }
  | .written => { x with idx := x.idx.close, saver := .closed x.idx }
  | .closed old =>
    match old.load bk x.w path with
    | .error e => { x with saver := .failed e }
    | .ok (e, s) => { x with idx := s, saver := .returned e }
  | .returned _ => x
  | .failed _ => x

/-- A step of search number `n`. -/
def State.search (x : State c) (n : Nat) : State c :=
  match x.searches[n]? with
  | none => x
  | some t =>
    match t.at? with
    | none =>
      let k := x.idx.searchCall x.w t.query t.numReturn t.numInspect
      { x with searches := x.searches.set n { t with at? := some (k, k.start) } }
    | some (k, task) =>
      let (task', ctx) := { k with mem := x.idx.mem x.w, nItems := x.idx.nItems }.step task (x.ctxs t.ctx)
      { x with
        ctxs := fun i => if i = t.ctx then ctx else x.ctxs i
        searches := x.searches.set n { t with at? := some (k, task') } }

/-- A step of `Save` (`none`) or of a search. -/
def State.step (bk : Backend) (path : String) (x : State c) : Option Nat → State c
  | none => x.save bk path
  | some n => x.search n

/-- The steps of a schedule. -/
def State.run (bk : Backend) (path : String) (x : State c) (schedule : List (Option Nat)) : State c :=
  schedule.foldl (State.step bk path) x

/-- The moment before `Save` and the searches begin. -/
def State.start (s : Idx c) (w : World) (ctxs : Nat → Ctx c) (calls : List (List c.N.V × Int × Int × Nat)) : State c :=
  ⟨s, w, .start, ctxs, calls.map fun q => ⟨q.1, q.2.1, q.2.2.1, q.2.2.2, none⟩⟩

end ConcSave
end Annoy
