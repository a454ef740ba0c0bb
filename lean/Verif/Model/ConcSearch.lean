import Verif.Model.Search
/-!
# Searches in several goroutines

`GetNnsByVector` (index/annoyindex_search.go:75-199) again, as a machine that stops after every turn of a loop, so
that calls can be interleaved.  The index is not written by a search (nothing in the function assigns a field of
`idx` or writes through `idx._nodes`), so it is a constant here; what a call writes is its context, its own queue, its own
query node and its own result slices.

One step is one turn of a loop, one call of the sorter, or the preparation of the query node.  Within a step contexts are
touched without interruption: for calls with a context each this makes no difference, for calls that share one it
leaves out executions, so what goes wrong here (`C73_shared_context_refuted`) can go wrong in Go.
-/
namespace Annoy
namespace ConcSearch
variable (c : Cfg)

/-- What a search reads and never writes: the fields of the index and the arguments. -/
structure Call where
  mem : Block
  nItems : Nat
  roots : List Nat
  query : List c.N.V
  numReturn : Int
  numInspect : Int

/-- Where a call is, with its local variables. -/
inductive Task where
  /-- head of the loop in line 93: queue, `cnt` -/
  | collect (q : List (c.N.V × Nat)) (cnt : Nat)
  /-- line 132 -/
  | sortIds (cnt : Nat)
  /-- line 137; `len` is `len(nns)` from here on -/
  | prepare (len : Nat)
  /-- head of the loop in line 156: query node, `i`, `cnt`, `last` -/
  | measure (vn : Bytes) (len i cnt : Nat) (last : Option Nat)
  /-- line 177 -/
  | sortPairs (cnt : Nat)
  /-- head of the loop in line 193 -/
  | answer (middle i : Nat) (ids : List Nat) (ds : List c.N.V)
  | done (ids : List Nat) (ds : List c.N.V)
  | failed (e : Err)

variable {c}

/-- `numNodesToInspect` after lines 83-85. -/
def Call.budget (k : Call c) : Int :=
  if k.numInspect = -1 then k.numReturn * k.roots.length else k.numInspect

/-- Lines 80-91. -/
def Call.start (k : Call c) : Task c := .collect (Search.initQueue c k.roots) 0

/-- One step. -/
def Call.step (k : Call c) : Task c → Ctx c → Task c × Ctx c
  | .collect q cnt, x =>
    if (cnt : Int) < k.budget then                                                   -- 93
      match Heap.pop (pairLess c.N) q with
      | none => (.sortIds cnt, x)
      | some ((d, i), q) =>                                                          -- 94-100
        match getNode c.L k.mem i with
        | .error e => (.failed e, x)
        | .ok a =>
          let nd := Node.nDesc c.L k.mem.get a                                       -- 102
          if nd = 1 ∧ i < k.nItems then                                              -- 104-106
            if cnt < x.nns.length then (.collect q (cnt + 1), { x with nns := x.nns.set cnt i })
            else (.failed (.panic "index out of range"), x)
          else if nd ≤ c.L.K then                                                    -- 107-114
            if cnt ≤ x.nns.length then
              (.collect q (cnt + nd),
                { x with nns := Search.copyAt x.nns cnt (Node.getChildren c.L k.mem.get a) })
            else (.failed (.panic "slice bounds out of range"), x)
          else                                                                       -- 115-129
            match c.D.margin k.mem.get a k.query with
            | .error e => (.failed e, x)
            | .ok margin =>
              let q := Heap.push (pairLess c.N) q
                (c.D.pqDistance d margin .right, Node.child c.L k.mem.get a 1)
              let q := Heap.push (pairLess c.N) q
                (c.D.pqDistance d margin .left, Node.child c.L k.mem.get a 0)
              (.collect q cnt, x)
    else (.sortIds cnt, x)
  | .sortIds cnt, x =>                                                               -- 134-135
    if cnt > x.nns.length then (.failed (.panic "slice bounds out of range"), x)
    else (.prepare cnt, { x with nns := c.sortIds (x.nns.take cnt) ++ x.nns.drop cnt })
  | .prepare len, x =>                                                               -- 137-154
    match Search.queryNode c k.query with
    | .error e => (.failed e, x)
    | .ok vn => (.measure vn len 0 0 none, x)
  | .measure vn len i cnt last, x =>
    if i < len then                                                                  -- 156
      match x.nns[i]? with
      | none => (.failed (.panic "index out of range"), x)
      | some j =>                                                                    -- 157
        if last = some j then (.measure vn len (i + 1) cnt last, x)                  -- 158-160
        else
          match getNode c.L k.mem j with                                             -- 164
          | .error e => (.failed e, x)
          | .ok a =>
            if Node.nDesc c.L k.mem.get a = 1 then                                   -- 166-174
              if cnt < x.dist.length then
                (.measure vn len (i + 1) (cnt + 1) (some j),
                  { x with dist := x.dist.set cnt (c.D.distance vn 0 k.mem.get a, j) })
              else (.failed (.panic "index out of range"), x)
            else (.measure vn len (i + 1) cnt (some j), x)
    else (.sortPairs cnt, x)
  | .sortPairs cnt, x =>                                                             -- 177-191
    let middle : Int := if k.numReturn < cnt then k.numReturn else cnt
    (.answer middle.toNat 0 [] [],
      { x with dist := c.partialSort (x.dist.take cnt) 0 middle cnt ++ x.dist.drop cnt })
  | .answer middle i ids ds, x =>
    if i < middle then                                                               -- 193-196
      match x.dist[i]? with
      | none => (.failed (.panic "index out of range"), x)
      | some p => (.answer middle (i + 1) (ids ++ [p.2]) (ds ++ [c.D.normalizedDistance p.1]), x)
    else (.done ids ds, x)
  | .done ids ds, x => (.done ids ds, x)
  | .failed e, x => (.failed e, x)

/-- Nothing left to do. -/
def Task.ended : Task c → Prop
  | .done _ _ => True
  | .failed _ => True
  | _ => False

/-- A goroutine in a search: the call, the number of its context, and where it is. -/
structure Thread (c : Cfg) where
  call : Call c
  ctx : Nat
  task : Task c

/-- All contexts and all goroutines. -/
structure Searches (c : Cfg) where
  ctxs : Nat → Ctx c
  threads : List (Thread c)

/-- Goroutine number `n` takes a step. -/
def Searches.step (x : Searches c) (n : Nat) : Searches c :=
  match x.threads[n]? with
  | none => x
  | some t =>
    let (task, ctx) := t.call.step t.task (x.ctxs t.ctx)
    { ctxs := fun i => if i = t.ctx then ctx else x.ctxs i
      threads := x.threads.set n { t with task := task } }

/-- The goroutines take steps in the order of a schedule. -/
def Searches.run (x : Searches c) (schedule : List Nat) : Searches c := schedule.foldl Searches.step x

/-- The moment before the first step. -/
def Searches.start (ctxs : Nat → Ctx c) (calls : List (Nat × Call c)) : Searches c where
  ctxs := ctxs
  threads := calls.map fun p => ⟨p.2, p.1, p.2.start⟩

end ConcSearch

/-- The call `GetNnsByVector(query, numReturn, numInspect, ctx)` on an index. -/
def Idx.searchCall {c : Cfg} (w : World) (s : Idx c) (query : List c.N.V) (numReturn numInspect : Int) :
    ConcSearch.Call c :=
  ⟨s.mem w, s.nItems, s.roots, query, numReturn, numInspect⟩

end Annoy
