import Verif.Model.Index
/-!
# Building with several workers

`ThreadBuild` and `makeTree` (index/annoyindex.go:237-455) as seen by one goroutine, cut into atomic
actions, and the interleaving semantics of several such goroutines over one index
(index/policy/index_policy_multi.go).

An action is one lock operation, one access to a field of the index, one write into a node, one draw of
the generator, or one read of node memory.  Two simplifications:

* `CreateSplit` for one item set, and the test of one item against a hyperplane, each read node memory in
  a single action.  (They read item nodes only; that no worker ever writes an item node, and that accesses of
  different workers can be exchanged (C72), are theorems.)
* the shared generator `idx.random` is used by all workers without a lock.  Every action that draws may
  therefore start from *any* generator state.  With a generator whose state is an arbitrary stream
  (`oracleRng` in `Verif.Model.Rng`) this covers every value racing draws may produce.
-/
namespace Annoy
open Ieee

/-- What one worker still has to do. -/
inductive Prog (c : Cfg) : Type 1 where
  /-- finished -/
  | done
  /-- panicked -/
  | fail (e : Err)
  /-- `nNodesMutex.Lock/Unlock` -/
  | lockN (k : Prog c)
  | unlockN (k : Prog c)
  /-- `nodesMutex.RLock/RUnlock` -/
  | rlock (k : Prog c)
  | runlock (k : Prog c)
  /-- `nodesMutex.Lock/Unlock` -/
  | wlock (k : Prog c)
  | wunlock (k : Prog c)
  /-- `rootsMutex.Lock/Unlock` -/
  | lockR (k : Prog c)
  | unlockR (k : Prog c)
  /-- read, write `idx._n_nodes` -/
  | readN (k : Nat → Prog c)
  | setN (v : Nat) (k : Prog c)
  /-- read `idx._nodes_size` -/
  | readSize (k : Nat → Prog c)
  /-- `Reallocate`, and set `idx._nodes`, `idx._nodes_size` -/
  | grow (size : Nat) (k : Prog c)
  /-- read node memory, and draw -/
  | read {β : Type} (f : Block → c.R.σ → Except Err (β × c.R.σ)) (k : β → Prog c)
  /-- write into node `i` -/
  | write (i : Nat) (g : Bytes → Nat → Bytes) (k : Prog c)
  /-- draw random sides until they are balanced -/
  | rand (ids : List Nat) (k : List Nat → List Nat → Prog c)
  /-- read, write `idx._roots` -/
  | readRoots (k : List Nat → Prog c)
  | setRoots (rs : List Nat) (k : Prog c)

namespace Prog
variable {c : Cfg}

/-- Take the next node number (annoyindex.go:312-317, 438-442) with `allocateSize`
(annoyindex.go:466-484). -/
def takeNode (k : Nat → Prog c) : Prog c :=
  let rest : Prog c := readN fun item => readN fun v => setN (c.L.wrap (v + 1)) (unlockN (k item))
  lockN <| readN fun v => readSize fun z =>
    if c.L.wrap (v + 1) > z then
      wlock <| readSize fun z =>
        grow (max (c.L.wrap (v + 1)) (c.L.wrap (c.L.wrap (z + 1) * 3 / 2))) <| wunlock rest
    else rest

/-- The bucket branch (annoyindex.go:311-342). -/
def bucket (n : Nat) (ids : List Nat) (isRoot : Bool) (k : Nat → Prog c) : Prog c :=
  takeNode fun item =>
    rlock <| write item (fun b a => Node.setNDesc c.L b a (if isRoot then n else ids.length)) <|
      let rest := runlock (k item)
      if ids.length > 0 then write item (fun b a => Node.setChildren c.L b a ids) rest else rest

/-- Store the finished split node (annoyindex.go:438-448). -/
def place (m : Bytes) (k : Nat → Prog c) : Prog c :=
  takeNode fun item => rlock <| write item (fun b a => Node.copyNode b a m 0 c.L.f) <| runlock (k item)

/-- One side after the other (annoyindex.go:368-379). -/
def sides (m : Bytes) : List Nat → (List Nat → List Nat → Prog c) → Prog c
  | [], k => k [] []
  | j :: js, k => read (fun mem r => Idx.sideOfItem c mem m j r) fun sd =>
      sides m js fun l rt =>
        match sd with
        | .left => k (j :: l) rt
        | .right => k l (j :: rt)

/-- The attempt loop (annoyindex.go:362-386). -/
def attempts (addrs ids : List Nat) :
    Nat → Bytes → List Nat → List Nat → (Bytes → List Nat → List Nat → Prog c) → Prog c
  | 0, m, l, rt, k => k m l rt
  | j + 1, m, _, _, k => read (fun mem r => c.D.createSplit mem.get addrs r m) fun m =>
      sides m ids fun l rt =>
        if c.lt95 l.length rt.length then k m l rt else attempts addrs ids j m l rt k

/-- Choose the split (annoyindex.go:345-409). -/
def choose (ids : List Nat) (k : Bytes → List Nat → List Nat → Prog c) : Prog c :=
  rlock <| read (fun mem r => do .ok (← ids.mapM (getNode c.L mem), r)) fun addrs =>
    attempts addrs ids 3 zeros [] [] fun m l rt => runlock <|
      if c.le99 l.length rt.length then k m l rt
      else rand ids fun l rt => k (Node.setVec c.L c.C m 0 (List.replicate c.L.f c.N.zero)) l rt

/-- `makeTree` (annoyindex.go:291-455).  `n` is `idx._n_items`, which nobody changes during `Build`. -/
def makeTree (n : Nat) : Nat → List Nat → Bool → (Nat → Prog c) → Prog c
  | 0, _, _, _ => fail .diverge
  | fuel + 1, ids, isRoot, k =>
    match ids, isRoot with
    | [j], false => k j
    | _, _ =>
      if ids.length ≤ c.L.K ∧ (isRoot = false ∨ n ≤ c.L.K ∨ ids.length = 1) then bucket n ids isRoot k
      else
        choose ids fun m l rt =>
          let m := Node.setNDesc c.L m 0 (if isRoot then n else ids.length)
          if l.length > rt.length then
            makeTree n fuel rt false fun cr => makeTree n fuel l false fun cl =>
              place (Node.setChildren c.L m 0 [cl, cr]) k
          else
            makeTree n fuel l false fun cl => makeTree n fuel rt false fun cr =>
              place (Node.setChildren c.L m 0 [cl, cr]) k

/-- The item scan (annoyindex.go:264-272). -/
def scan : List Nat → List Nat → (List Nat → Prog c) → Prog c
  | [], acc, k => k acc
  | i :: is, acc, k =>
    read (fun mem r => do
      let a ← getNode c.L mem i
      .ok (Node.nDesc c.L mem.get a, r)) fun nd =>
        scan is (if nd ≥ 1 then acc ++ [i] else acc) k

/-- `ThreadBuild` (annoyindex.go:237-285).  `fuel` bounds the number of trees (never reached, see
`Verif.Proof.Conc`). -/
def thread (n : Nat) (trees : Int) : Nat → List Nat → Prog c
  | 0, _ => fail .diverge
  | fuel + 1, rs =>
    let go : Prog c := rlock <| scan (List.range n) [] fun ids => runlock <|
      makeTree n (n + 2) ids true fun root => thread n trees fuel (rs ++ [root])
    let stop : Prog c := lockR <| readRoots fun old => setRoots (old ++ rs) <| unlockR done
    if trees = -1 then
      lockN <| readN fun v => unlockN <| if v ≥ c.L.wrap (2 * n) then stop else go
    else if (rs.length : Int) ≥ trees then stop else go

/-- A worker with its own share of trees. -/
def worker (n : Nat) (trees : Int) : Prog c := thread n trees (n + trees.toNat + 2) []

end Prog

/-- State of the write lock of `nodesMutex` as one worker sees it.  `sync.RWMutex.Lock` first announces
itself, which keeps new readers out, and then waits for the readers inside. -/
inductive WLock where
  | idle | pending | held
deriving DecidableEq, Repr

/-- The locks a worker holds; `moving`: it is inside `Reallocate`. -/
structure Held where
  nn : Bool := false
  rd : Bool := false
  rt : Bool := false
  wr : WLock := .idle
  moving : Bool := false
deriving DecidableEq, Repr

/-- One action of one worker; `o` are the locks the other workers hold.  Locking blocks while somebody
else (or the worker itself) holds the lock. -/
inductive TStep {c : Cfg} (o : List Held) :
    Idx c → Held → Prog c → Idx c → Held → Prog c → Prop where
  | lockN {s h k} : (∀ x ∈ o, x.nn = false) → h.nn = false →
      TStep o s h (.lockN k) s { h with nn := true } k
  | unlockN {s h k} : h.nn = true → TStep o s h (.unlockN k) s { h with nn := false } k
  | rlock {s h k} : (∀ x ∈ o, x.wr = .idle) → h.wr = .idle → h.rd = false →
      TStep o s h (.rlock k) s { h with rd := true } k
  | runlock {s h k} : h.rd = true → TStep o s h (.runlock k) s { h with rd := false } k
  | announce {s h k} : (∀ x ∈ o, x.wr = .idle) → h.wr = .idle →
      TStep o s h (.wlock k) s { h with wr := .pending } (.wlock k)
  | wlock {s h k} : (∀ x ∈ o, x.rd = false) → h.rd = false → h.wr = .pending →
      TStep o s h (.wlock k) s { h with wr := .held } k
  | wunlock {s h k} : h.wr = .held → TStep o s h (.wunlock k) s { h with wr := .idle } k
  | lockR {s h k} : (∀ x ∈ o, x.rt = false) → h.rt = false →
      TStep o s h (.lockR k) s { h with rt := true } k
  | unlockR {s h k} : h.rt = true → TStep o s h (.unlockR k) s { h with rt := false } k
  | readN {s h k} : TStep o s h (.readN k) s h (k s.nNodes)
  | setN {s h v k} : TStep o s h (.setN v k) { s with nNodes := v } h k
  | readSize {s h k} : TStep o s h (.readSize k) s h (k s.nodesSize)
  | growBegin {s h z k} : h.moving = false →
      TStep o s h (.grow z k) s { h with moving := true } (.grow z k)
  | growEnd {s h z k} : h.moving = true →
      TStep o s h (.grow z k)
        { s with nodes := .build, alloc := s.alloc.reallocate (c.L.wrap (z * c.L.nodeSize)), nodesSize := z }
        { h with moving := false } k
  | read {s h β} {f : Block → c.R.σ → Except Err (β × c.R.σ)} {k} (r r' : c.R.σ) {x r''} :
      f s.bmem r = .ok (x, r'') → TStep o s h (.read f k) { s with rng := r' } h (k x)
  | readErr {s h β} {f : Block → c.R.σ → Except Err (β × c.R.σ)} {k} (r : c.R.σ) {e} :
      f s.bmem r = .error e → TStep o s h (.read f k) s h (.fail e)
  | write {s h i g k a} : getNode c.L s.bmem i = .ok a →
      TStep o s h (.write i g k) (s.write fun b => g b a) h k
  | writeErr {s h i g k e} : getNode c.L s.bmem i = .error e → TStep o s h (.write i g k) s h (.fail e)
  | rand {s h ids k} (r r' : c.R.σ) {l rt r''} :
      Idx.assignSides (fun _ r => .ok (c.R.nextSide r)) ids r = .ok (l, rt, r'') →
      c.le99 l.length rt.length = true → TStep o s h (.rand ids k) { s with rng := r' } h (k l rt)
  | spin {s h ids k} (r r' : c.R.σ) {l rt r''} :
      Idx.assignSides (fun _ r => .ok (c.R.nextSide r)) ids r = .ok (l, rt, r'') →
      c.le99 l.length rt.length = false → TStep o s h (.rand ids k) { s with rng := r' } h (.rand ids k)
  | readRoots {s h k} : TStep o s h (.readRoots k) s h (k s.roots)
  | setRoots {s h rs k} : TStep o s h (.setRoots rs k) { s with roots := rs } h k

/-- The index and all workers. -/
structure Conf (c : Cfg) where
  idx : Idx c
  ths : List (Held × Prog c)

/-- One worker does one action. -/
inductive Step {c : Cfg} : Conf c → Conf c → Prop where
  | mk {s s' h h' p p'} (pre post : List (Held × Prog c)) :
      TStep ((pre ++ post).map Prod.fst) s h p s' h' p' →
      Step ⟨s, pre ++ (h, p) :: post⟩ ⟨s', pre ++ (h', p') :: post⟩

/-- Any number of actions. -/
inductive Steps {c : Cfg} : Conf c → Conf c → Prop where
  | refl (x) : Steps x x
  | tail {x y z} : Steps x y → Step y z → Steps x z

/-- Trees of worker `w` (index/policy/index_policy_multi.go:35-38) as Go computes them:
`int(math.Floor(float64(T+w) / float64(W)))`. -/
def floatShare (trees : Int) (workers w : Nat) : Int :=
  if trees = -1 then -1 else f64.floor (f64.div (f64.ofInt (trees + w)) (f64.ofNat workers))

/-- Trees of worker `w` in exact arithmetic: `floor((T + w) / W)`.  (Equal to `floatShare` below `2^53`,
`C11_float` in `Verif.Props.Conc`.) -/
def share (trees : Int) (workers w : Nat) : Int :=
  if trees = -1 then -1 else (trees + w) / (workers : Int)

/-- The workers of the multi worker policy just started (index_policy_multi.go:31-46). -/
def startWorkers {c : Cfg} (s : Idx c) (trees : Int) (workers : Nat) : Conf c :=
  ⟨s, (List.range workers).map fun w => ({}, Prog.worker s.nItems (share trees workers w))⟩

/-- All workers are done (`wg.Wait` returns, index_policy_multi.go:48). -/
def Conf.Finished {c : Cfg} (x : Conf c) : Prop := ∀ t ∈ x.ths, t.2 = .done

/-- `Build` (annoyindex.go:181-234) with the multi worker policy: `s'` is a possible result. -/
def Idx.BuildsMulti {c : Cfg} (s : Idx c) (trees : Int) (workers : Nat) (s' : Idx c) : Prop :=
  ∃ s1 x, s.buildStart = .ok s1 ∧ Steps (startWorkers s1 trees workers) x ∧ x.Finished ∧
    x.idx.buildFinish = .ok s'

end Annoy
