import Verif.Model.Api
import Verif.Props.Search
import Verif.Proof.LoadSearch
/-!
# Specification: the library as a table of vectors

What a user may believe the library to be, without nodes, trees, memory, bytes and generators: a table of vectors that can be filled, sealed,
written to files and read from files.  `Store.after` follows the calls and their answers; `Store.Right` says what the answer to a call has to
be.  Where the library keeps no promise (a file it did not write, an item added after `Build`, …) the table is `unknown` until it is closed.
-/
namespace Annoy

/-- The items of a finished index (in the order of the `AddItem` calls) and what `Build` was called with. -/
structure Table (V : Type) where
  adds : List (Nat × List V)
  trees : Int
  workers : Int
  pol : BuildPolicy

namespace Table
variable {V : Type}

/-- There is at least one tree. -/
def HasTrees (t : Table V) : Prop :=
  (1 ≤ t.trees ∨ (t.trees = -1 ∧ t.adds ≠ [])) ∧ (t.pol = .multi → t.workers ≠ 0)

/-- There is no tree. -/
def NoTrees (t : Table V) : Prop := t.trees = 0 ∨ (t.pol = .multi ∧ t.workers = 0)

/-- Files of this table can be read again: at least two slots, a tree, and the number of slots fits into `f` bytes. -/
def Readable (L : Layout) (t : Table V) : Prop := 2 ≤ slotCount t.adds ∧ t.HasTrees ∧ L.CountKept (slotCount t.adds)

/-- The number of nodes `Build` may need. -/
def room (numCPU : Nat) (t : Table V) : Nat := treeRoom numCPU t.pol (slotCount t.adds) t.trees t.workers

end Table

/-- What the index is at the moment. -/
inductive Phase (V : Type) where
  | adding (adds : List (Nat × List V))
  | built (t : Table V)
  | loaded (t : Table V) (path : String)
  | unknown

/-- The library as a table: its phase, whether it was built or loaded before, and which files hold which table. -/
structure Store (V : Type) where
  phase : Phase V
  everBuilt : Bool
  files : String → Option (Table V)

/-- What `found` may be for the query `q` over the items `adds`: always the best of some of the items; the best of all items, if `complete`
and the budget is larger than `most`; as many as asked for, if `complete` and the budget is left to the index. -/
structure RightFound (c : Cfg) (adds : List (Nat × List c.N.V)) (complete : Prop) (most : Nat) (q : List c.N.V) (k b : Int)
    (ids : List Nat) (ds : List c.N.V) : Prop where
  sound : ∃ S : List Nat, S.Nodup ∧ (∀ i ∈ S, (lastAdded adds i).isSome) ∧
    TopK c.N c.D.normalizedDistance (itemDist c (lastAdded adds) q) S k.toNat ids ds
  all : complete → (most : Int) < b →
    TopK c.N c.D.normalizedDistance (itemDist c (lastAdded adds) q) (addedIds adds) k.toNat ids ds
  count : complete → b = -1 → 0 ≤ k → ids.length = min k.toNat (addedIds adds).length

namespace Store

/-- A new index in a process that knows nothing about the files it finds. -/
def fresh (V : Type) : Store V := ⟨.adding [], false, fun _ => none⟩

/-- The item `i`. -/
def item {V : Type} (st : Store V) (i : Nat) : Option (List V) :=
  match st.phase with
  | .adding adds => lastAdded adds i
  | .built t => lastAdded t.adds i
  | .loaded t _ => lastAdded t.adds i
  | .unknown => none

/-- The table of a finished index, and whether it was read from a file. -/
def finished {V : Type} (st : Store V) : Option (Table V × Bool) :=
  match st.phase with
  | .built t => some (t, false)
  | .loaded t _ => some (t, true)
  | _ => none

section
variable (c : Cfg) (bk : Backend) (numCPU : Nat) (creatable : String → Bool)

/-- `Save` to `path` writes a file that can be read again: the table of a finished index, not onto the file it is mapped from. -/
def saves (st : Store c.N.V) (path : String) : Option (Table c.N.V) :=
  match st.phase with
  | .built t => some t
  | .loaded t src => if bk = .mmap ∧ src = path then none else some t
  | _ => none

open Classical in
/-- What a call and its answer make of the table. -/
noncomputable def after (st : Store c.N.V) : Req c → Resp c → Store c.N.V
  | .addItem i v, _ =>
    match st.phase with
    | .adding adds => { st with phase := if c.L.Fits (i + 1) then .adding (adds ++ [(i, v)]) else .unknown }
    | _ => { st with phase := .unknown }
  | .build trees workers pol, _ =>
    match st.phase with
    | .adding adds =>
      { st with
        phase := if c.L.Fits (treeRoom numCPU pol (slotCount adds) trees workers) then .built ⟨adds, trees, workers, pol⟩ else .unknown
        everBuilt := true }
    | _ => { st with phase := .unknown, everBuilt := true }
  | .save path, _ =>
    if st.everBuilt = false ∨ creatable path = false then st
    else
      match st.saves c bk path with
      | some t =>
        if t.Readable c.L then { st with phase := .loaded t path, files := fun p => if p = path then some t else st.files p }
        else { st with phase := .unknown, files := fun p => if p = path then none else st.files p }
      | none => { st with phase := .unknown, files := fun p => if p = path then none else st.files p }
  | .load path, a =>
    match a with
    | .error .nil =>
      { st with
        phase := match st.files path with
          | some t => .loaded t path
          | none => .unknown
        everBuilt := true }
    | _ => { st with phase := .adding [] }
  | .close, _ => { st with phase := .adding [] }
  | _, _ => st

/-- What is found has to be right. -/
def RightSearch (st : Store c.N.V) (q : List c.N.V) (k b : Int) (ids : List Nat) (ds : List c.N.V) : Prop :=
  match st.phase with
  | .adding _ => ids = [] ∧ ds = []
  | .built t =>
    RightFound c t.adds (t.HasTrees ∧ SplitsKept c numCPU t.pol (slotCount t.adds) t.trees t.workers)
      (t.room numCPU * (addedIds t.adds).length) q k b ids ds ∧ (t.NoTrees → ids = [] ∧ ds = [])
  | .loaded t _ =>
    RightFound c t.adds (SplitsKept c numCPU t.pol (slotCount t.adds) t.trees t.workers ∧ c.L.CopiesKept (slotCount t.adds))
      (t.room numCPU * (addedIds t.adds).length) q k b ids ds
  | .unknown => True

/-- The answer is right. -/
def Right (st : Store c.N.V) : Req c → Resp c → Prop
  | .addItem _ v, _ => v.length = c.L.f ∧ ∀ t p, st.phase ≠ .loaded t p
  | .build _ _ _, _ => st.everBuilt = false
  | .save path, .error e =>
    (st.everBuilt = false → e ≠ .nil) ∧ (creatable path = false → e ≠ .nil) ∧
      ∀ t, st.everBuilt = true → creatable path = true → st.saves c bk path = some t → t.Readable c.L → e = .nil
  | .load path, .error e => ∀ t, st.files path = some t → e = .nil
  | .close, _ => True
  | .getItem i, .vector v => ∀ u, st.item i = some u → v = u
  | .getDistance i j, .number x =>
    ∀ u v, st.item i = some u → st.item j = some v → x = c.D.normalizedDistance (vecDist c u v)
  | .createContext, .context ctx => ctx.dist.length = ctx.nns.length
  | .byVector q k b _, .found ids ds _ => q.length = c.L.f → st.RightSearch c numCPU q k b ids ds
  | .byItem i k b _, .found ids ds _ => ∀ u, st.item i = some u → st.RightSearch c numCPU u k b ids ds
  | _, _ => False

/-- A history of calls and answers is one of the table. -/
def Explains (st : Store c.N.V) : List (Req c × Resp c) → Prop
  | [] => True
  | (q, a) :: h => st.Right c bk numCPU creatable q a ∧ (st.after c bk numCPU creatable q a).Explains h

/-- The table at the end of a history. -/
noncomputable def afterAll (st : Store c.N.V) : List (Req c × Resp c) → Store c.N.V
  | [] => st
  | (q, a) :: h => (st.after c bk numCPU creatable q a).afterAll h

/-- What is needed for a search: a context with room. -/
def OffersSearch (st : Store c.N.V) (ctx : Ctx c) : Prop :=
  match st.phase with
  | .adding _ => True
  | .built t =>
    SplitsKept c numCPU t.pol (slotCount t.adds) t.trees t.workers ∧ t.room numCPU * slotCount t.adds ≤ ctx.nns.length
  | .loaded t _ =>
    (SplitsKept c numCPU t.pol (slotCount t.adds) t.trees t.workers ∧ c.L.CopiesKept (slotCount t.adds)) ∧
      t.room numCPU * slotCount t.adds ≤ ctx.nns.length
  | .unknown => False

/-- The calls that have to be answered. -/
def Offers (st : Store c.N.V) : Req c → Prop
  | .addItem i v => v.length = c.L.f ∧ c.L.Fits (i + 1) ∧ ∃ adds, st.phase = .adding adds
  | .build trees workers pol =>
    st.everBuilt = false ∧ (pol = .multi → -1 ≤ workers) ∧
      ∃ adds, st.phase = .adding adds ∧ c.L.Fits (treeRoom numCPU pol (slotCount adds) trees workers)
  | .save path => st.everBuilt = false ∨ creatable path = false ∨ ∃ t, st.saves c bk path = some t ∧ t.Readable c.L
  | .load path => (st.files path).isSome
  | .close => True
  | .getItem i => (st.item i).isSome
  | .getDistance i j => (st.item i).isSome ∧ (st.item j).isSome
  | .createContext => True
  | .byVector q _ _ ctx => q.length = c.L.f ∧ st.OffersSearch c numCPU ctx
  | .byItem i _ _ ctx => (st.item i).isSome ∧ st.OffersSearch c numCPU ctx

/-- The program makes calls one after the other, each of them one that has to be answered, whatever the (right) answers before it were. -/
def Plays (st : Store c.N.V) : List (Req c) → Prop
  | [] => True
  | q :: p => st.Offers c bk numCPU creatable q ∧
      ∀ a, st.Right c bk numCPU creatable q a → (st.after c bk numCPU creatable q a).Plays p

end
end Store
end Annoy
