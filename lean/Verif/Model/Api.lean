import Verif.Model.IO
import Verif.Model.Policy
/-!
# The public interface as calls and answers

`interfaces.AnnoyIndex` (interfaces/annoy_index.go) as a transition system: a state is the file system and the index;
a call that ends without a panic gives an answer and a new state.
-/
namespace Annoy

/-- A call of the public interface. -/
inductive Req (c : Cfg) where
  | addItem (i : Nat) (v : List c.N.V)
  | build (trees workers : Int) (pol : BuildPolicy)
  | save (path : String)
  | load (path : String)
  | close
  | getItem (i : Nat)
  | getDistance (i j : Nat)
  | createContext
  | byVector (query : List c.N.V) (numReturn numInspect : Int) (ctx : Ctx c)
  | byItem (item : Nat) (numReturn numInspect : Int) (ctx : Ctx c)

/-- What a call returns. -/
inductive Resp (c : Cfg) where
  | unit
  | error (e : GoErr)
  | vector (v : List c.N.V)
  | number (x : c.N.V)
  | context (ctx : Ctx c)
  | found (ids : List Nat) (dists : List c.N.V) (ctx : Ctx c)

/-- File system and index. -/
structure Env (c : Cfg) where
  world : World
  idx : Idx c

/-- A call answers (no panic).  Searches may take any number of steps. -/
inductive Serves {c : Cfg} (bk : Backend) (numCPU : Nat) : Req c → Env c → Resp c → Env c → Prop where
  | addItem {w s i v s'} : s.addItem i v = .ok s' → Serves bk numCPU (.addItem i v) ⟨w, s⟩ .unit ⟨w, s'⟩
  | build {w s trees workers pol s'} : s.Builds numCPU trees workers pol s' →
      Serves bk numCPU (.build trees workers pol) ⟨w, s⟩ .unit ⟨w, s'⟩
  | save {w s path e s' w'} : s.save bk w path = .ok (e, s', w') → Serves bk numCPU (.save path) ⟨w, s⟩ (.error e) ⟨w', s'⟩
  | load {w s path e s'} : s.load bk w path = .ok (e, s') → Serves bk numCPU (.load path) ⟨w, s⟩ (.error e) ⟨w, s'⟩
  | close {w s} : Serves bk numCPU .close ⟨w, s⟩ .unit ⟨w, s.close⟩
  | getItem {w s i v} : s.getItem w i = .ok v → Serves bk numCPU (.getItem i) ⟨w, s⟩ (.vector v) ⟨w, s⟩
  | getDistance {w s i j x} : s.getDistance w i j = .ok x → Serves bk numCPU (.getDistance i j) ⟨w, s⟩ (.number x) ⟨w, s⟩
  | createContext {w s} : Serves bk numCPU .createContext ⟨w, s⟩ (.context s.createContext) ⟨w, s⟩
  | byVector {w s q n b ctx ids ds ctx'} (fuel : Nat) : s.getNnsByVector fuel w q n b ctx = .ok (ids, ds, ctx') →
      Serves bk numCPU (.byVector q n b ctx) ⟨w, s⟩ (.found ids ds ctx') ⟨w, s⟩
  | byItem {w s i n b ctx ids ds ctx'} (fuel : Nat) : s.getNnsByItem fuel w i n b ctx = .ok (ids, ds, ctx') →
      Serves bk numCPU (.byItem i n b ctx) ⟨w, s⟩ (.found ids ds ctx') ⟨w, s⟩

/-- A history of calls with their answers. -/
inductive ServesAll {c : Cfg} (bk : Backend) (numCPU : Nat) : List (Req c × Resp c) → Env c → Env c → Prop where
  | nil (x) : ServesAll bk numCPU [] x x
  | cons {q a h x y z} : Serves bk numCPU q x a y → ServesAll bk numCPU h y z → ServesAll bk numCPU ((q, a) :: h) x z

end Annoy
