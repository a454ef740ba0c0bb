import Verif.Model.ConcAdd
import Verif.Proof.Items
/-!
Proofs about `AddItem` in several goroutines: actions on different nodes commute.
-/
namespace Annoy
open Arena
variable {c : Cfg}

/-- `W` changes bytes in `P` only, and what it writes depends on bytes in `P` only. -/
structure Confined (P : Nat → Prop) (W : Bytes → Bytes) : Prop where
  outside : ∀ b x, ¬ P x → W b x = b x
  inside : ∀ b b' : Bytes, (∀ x, P x → b x = b' x) → ∀ x, P x → W b x = W b' x

theorem Confined.comm {P Q : Nat → Prop} {W W' : Bytes → Bytes} (h : Confined P W) (h' : Confined Q W') (hd : ∀ x, P x → ¬ Q x) (b : Bytes) :
    W (W' b) = W' (W b) := by
  apply Bytes.ext'
  intro x
  by_cases hp : P x
  · rw [h'.outside _ x (hd x hp)]
    exact h.inside _ _ (fun y hy => h'.outside _ y (hd y hy)) x hp
  · rw [h.outside _ x hp]
    by_cases hq : Q x
    · exact (h'.inside _ _ (fun y hy => h.outside _ y fun e => hd y e hy) x hq).symm
    · rw [h'.outside _ x hq, h'.outside _ x hq, h.outside _ x hp]

theorem Confined.id (P : Nat → Prop) : Confined P id := ⟨fun _ _ _ => rfl, fun _ _ h x hx => h x hx⟩

theorem Confined.mono {P Q : Nat → Prop} {W : Bytes → Bytes} (h : Confined P W) (hpq : ∀ x, P x → Q x) : Confined Q W := by
  refine ⟨fun b x hx => h.outside b x fun e => hx (hpq x e), fun b b' hb x hx => ?_⟩
  by_cases hp : P x
  · exact h.inside _ _ (fun y hy => hb y (hpq y hy)) x hp
  · rw [h.outside _ x hp, h.outside _ x hp]; exact hb x hx

theorem Confined.comp {P : Nat → Prop} {W W' : Bytes → Bytes} (h : Confined P W) (h' : Confined P W') : Confined P fun b => W' (W b) :=
  ⟨fun b x hx => by rw [h'.outside _ x hx, h.outside _ x hx], fun b b' hb x hx => h'.inside _ _ (fun y hy => h.inside _ _ hb y hy) x hx⟩

/-- The bytes of the node at `a`. -/
def InNode (L : Layout) (a x : Nat) : Prop := a ≤ x ∧ x < a + L.nodeSize

theorem setNDesc_confined (hc : c.WF) (a n : Nat) : Confined (InNode c.L a) fun b => Node.setNDesc c.L b a n := by
  have hL := hc.layout
  have hoff := hL.offV_ge
  have hsz := hL.size_eq
  refine ⟨fun b x hx => ?_, fun b b' hb x hx => ?_⟩
  · unfold InNode at hx
    exact Node.setNDesc_frame _ _ _ _ (by omega)
  · exact writeBytes_congr _ _ _ (hb x hx)

theorem setVec_confined (hc : c.WF) (a : Nat) {v : List c.N.V} (hv : v.length = c.L.f) :
    Confined (InNode c.L a) fun b => Node.setVec c.L c.C b a v := by
  have hL := hc.layout
  have hoff := hL.offV_ge
  have hsz := hL.size_eq
  refine ⟨fun b x hx => ?_, fun b b' hb x hx => ?_⟩
  · unfold InNode at hx
    exact Node.setVec_frame _ _ _ _ _ (by rw [hv]; omega)
  · exact writeBytes_congr _ _ _ (hb x hx)

theorem initNode_confined (hc : c.WF) (a : Nat) : Confined (InNode c.L a) fun b => c.D.initNode b a := by
  have hL := hc.layout
  have hoff := hL.offV_ge
  have hsz := hL.size_eq
  obtain ⟨w, hw, h1, h2⟩ := hc.initNode
  refine ⟨fun b x hx => ?_, fun b b' hb x hx => ?_⟩
  · unfold InNode at hx
    exact h1 _ _ _ (by omega)
  · by_cases hx' : x < a + c.L.szIX ∨ a + c.L.szIX + w ≤ x
    · rw [h1 _ _ _ hx', h1 _ _ _ hx']; exact hb x hx
    · have hv : Node.vec c.L c.C b a = Node.vec c.L c.C b' a := by
        apply Node.vec_congr
        intro j hj
        exact hb _ (by unfold InNode; omega)
      have := h2 b a b' a hv (x - (a + c.L.szIX)) (by omega)
      have e : a + c.L.szIX + (x - (a + c.L.szIX)) = x := by omega
      rwa [e] at this

/-- What a whole call of `AddItem` writes into the node at `a`. -/
def putItem (c : Cfg) (a : Nat) (v : List c.N.V) (b : Bytes) : Bytes := c.D.initNode (Node.setVec c.L c.C (Node.setNDesc c.L b a 1) a v) a

theorem putItem_confined (hc : c.WF) (a : Nat) {v : List c.N.V} (hv : v.length = c.L.f) : Confined (InNode c.L a) (putItem c a v) :=
  ((setNDesc_confined hc a 1).comp (setVec_confined hc a hv)).comp (initNode_confined hc a)

/-- Several calls, one after the other. -/
def putAll (c : Cfg) (calls : List (Nat × List c.N.V)) (b : Bytes) : Bytes := calls.foldl (fun b p => putItem c (c.L.addr p.1) p.2 b) b

theorem putAll_append (l l' : List (Nat × List c.N.V)) (b : Bytes) : putAll c (l ++ l') b = putAll c l' (putAll c l b) := by
  simp [putAll]

/-- The bytes of the nodes of a list of calls. -/
def InNodes (c : Cfg) (calls : List (Nat × List c.N.V)) (x : Nat) : Prop := ∃ p ∈ calls, InNode c.L (c.L.addr p.1) x

theorem putAll_confined (hc : c.WF) (l : List (Nat × List c.N.V)) (hl : ∀ p ∈ l, p.2.length = c.L.f) : Confined (InNodes c l) (putAll c l) := by
  have key : ∀ (l m : List (Nat × List c.N.V)), (∀ p ∈ l, p.2.length = c.L.f) → (∀ p ∈ l, p ∈ m) → Confined (InNodes c m) (putAll c l) := by
    intro l m hl hm
    induction l with
    | nil => exact Confined.id _
    | cons p l ih =>
      have h1 : Confined (InNodes c m) (putItem c (c.L.addr p.1) p.2) :=
        (putItem_confined hc _ (hl p List.mem_cons_self)).mono fun x hx => ⟨p, hm p List.mem_cons_self, hx⟩
      exact h1.comp (ih (fun q hq => hl q (List.mem_cons_of_mem _ hq)) (fun q hq => hm q (List.mem_cons_of_mem _ hq)))
  exact key l l hl fun _ h => h

/-- One function after the other. -/
def through (gs : List (Bytes → Bytes)) (b : Bytes) : Bytes := gs.foldl (fun b g => g b) b

theorem through_set {W : Bytes → Bytes} : ∀ (gs : List (Bytes → Bytes)) (n : Nat) (g : Bytes → Bytes), gs[n]? = some g →
    (∀ m g', n < m → gs[m]? = some g' → ∀ b, W (g' b) = g' (W b)) → ∀ b, through (gs.set n fun b => W (g b)) b = W (through gs b) := by
  intro gs
  induction gs with
  | nil => intro n g h; simp at h
  | cons g0 gs ih =>
    intro n g h hcomm b
    cases n with
    | zero =>
      simp only [List.getElem?_cons_zero, Option.some.injEq] at h
      subst h
      simp only [List.set_cons_zero, through, List.foldl_cons]
      have : ∀ (gs : List (Bytes → Bytes)), (∀ g' ∈ gs, ∀ b, W (g' b) = g' (W b)) → ∀ b, gs.foldl (fun b g => g b) (W b) = W (gs.foldl (fun b g => g b) b) := by
        intro gs
        induction gs with
        | nil => intro _ b; rfl
        | cons g gs ih =>
          intro h b
          simp only [List.foldl_cons]
          rw [← h g List.mem_cons_self, ih (fun g' hg' => h g' (List.mem_cons_of_mem _ hg'))]
      apply this
      intro g' hg'
      obtain ⟨m, hm⟩ := List.mem_iff_getElem?.1 hg'
      exact hcomm (m + 1) g' (by omega) (by simpa using hm)
    | succ n =>
      simp only [List.getElem?_cons_succ] at h
      simp only [List.set_cons_succ, through, List.foldl_cons]
      exact ih n g h (fun m g' hm hg' => hcomm (m + 1) g' (by omega) (by simpa using hg')) (g0 b)

theorem write_write (m : Mem) (p : Option Nat) (f g : Bytes → Bytes) : (m.write p f).write p g = m.write p fun b => g (f b) := by
  unfold Mem.write
  congr 1
  funext q
  dsimp only
  split <;> rfl

theorem write_id (m : Mem) (p : Option Nat) : (m.write p fun b => b) = m := by
  unfold Mem.write
  have : (fun q => if some q = p then (⟨(m.arena q).size, (m.arena q).get⟩ : Block) else m.arena q) = m.arena := by
    funext q; split <;> rfl
  rw [this]

theorem write_size (m : Mem) (p : Option Nat) (f : Bytes → Bytes) (q : Nat) : ((m.write p f).arena q).size = (m.arena q).size := by
  unfold Mem.write
  dsimp only
  split <;> rfl

namespace ConcAdd

/-- What a goroutine that is at `task` of the call `(i, v)` has written for this call. -/
def Task.put (c : Cfg) (a : Nat) (v : List c.N.V) : Task → Bytes → Bytes
  | .vector _ _, b => Node.setNDesc c.L b a 1
  | .init _ _, b => Node.setVec c.L c.C (Node.setNDesc c.L b a 1) a v
  | .items, b => putItem c a v b
  | _, b => b

/-- The steps that happen when nothing has to grow. -/
def Task.Plain (p a : Nat) : Task → Prop
  | .test => True
  | .map => True
  | .count q a' => q = p ∧ a' = a
  | .vector q a' => q = p ∧ a' = a
  | .init q a' => q = p ∧ a' = a
  | .items => True
  | _ => False

/-- Actions done of a call. -/
def Task.pos : Task → Nat
  | .test => 0
  | .map => 1
  | .count _ _ => 2
  | .vector _ _ => 3
  | .init _ _ => 4
  | .items => 5
  | _ => 0

/-- Goroutine `t` is on its way through `calls`, and has written `g`. -/
def Thread.On (p : Nat) (calls : List (Nat × List c.N.V)) (t : Thread c) (g : Bytes → Bytes) : Prop :=
  t.failed = none ∧ ∃ pre, calls = pre ++ t.todo ∧
    match t.todo with
    | [] => g = putAll c pre ∧ t.task = .test
    | (i, v) :: _ => t.task.Plain p (c.L.addr i) ∧ g = fun b => t.task.put c (c.L.addr i) v (putAll c pre b)

/-- Nothing has to grow: every call is of an index below the number of items, whose node is inside the memory. -/
structure Ready (s : Shared) (p : Nat) (calls : List (List (Nat × List c.N.V))) : Prop where
  ptr : s.x.ptr = some p
  call : ∀ l ∈ calls, ∀ q ∈ l, q.2.length = c.L.f ∧ q.1 < s.x.nItems ∧ c.L.wrap (q.1 + 1) ≤ s.x.nodesSize ∧
    c.L.addr q.1 + c.L.nodeSize ≤ (s.mem.arena p).size
  apart : ∀ (n m : Nat) (l l' : List (Nat × List c.N.V)), n ≠ m → calls[n]? = some l → calls[m]? = some l' → ∀ x, InNodes c l x → ¬ InNodes c l' x

/-- The invariant. -/
structure Inv (s : Shared) (p : Nat) (calls : List (List (Nat × List c.N.V))) (gs : List (Bytes → Bytes)) (y : Adding c) : Prop where
  x : y.shared.x = s.x
  mem : y.shared.mem = s.mem.write (some p) (through gs)
  len : gs.length = calls.length ∧ y.threads.length = calls.length
  on : ∀ (n : Nat) (l : List (Nat × List c.N.V)) (t : Thread c) (g : Bytes → Bytes), calls[n]? = some l → y.threads[n]? = some t → gs[n]? = some g → t.On p l g

theorem Thread.On.confined (hc : c.WF) {p : Nat} {calls : List (Nat × List c.N.V)} (hl : ∀ q ∈ calls, q.2.length = c.L.f)
    {t : Thread c} {g : Bytes → Bytes} (h : t.On p calls g) : Confined (InNodes c calls) g := by
  obtain ⟨-, pre, h1, h2⟩ := h
  have hpre : Confined (InNodes c calls) (putAll c pre) :=
    (putAll_confined hc pre fun q hq => hl q (by rw [h1]; exact List.mem_append_left _ hq)).mono
      fun x ⟨q, hq, hx⟩ => ⟨q, by rw [h1]; exact List.mem_append_left _ hq, hx⟩
  cases hr : t.todo with
  | nil => rw [hr] at h2; dsimp only at h2; rw [h2.1]; exact hpre
  | cons q rest =>
    obtain ⟨i, v⟩ := q
    rw [hr] at h2 h1
    dsimp only at h2
    rw [h2.2]
    have hq : (i, v) ∈ calls := by rw [h1]; simp
    have hv := hl _ hq
    have up : ∀ {W : Bytes → Bytes}, Confined (InNode c.L (c.L.addr i)) W → Confined (InNodes c calls) W :=
      fun hW => hW.mono fun x hx => ⟨_, hq, hx⟩
    refine hpre.comp ?_
    cases t.task with
    | vector _ _ => exact up (setNDesc_confined hc _ 1)
    | init _ _ => exact up ((setNDesc_confined hc _ 1).comp (setVec_confined hc _ hv))
    | items => exact up (putItem_confined hc _ hv)
    | _ => exact Confined.id _

/-- One action of one goroutine: it keeps the index, stays on its way, and writes `W` into its own nodes. -/
theorem Thread.On.step (hc : c.WF) {s s' : Shared} {p : Nat} {l : List (Nat × List c.N.V)} {t : Thread c} {g : Bytes → Bytes} (h : t.On p l g)
    (hx : s'.x = s.x) (hsz : (s'.mem.arena p).size = (s.mem.arena p).size) (hp : s.x.ptr = some p)
    (hl : ∀ q ∈ l, q.2.length = c.L.f ∧ q.1 < s.x.nItems ∧ c.L.wrap (q.1 + 1) ≤ s.x.nodesSize ∧
      c.L.addr q.1 + c.L.nodeSize ≤ (s.mem.arena p).size) :
    ∃ W : Bytes → Bytes, Confined (InNodes c l) W ∧ (t.step s').2 = ⟨s'.mem.write (some p) W, s'.x⟩ ∧ (t.step s').1.On p l (fun b => W (g b)) ∧
      (t.todo ≠ [] → 6 * (t.step s').1.todo.length + t.task.pos + 1 = 6 * t.todo.length + (t.step s').1.task.pos) := by
  have same : s' = ⟨s'.mem.write (some p) id, s'.x⟩ := by
    have := write_id s'.mem (some p)
    have e : s'.mem.write (some p) id = s'.mem := this
    rw [e]
  obtain ⟨todo, task, failed⟩ := t
  obtain ⟨hf, pre, h1, h2⟩ := h
  dsimp only at hf h1 h2
  subst hf
  cases todo with
  | nil => exact ⟨id, Confined.id _, same, ⟨rfl, pre, h1, h2⟩, fun h => absurd rfl h⟩
  | cons q rest =>
    obtain ⟨i, v⟩ := q
    dsimp only at h2
    have hq : (i, v) ∈ l := by rw [h1]; simp
    obtain ⟨hv, hi, hn, ha⟩ := hl _ hq
    have up : ∀ {W : Bytes → Bytes}, Confined (InNode c.L (c.L.addr i)) W → Confined (InNodes c l) W :=
      fun hW => hW.mono fun x hx => ⟨_, hq, hx⟩
    dsimp only at hv hi hn ha
    obtain ⟨hpl, hg⟩ := h2
    cases task with
    | test =>
      have e : Thread.step ⟨(i, v) :: rest, .test, none⟩ s' = (⟨(i, v) :: rest, .map, none⟩, s') := by
        unfold Thread.step
        dsimp only
        rw [if_neg (by simp [hv]), if_neg (by rw [hx]; omega)]
      rw [e]
      exact ⟨id, Confined.id _, same, ⟨rfl, pre, h1, trivial, hg⟩, fun _ => by simp [Task.pos]⟩
    | map =>
      have e : Thread.step ⟨(i, v) :: rest, .map, none⟩ s' = (⟨(i, v) :: rest, .count p (c.L.addr i), none⟩, s') := by
        unfold Thread.step
        dsimp only
        rw [hx, hp]
        dsimp only
        rw [Idx.getNode_eq (by rw [hsz]; exact ha)]
      rw [e]
      exact ⟨id, Confined.id _, same, ⟨rfl, pre, h1, ⟨rfl, rfl⟩, hg⟩, fun _ => by simp [Task.pos]⟩
    | count q a =>
      obtain ⟨rfl, rfl⟩ := hpl
      exact ⟨_, up (setNDesc_confined hc _ 1), rfl, ⟨rfl, pre, h1, ⟨rfl, rfl⟩, by rw [hg]; rfl⟩, fun _ => by simp [Task.pos, Thread.step]⟩
    | vector q a =>
      obtain ⟨rfl, rfl⟩ := hpl
      exact ⟨_, up (setVec_confined hc _ hv), rfl, ⟨rfl, pre, h1, ⟨rfl, rfl⟩, by rw [hg]; rfl⟩, fun _ => by simp [Task.pos, Thread.step]⟩
    | init q a =>
      obtain ⟨rfl, rfl⟩ := hpl
      exact ⟨_, up (initNode_confined hc _), rfl, ⟨rfl, pre, h1, trivial, by rw [hg]; rfl⟩, fun _ => by simp [Task.pos, Thread.step]⟩
    | items =>
      have e : Thread.step ⟨(i, v) :: rest, .items, none⟩ s' = (⟨rest, .test, none⟩, s') := by
        unfold Thread.step
        dsimp only
        rw [if_neg (by rw [hx]; omega)]
      rw [e]
      refine ⟨id, Confined.id _, same, ⟨rfl, pre ++ [(i, v)], by simpa using h1, ?_⟩, fun _ => by simp [Task.pos]; omega⟩
      have e2 : g = putAll c (pre ++ [(i, v)]) := by
        rw [hg]; funext b; rw [putAll_append]; rfl
      cases rest with
      | nil => exact ⟨e2, rfl⟩
      | cons q rest => exact ⟨trivial, e2⟩
    | grow => exact hpl.elim
    | setNodes _ _ => exact hpl.elim
    | setSize _ => exact hpl.elim
    | setItems => exact hpl.elim

/-- The invariant holds at the start. -/
theorem Inv.start (s : Shared) (p : Nat) (calls : List (List (Nat × List c.N.V))) :
    Inv s p calls (calls.map fun _ => id) (Adding.start s calls) := by
  refine ⟨rfl, ?_, ⟨by simp, by simp [Adding.start]⟩, ?_⟩
  · have : through (calls.map fun _ => (id : Bytes → Bytes)) = fun b => b := by
      funext b
      unfold through
      induction calls with
      | nil => rfl
      | cons l ls ih => simpa using ih
    rw [this, write_id]
    rfl
  · intro n l t g hl ht hg
    simp only [Adding.start, List.getElem?_map, hl, Option.map_some, Option.some.injEq] at ht hg
    subst ht hg
    refine ⟨rfl, [], rfl, ?_⟩
    cases l with
    | nil => exact ⟨rfl, rfl⟩
    | cons q l => exact ⟨trivial, rfl⟩

/-- The invariant is kept by every action, and every action of a goroutine with calls left is progress. -/
theorem Inv.step (hc : c.WF) {s : Shared} {p : Nat} {calls : List (List (Nat × List c.N.V))} (hr : Ready s p calls)
    {gs : List (Bytes → Bytes)} {y : Adding c} (h : Inv s p calls gs y) (n : Nat) :
    (∃ gs', Inv s p calls gs' (y.step n)) ∧
      (∀ m, m ≠ n → (y.step n).threads[m]? = y.threads[m]?) ∧
      (∀ t, y.threads[n]? = some t → ∃ t', (y.step n).threads[n]? = some t' ∧
        (t.todo ≠ [] → 6 * t'.todo.length + t.task.pos + 1 = 6 * t.todo.length + t'.task.pos)) := by
  unfold Adding.step
  cases ht : y.threads[n]? with
  | none => exact ⟨⟨gs, h⟩, fun _ _ => rfl, fun _ h => by cases h⟩
  | some t =>
    have hn : n < calls.length := by
      have := (List.getElem?_eq_some_iff.1 ht).1
      have := h.len.2
      omega
    obtain ⟨l, hl⟩ : ∃ l, calls[n]? = some l := ⟨_, List.getElem?_eq_getElem hn⟩
    obtain ⟨g, hg⟩ : ∃ g, gs[n]? = some g := ⟨_, List.getElem?_eq_getElem (by rw [h.len.1]; exact hn)⟩
    have hon := h.on n l t g hl ht hg
    have hlm : l ∈ calls := List.mem_of_getElem? hl
    obtain ⟨W, hW, hs, ho, hpos⟩ := hon.step hc (s := s) (s' := y.shared) h.x (by rw [h.mem, write_size]) hr.ptr (hr.call l hlm)
    dsimp only
    refine ⟨⟨gs.set n fun b => W (g b), ?_, ?_, ?_, ?_⟩, ?_, ?_⟩
    · dsimp only; rw [hs]; exact h.x
    · dsimp only
      rw [hs]
      dsimp only
      rw [h.mem, write_write]
      congr 1
      funext b
      symm
      apply through_set gs n g hg
      intro m g' hm hg' b
      have hml : m < calls.length := by rw [← h.len.1]; exact (List.getElem?_eq_some_iff.1 hg').1
      obtain ⟨l', hl'⟩ : ∃ l', calls[m]? = some l' := ⟨_, List.getElem?_eq_getElem hml⟩
      obtain ⟨t', ht'⟩ : ∃ t', y.threads[m]? = some t' := ⟨_, List.getElem?_eq_getElem (by rw [h.len.2]; exact hml)⟩
      have hon' := h.on m l' t' g' hl' ht' hg'
      exact hW.comm (hon'.confined hc fun q hq => (hr.call l' (List.mem_of_getElem? hl') q hq).1) (hr.apart n m l l' (by omega) hl hl') b
    · exact ⟨by simpa using h.len.1, by simpa using h.len.2⟩
    · intro m l1 t1 g1 hl1 ht1 hg1
      by_cases hmn : m = n
      · subst hmn
        rw [hl] at hl1
        cases hl1
        dsimp only at ht1
        rw [List.getElem?_set_self (List.getElem?_eq_some_iff.1 ht).1] at ht1
        rw [List.getElem?_set_self (List.getElem?_eq_some_iff.1 hg).1] at hg1
        cases ht1
        cases hg1
        exact ho
      · dsimp only at ht1
        rw [List.getElem?_set_ne (Ne.symm hmn)] at ht1 hg1
        exact h.on m l1 t1 g1 hl1 ht1 hg1
    · intro m hm
      exact List.getElem?_set_ne (Ne.symm hm)
    · intro t1 ht1
      cases ht1
      exact ⟨_, List.getElem?_set_self (List.getElem?_eq_some_iff.1 ht).1, hpos⟩

theorem Inv.run (hc : c.WF) {s : Shared} {p : Nat} {calls : List (List (Nat × List c.N.V))} (hr : Ready s p calls) :
    ∀ (schedule : List Nat) {gs : List (Bytes → Bytes)} {y : Adding c}, Inv s p calls gs y → ∃ gs', Inv s p calls gs' (y.run schedule) := by
  intro schedule
  induction schedule with
  | nil => intro gs y h; exact ⟨gs, h⟩
  | cons n schedule ih =>
    intro gs y h
    obtain ⟨⟨gs', h'⟩, -⟩ := h.step hc hr n
    exact ih h'

/-- A goroutine that acts often enough is through. -/
theorem Inv.through (hc : c.WF) {s : Shared} {p : Nat} {calls : List (List (Nat × List c.N.V))} (hr : Ready s p calls) (n : Nat) :
    ∀ (schedule : List Nat) {gs : List (Bytes → Bytes)} {y : Adding c}, Inv s p calls gs y → ∀ t, y.threads[n]? = some t →
    6 * t.todo.length ≤ schedule.count n + t.task.pos → ∃ t', (y.run schedule).threads[n]? = some t' ∧ t'.todo = [] := by
  intro schedule
  induction schedule with
  | nil =>
    intro gs y h t ht hcnt
    refine ⟨t, ht, ?_⟩
    obtain ⟨hn, -⟩ := List.getElem?_eq_some_iff.1 ht
    rw [h.len.2] at hn
    obtain ⟨-, pre, -, h2⟩ := h.on n _ t _ (List.getElem?_eq_getElem hn) ht (List.getElem?_eq_getElem (by rw [h.len.1]; exact hn))
    cases hr : t.todo with
    | nil => rfl
    | cons q rest =>
      exfalso
      rw [hr] at hcnt
      have : t.task.pos ≤ 5 := by cases t.task <;> simp [Task.pos]
      simp at hcnt
      omega
  | cons m schedule ih =>
    intro gs y h t ht hcnt
    obtain ⟨⟨gs', h'⟩, h2, h3⟩ := h.step hc hr m
    by_cases hmn : m = n
    · subst hmn
      obtain ⟨t', ht', hp⟩ := h3 t ht
      refine ih h' t' ht' ?_
      by_cases htd : t.todo = []
      · have e : t' = t := by
          have : (y.step m).threads[m]? = some t := by
            obtain ⟨hn, -⟩ := List.getElem?_eq_some_iff.1 ht
            rw [h.len.2] at hn
            obtain ⟨hf, -⟩ := h.on m _ t _ (List.getElem?_eq_getElem hn) ht (List.getElem?_eq_getElem (by rw [h.len.1]; exact hn))
            unfold Adding.step
            rw [ht]
            have : t.step y.shared = (t, y.shared) := by unfold Thread.step; rw [hf, htd]
            dsimp only
            rw [this]
            exact List.getElem?_set_self (List.getElem?_eq_some_iff.1 ht).1
          rw [this] at ht'
          cases ht'; rfl
        rw [e, htd]
        simp
      · have := hp htd
        rw [List.count_cons_self] at hcnt
        omega
    · refine ih h' t (by rw [h2 n (Ne.symm hmn)]; exact ht) ?_
      rwa [List.count_cons_of_ne hmn] at hcnt

theorem through_all (calls : List (List (Nat × List c.N.V))) : ∀ b, Annoy.through (calls.map (putAll c)) b = putAll c calls.flatten b := by
  induction calls with
  | nil => intro b; rfl
  | cons l ls ih =>
    intro b
    rw [List.flatten_cons, putAll_append, ← ih]
    rfl

/-- All goroutines have returned: the memory is as if the calls had come one after the other. -/
theorem Inv.finished {s : Shared} {p : Nat} {calls : List (List (Nat × List c.N.V))} {gs : List (Bytes → Bytes)} {y : Adding c}
    (h : Inv s p calls gs y) (hy : y.Finished) : y.shared = ⟨s.mem.write (some p) (putAll c calls.flatten), s.x⟩ := by
  have e : gs = calls.map (putAll c) := by
    apply List.ext_getElem?
    intro n
    rw [List.getElem?_map]
    by_cases hn : n < calls.length
    · have hg := List.getElem?_eq_getElem (l := gs) (i := n) (by rw [h.len.1]; exact hn)
      have ht := List.getElem?_eq_getElem (l := y.threads) (i := n) (by rw [h.len.2]; exact hn)
      have hl := List.getElem?_eq_getElem hn
      obtain ⟨-, pre, h1, h2⟩ := h.on n _ _ _ hl ht hg
      obtain ⟨ht0, -⟩ := hy _ (List.mem_of_getElem? ht)
      rw [ht0] at h1 h2
      dsimp only at h2
      rw [hg, hl, h2.1, h1]
      simp
    · rw [List.getElem?_eq_none (by rw [h.len.1]; omega), List.getElem?_eq_none (by omega)]
      rfl
  have hm := h.mem
  have hx := h.x
  have : Annoy.through gs = putAll c calls.flatten := by rw [e]; funext b; exact through_all calls b
  rw [this] at hm
  cases hs : y.shared
  rw [hs] at hm hx
  dsimp only at hm hx
  rw [hm, hx]

end ConcAdd
end Annoy
