import Verif.Model.ConcClose
import Verif.Props.ConcSave
/-!
# C123: `Close` while the index is searched
-/
namespace Annoy
namespace ConcClose
open ConcSearch
variable {c : Cfg}

/-- An index and some queries, before anything happens. -/
def State.of (s : Idx c) (w : World) (ctxs : Nat → Ctx c) (qs : List (Query c)) : State c :=
  State.start s w ctxs (qs.map fun q => (q.vector, q.numReturn, q.numInspect, q.ctx))

/-- What nil points to. -/
def gone : Block := ⟨0, zeros⟩

theorem getNode_gone (hc : c.WF) (i : Nat) : getNode c.L gone i = .error .oob := by
  have h1 := hc.layout.size_eq
  have h2 := hc.layout.offV_ge
  have h3 := hc.layout.szIX_pos
  unfold getNode gone
  rw [if_neg]
  show ¬ c.L.addr i + c.L.nodeSize ≤ 0
  omega

theorem one_le_K (hc : c.WF) : 1 ≤ c.L.K := by
  by_contra h
  have h0 : c.L.K = 0 := by omega
  have h1 := hc.layout.size_eq
  have h2 := hc.layout.offV_ge
  have h3 := hc.layout.szIX_pos
  have h4 := hc.layout.K_max
  rw [h0] at h4
  omega

/-- A search that has collected something and has not measured anything yet, or has failed. -/
def Doomed : Task c → Prop
  | .collect _ cnt => 0 < cnt
  | .sortIds cnt => 0 < cnt
  | .prepare len => 0 < len
  | .measure _ len i _ last => i = 0 ∧ 0 < len ∧ last = none
  | .failed _ => True
  | _ => False

/-- Without memory such a search fails sooner or later. -/
theorem Doomed.step (hc : c.WF) {k : Call c} (hk : k.mem = gone) {task : Task c} (h : Doomed task) (x : Ctx c) : Doomed (k.step task x).1 := by
  cases task with
  | collect q cnt =>
    dsimp only [Call.step]
    split
    · split
      · exact h
      · rw [hk, getNode_gone hc]
        trivial
    · exact h
  | sortIds cnt =>
    dsimp only [Call.step]
    split
    · trivial
    · exact h
  | prepare len =>
    dsimp only [Call.step]
    split
    · trivial
    · exact ⟨rfl, h, rfl⟩
  | measure vn len i cnt last =>
    obtain ⟨rfl, h1, rfl⟩ := h
    dsimp only [Call.step]
    rw [if_pos h1]
    split
    · trivial
    · rw [if_neg (by simp), hk, getNode_gone hc]
      trivial
  | sortPairs cnt => exact h.elim
  | answer middle i ids ds => exact h.elim
  | done ids ds => exact h.elim
  | failed e => trivial

/-- A turn without memory: nothing is read, or the search fails. -/
theorem step_gone (hc : c.WF) (k : Call c) (n : Nat) (task : Task c) (x : Ctx c) :
    Call.step { k with mem := gone, nItems := n } task x = k.step task x ∨
      ∃ e, (Call.step { k with mem := gone, nItems := n } task x).1 = .failed e := by
  cases task with
  | collect q cnt =>
    dsimp only [Call.step]
    change (if (cnt : Int) < k.budget then _ else _) = _ ∨ ∃ e, (if (cnt : Int) < k.budget then _ else _ : Task c × Ctx c).1 = _
    by_cases h : (cnt : Int) < k.budget
    · rw [if_pos h, if_pos h]
      split
      · exact Or.inl rfl
      · rw [getNode_gone hc]
        exact Or.inr ⟨_, rfl⟩
    · rw [if_neg h, if_neg h]
      exact Or.inl rfl
  | measure vn len i cnt last =>
    dsimp only [Call.step]
    by_cases h : i < len
    · rw [if_pos h, if_pos h]
      split
      · exact Or.inl rfl
      · split
        · exact Or.inl rfl
        · rw [getNode_gone hc]
          exact Or.inr ⟨_, rfl⟩
    · rw [if_neg h, if_neg h]
      exact Or.inl rfl
  | sortIds cnt => exact Or.inl rfl
  | prepare len => exact Or.inl rfl
  | sortPairs cnt => exact Or.inl rfl
  | answer middle i ids ds => exact Or.inl rfl
  | done ids ds => exact Or.inl rfl
  | failed e => exact Or.inl rfl

/-- A turn that has got the memory, but finds the number of items zero: as if nothing had happened, or an item was taken for a bucket. -/
theorem step_emptied (hc : c.WF) (k : Call c) (task : Task c) (x : Ctx c) :
    Call.step { k with nItems := 0 } task x = k.step task x ∨ Doomed (Call.step { k with nItems := 0 } task x).1 := by
  cases task with
  | collect q cnt =>
    dsimp only [Call.step]
    change (if (cnt : Int) < k.budget then _ else _) = _ ∨ Doomed (if (cnt : Int) < k.budget then _ else _ : Task c × Ctx c).1
    by_cases h : (cnt : Int) < k.budget
    · rw [if_pos h, if_pos h]
      split
      · exact Or.inl rfl
      · split
        · exact Or.inl rfl
        · rename_i a ha
          by_cases h1 : Node.nDesc c.L k.mem.get a = 1
          · rw [if_neg (by omega), h1]
            rw [if_pos (one_le_K hc)]
            right
            split
            · exact Nat.succ_pos _
            · trivial
          · left
            simp only [h1, false_and, if_false]
    · rw [if_neg h, if_neg h]
      exact Or.inl rfl
  | measure vn len i cnt last => exact Or.inl rfl
  | sortIds cnt => exact Or.inl rfl
  | prepare len => exact Or.inl rfl
  | sortPairs cnt => exact Or.inl rfl
  | answer middle i ids ds => exact Or.inl rfl
  | done ids ds => exact Or.inl rfl
  | failed e => exact Or.inl rfl

/-- The fields of the index after `p` steps of `Close`. -/
structure CloserAt (s : Idx c) (w : World) (x : State c) (p : Nat) : Prop where
  pc : x.pc = min p 4
  nodes : x.nodes = if p < 2 then s.mem w else gone
  nItems : x.nItems = if p < 3 then s.nItems else 0
  roots : x.roots = if p < 4 then s.roots else []

/-- A search that began before `Close` forgot the roots. -/
def Early (s : Idx c) (w : World) (ctx0 ctx : Ctx c) (q : Query c) (closes turns : Nat) (roots : List Nat) (task : Task c) (look : Option Block) : Prop :=
  roots = s.roots ∧ (∀ b, look = some b → b = s.mem w ∨ b = gone ∧ 2 ≤ closes) ∧
    ((task, ctx) = (s.searchCall w q.vector q.numReturn q.numInspect).next^[turns] ((s.searchCall w q.vector q.numReturn q.numInspect).start, ctx0) ∨
      1 ≤ closes ∧ ((∃ e, task = .failed e) ∨ 2 ≤ closes ∧ Doomed task ∧ ∀ b, look = some b → b = gone))

/-- A search that began later. -/
def Late (s : Idx c) (w : World) (ctx0 ctx : Ctx c) (q : Query c) (turns : Nat) (roots : List Nat) (task : Task c) (look : Option Block) : Prop :=
  roots = [] ∧ (∀ b, look = some b → b = gone) ∧
    (task, ctx) = (s.close.searchCall w q.vector q.numReturn q.numInspect).next^[turns] ((s.close.searchCall w q.vector q.numReturn q.numInspect).start, ctx0)

/-- A search after the steps of a schedule. -/
def SearchAt (s : Idx c) (w : World) (ctx0 ctx : Ctx c) (schedule : List (Option Nat)) (n : Nat) (q : Query c) :
    Option (List Nat × Task c × Option Block) → Prop
  | none => some n ∉ schedule ∧ ctx = ctx0
  | some (roots, task, look) => ∃ pre post, schedule = pre ++ some n :: post ∧ some n ∉ pre ∧ (look.isSome = true ↔ post.count (some n) % 2 = 1) ∧
      ((pre.count none < 4 ∧ Early s w ctx0 ctx q (schedule.count none) (post.count (some n) / 2) roots task look) ∨
        (4 ≤ pre.count none ∧ Late s w ctx0 ctx q (post.count (some n) / 2) roots task look))

/-- The state after the steps of a schedule. -/
structure Inv (s : Idx c) (w : World) (ctxs : Nat → Ctx c) (qs : List (Query c)) (schedule : List (Option Nat)) (x : State c) : Prop where
  closer : CloserAt s w x (schedule.count none)
  len : x.searches.length = qs.length
  search : ∀ n q, qs[n]? = some q → ∃ u, x.searches[n]? = some u ∧ u.query = q.vector ∧ u.numReturn = q.numReturn ∧
    u.numInspect = q.numInspect ∧ u.ctx = q.ctx ∧ SearchAt s w (ctxs q.ctx) (x.ctxs q.ctx) schedule n q u.at?

section
variable {mapping : Bool} {s : Idx c} {w : World} {ctxs : Nat → Ctx c} {qs : List (Query c)}

theorem Inv.start : Inv s w ctxs qs [] (State.of s w ctxs qs) := by
  refine ⟨⟨rfl, rfl, rfl, rfl⟩, by simp [State.of, State.start], fun n q hq => ?_⟩
  exact ⟨⟨q.vector, q.numReturn, q.numInspect, q.ctx, none⟩, by simp [State.of, State.start, hq], rfl, rfl, rfl, rfl, by simp, rfl⟩

/-- A step of another goroutine. -/
theorem SearchAt.other {ctx0 ctx : Ctx c} {schedule : List (Option Nat)} {n : Nat} {q : Query c} {a : Option (List Nat × Task c × Option Block)}
    (h : SearchAt s w ctx0 ctx schedule n q a) {m : Option Nat} (hm : m ≠ some n) : SearchAt s w ctx0 ctx (schedule ++ [m]) n q a := by
  cases a with
  | none => exact ⟨by simpa using ⟨h.1, fun e => hm e.symm⟩, h.2⟩
  | some p =>
    obtain ⟨roots, task, look⟩ := p
    obtain ⟨pre, post, h1, h2, h3, h4⟩ := h
    have hcount : (post ++ [m]).count (some n) = post.count (some n) := by
      rw [List.count_append, List.count_singleton, if_neg (by simpa using hm), Nat.add_zero]
    have hle : schedule.count none ≤ (schedule ++ [m]).count none := by rw [List.count_append]; omega
    refine ⟨pre, post ++ [m], by rw [h1]; simp, h2, by rw [hcount]; exact h3, ?_⟩
    rw [hcount]
    rcases h4 with ⟨g1, g2, g3, g4⟩ | g
    · refine Or.inl ⟨g1, g2, fun b hb => (g3 b hb).imp id fun h => ⟨h.1, by omega⟩, ?_⟩
      rcases g4 with g4 | ⟨g4, g5 | ⟨g5, g6⟩⟩
      · exact Or.inl g4
      · exact Or.inr ⟨by omega, Or.inl g5⟩
      · exact Or.inr ⟨by omega, Or.inr ⟨by omega, g6⟩⟩
    · exact Or.inr g

theorem CloserAt.close {x : State c} {p : Nat} (h : CloserAt s w x p) : CloserAt s w (x.close mapping) (p + 1) := by
  have hpc := h.pc
  unfold State.close
  split
  · next e =>
    have : p = 0 := by omega
    subst this
    exact ⟨rfl, h.nodes, h.nItems, h.roots⟩
  · next e =>
    have : p = 1 := by omega
    subst this
    exact ⟨rfl, rfl, h.nItems, h.roots⟩
  · next e =>
    have : p = 2 := by omega
    subst this
    exact ⟨rfl, h.nodes, rfl, h.roots⟩
  · next e =>
    have : p = 3 := by omega
    subst this
    exact ⟨rfl, h.nodes, h.nItems, rfl⟩
  · next e1 e2 e3 e4 =>
    have h4 : 4 ≤ p := by
      have e1 : x.pc ≠ 0 := e1
      have e2 : x.pc ≠ 1 := e2
      have e3 : x.pc ≠ 2 := e3
      have e4 : x.pc ≠ 3 := e4
      omega
    refine ⟨by omega, ?_, ?_, ?_⟩
    · rw [h.nodes, if_neg (by omega), if_neg (by omega)]
    · rw [h.nItems, if_neg (by omega), if_neg (by omega)]
    · rw [h.roots, if_neg (by omega), if_neg (by omega)]

theorem Inv.close {schedule : List (Option Nat)} {x : State c} (h : Inv s w ctxs qs schedule x) :
    Inv s w ctxs qs (schedule ++ [none]) (x.close mapping) := by
  have e : (x.close mapping).ctxs = x.ctxs ∧ (x.close mapping).searches = x.searches := by
    unfold State.close
    split <;> exact ⟨rfl, rfl⟩
  refine ⟨?_, by rw [e.2]; exact h.len, fun n q hq => ?_⟩
  · rw [List.count_append]
    exact h.closer.close
  · rw [e.1, e.2]
    obtain ⟨u, h1, h2, h3, h4, h5, h6⟩ := h.search n q hq
    exact ⟨u, h1, h2, h3, h4, h5, h6.other (by simp)⟩

/-- What `Close` has not changed yet, or has changed. -/
theorem CloserAt.nItems_eq {x : State c} {p : Nat} (h : CloserAt s w x p) : x.nItems = s.nItems ∨ (3 ≤ p ∧ x.nItems = 0) := by
  rw [h.nItems]
  by_cases hp : p < 3
  · exact Or.inl (if_pos hp)
  · exact Or.inr ⟨by omega, if_neg hp⟩

/-- A step of a search, seen from the search. -/
theorem SearchAt.step (hc : c.WF) {x : State c} {schedule : List (Option Nat)} (hs : CloserAt s w x (schedule.count none)) {ctx0 ctx : Ctx c} {n : Nat}
    {q : Query c} {a : Option (List Nat × Task c × Option Block)} (h : SearchAt s w ctx0 ctx schedule n q a)
    (hd : x.alive = true ∨ 1 ≤ schedule.count none) :
    match a with
    | none => SearchAt s w ctx0 ctx (schedule ++ [some n]) n q (some (x.roots, .collect (Search.initQueue c x.roots) 0, none))
    | some (roots, task, none) => SearchAt s w ctx0 ctx (schedule ++ [some n]) n q (some (roots, task, some x.nodes))
    | some (roots, task, some b) =>
      let r := Call.step (c := c) ⟨if x.alive then b else gone, x.nItems, roots, q.vector, q.numReturn, q.numInspect⟩ task ctx
      SearchAt s w ctx0 r.2 (schedule ++ [some n]) n q (some (roots, r.1, none)) := by
  have hcnt : (schedule ++ [some n]).count none = schedule.count none := by
    rw [List.count_append, List.count_singleton, if_neg (by simp)]; rfl
  match a, h with
  | none, h =>
    obtain ⟨h1, h2⟩ := h
    refine ⟨schedule, [], rfl, h1, by simp, ?_⟩
    rw [hcnt, h2, hs.roots]
    by_cases hp : schedule.count none < 4
    · rw [if_pos hp]
      exact Or.inl ⟨hp, rfl, by simp, Or.inl (by simp; rfl)⟩
    · rw [if_neg hp]
      exact Or.inr ⟨by omega, rfl, by simp, by simp; rfl⟩
  | some (roots, task, none), h =>
    obtain ⟨pre, post, h1, h2, h3, h4⟩ := h
    have hcount : (post ++ [some n]).count (some n) = post.count (some n) + 1 := by simp
    have hev : post.count (some n) % 2 = 0 := by
      by_contra hne
      have := h3.2 (by omega)
      cases this
    have hhalf : (post.count (some n) + 1) / 2 = post.count (some n) / 2 := by omega
    refine ⟨pre, post ++ [some n], by rw [h1]; simp, h2, by rw [hcount]; simp; omega, ?_⟩
    rw [hcount, hcnt, hhalf]
    rcases h4 with ⟨g1, g2, g3, g4⟩ | ⟨g1, g2, g3, g4⟩
    · refine Or.inl ⟨g1, g2, ?_, ?_⟩
      · rintro b e
        cases e
        rw [hs.nodes]
        split
        · exact Or.inl rfl
        · exact Or.inr ⟨rfl, by omega⟩
      · rcases g4 with g4 | ⟨g4, g5 | ⟨g5, g6, -⟩⟩
        · exact Or.inl g4
        · exact Or.inr ⟨g4, Or.inl g5⟩
        · refine Or.inr ⟨g4, Or.inr ⟨g5, g6, ?_⟩⟩
          rintro b e
          cases e
          rw [hs.nodes, if_neg (by omega)]
    · refine Or.inr ⟨g1, g2, ?_, g4⟩
      rintro b e
      cases e
      have : 4 ≤ schedule.count none := by rw [h1, List.count_append]; omega
      rw [hs.nodes, if_neg (by omega)]
  | some (roots, task, some b), h =>
    obtain ⟨pre, post, h1, h2, h3, h4⟩ := h
    have hcount : (post ++ [some n]).count (some n) = post.count (some n) + 1 := by simp
    have hodd : post.count (some n) % 2 = 1 := h3.1 rfl
    have hhalf : (post.count (some n) + 1) / 2 = post.count (some n) / 2 + 1 := by omega
    refine ⟨pre, post ++ [some n], by rw [h1]; simp, h2, by rw [hcount]; simp; omega, ?_⟩
    rw [hcount, hcnt, hhalf]
    rcases h4 with ⟨g1, g2, g3, g4⟩ | ⟨g1, g2, g3, g4⟩
    · refine Or.inl ⟨g1, g2, by simp, ?_⟩
      rcases g4 with g4 | ⟨g4, ⟨e, rfl⟩ | ⟨g5, g6, g7⟩⟩
      · set k := s.searchCall w q.vector q.numReturn q.numInspect with hk
        rw [Function.iterate_succ_apply', ← g4]
        have hb : (if x.alive then b else gone) = s.mem w ∨ (if x.alive then b else gone) = gone ∧ 1 ≤ schedule.count none := by
          cases ha : x.alive with
          | true => exact (g3 b rfl).imp id fun h => ⟨h.1, by omega⟩
          | false =>
            rw [ha] at hd
            exact Or.inr ⟨rfl, by simpa using hd⟩
        rcases hb with e | ⟨e, e'⟩
        · rcases hs.nItems_eq with e2 | ⟨e2, e3⟩
          · rw [e, e2, g2]
            exact Or.inl rfl
          · rw [e, e3, g2]
            rcases step_emptied hc k task ctx with f | f
            · exact Or.inl f
            · exact Or.inr ⟨by omega, Or.inr ⟨by omega, f, by simp⟩⟩
        · rw [e, g2]
          rcases step_gone hc k x.nItems task ctx with f | f
          · exact Or.inl f
          · exact Or.inr ⟨e', Or.inl f⟩
      · exact Or.inr ⟨g4, Or.inl ⟨e, rfl⟩⟩
      · refine Or.inr ⟨g4, Or.inr ⟨g5, ?_, by simp⟩⟩
        exact g6.step hc (by dsimp only; rw [g7 b rfl]; split <;> rfl) ctx
    · refine Or.inr ⟨g1, g2, by simp, ?_⟩
      have h4' : 4 ≤ schedule.count none := by rw [h1, List.count_append]; omega
      have e1 : (if x.alive = true then b else gone) = gone := by rw [g3 b rfl]; split <;> rfl
      have e2 : x.nItems = 0 := by rw [hs.nItems, if_neg (by omega)]
      rw [Function.iterate_succ_apply', ← g4, e1, e2, g2]
      rfl

/-- The memory is there until `Close` takes its first step. -/
def Alive (schedule : List (Option Nat)) (x : State c) : Prop := x.alive = true ∨ 1 ≤ schedule.count none

theorem Inv.search_step (hc : c.WF) (hn : (qs.map Query.ctx).Nodup) {schedule : List (Option Nat)} {x : State c} (h : Inv s w ctxs qs schedule x)
    (hd : Alive schedule x) {n : Nat} : Inv s w ctxs qs (schedule ++ [some n]) (x.search n) := by
  have hcnt : (schedule ++ [some n]).count none = schedule.count none := by
    rw [List.count_append, List.count_singleton, if_neg (by simp)]; rfl
  cases hu : x.searches[n]? with
  | none =>
    have e : x.search n = x := by unfold State.search; rw [hu]
    rw [e]
    refine ⟨by rw [hcnt]; exact h.closer, h.len, fun m q hq => ?_⟩
    obtain ⟨u, h1, h2, h3, h4, h5, h6⟩ := h.search m q hq
    refine ⟨u, h1, h2, h3, h4, h5, h6.other ?_⟩
    rintro e
    cases e
    rw [hu] at h1
    cases h1
  | some u =>
    have hlt := (List.getElem?_eq_some_iff.1 hu).1
    obtain ⟨q, hq⟩ : ∃ q, qs[n]? = some q := ⟨_, List.getElem?_eq_getElem (by rw [← h.len]; exact hlt)⟩
    obtain ⟨u', a1, a2, a3, a4, a5, a6⟩ := h.search n q hq
    rw [hu] at a1
    cases a1
    have hne : ∀ m q', m ≠ n → qs[m]? = some q' → q'.ctx ≠ u.ctx := by
      intro m q' hm hq' e
      rw [a5] at e
      apply hm
      obtain ⟨l1, e1⟩ := List.getElem?_eq_some_iff.1 hq'
      obtain ⟨l2, e2⟩ := List.getElem?_eq_some_iff.1 hq
      refine (hn.getElem_inj_iff (hi := by simpa using l1) (hj := by simpa using l2)).1 ?_
      simp only [List.getElem_map, e1, e2]
      exact e
    -- the state after the step, from what the step does to the context and to where the search is
    have key : ∀ (ctx' : Ctx c) (a : Option (List Nat × Task c × Option Block)),
        SearchAt s w (ctxs q.ctx) ctx' (schedule ++ [some n]) n q a →
        Inv s w ctxs qs (schedule ++ [some n]) { x with
          ctxs := fun i => if i = u.ctx then ctx' else x.ctxs i
          searches := x.searches.set n { u with at? := a } } := by
      intro ctx' a ha
      refine ⟨by rw [hcnt]; exact ⟨h.closer.pc, h.closer.nodes, h.closer.nItems, h.closer.roots⟩, by simpa using h.len, fun m q' hq' => ?_⟩
      by_cases hm : m = n
      · subst hm
        rw [hq] at hq'
        cases hq'
        refine ⟨_, List.getElem?_set_self hlt, a2, a3, a4, a5, ?_⟩
        dsimp only
        rw [a5, if_pos rfl]
        exact ha
      · obtain ⟨u', b1, b2, b3, b4, b5, b6⟩ := h.search m q' hq'
        refine ⟨u', by dsimp only; rw [List.getElem?_set_ne (fun e => hm e.symm)]; exact b1, b2, b3, b4, b5, ?_⟩
        dsimp only
        rw [if_neg (hne m q' hm hq')]
        exact b6.other (by simpa using fun e => hm e.symm)
    have same : ∀ a, ({ x with searches := x.searches.set n { u with at? := a } } : State c) =
        { x with
          ctxs := fun i => if i = u.ctx then x.ctxs u.ctx else x.ctxs i
          searches := x.searches.set n { u with at? := a } } := by
      intro a
      have : x.ctxs = fun i => if i = u.ctx then x.ctxs u.ctx else x.ctxs i := by
        funext i
        split
        · next e => rw [e]
        · rfl
      rw [← this]
    unfold State.search
    rw [hu]
    dsimp only
    match hat : u.at? with
    | none =>
      rw [hat] at a6
      have hst := a6.step hc h.closer hd
      dsimp only
      rw [same]
      exact key _ _ (by rw [a5]; exact hst)
    | some (roots, task, none) =>
      rw [hat] at a6
      have hst := a6.step hc h.closer hd
      dsimp only
      rw [same]
      exact key _ _ (by rw [a5]; exact hst)
    | some (roots, task, some b) =>
      rw [hat] at a6
      have hst := a6.step hc h.closer hd
      dsimp only
      refine key _ _ ?_
      rw [a2, a3, a4, a5]
      exact hst

theorem Alive.run (schedule : List (Option Nat)) : Alive schedule ((State.of s w ctxs qs).run mapping schedule) := by
  induction schedule using List.reverseRecOn with
  | nil => exact Or.inl rfl
  | append_singleton l a ih =>
    unfold State.run at ih ⊢
    rw [List.foldl_append]
    cases a with
    | none => exact Or.inr (by simp)
    | some n =>
      have e : ∀ x : State c, (x.search n).alive = x.alive := by
        intro x
        unfold State.search
        split
        · rfl
        · split <;> rfl
      rcases ih with h | h
      · left
        show (State.search _ n).alive = true
        rw [e]
        exact h
      · right
        rw [List.count_append]
        omega

theorem Inv.run (hc : c.WF) (hn : (qs.map Query.ctx).Nodup) (schedule : List (Option Nat)) :
    Inv s w ctxs qs schedule ((State.of s w ctxs qs).run mapping schedule) := by
  induction schedule using List.reverseRecOn with
  | nil => exact Inv.start
  | append_singleton l a ih =>
    have ha := Alive.run (mapping := mapping) (s := s) (w := w) (ctxs := ctxs) (qs := qs) l
    unfold State.run at ih ha ⊢
    rw [List.foldl_append]
    cases a with
    | none => exact ih.close
    | some n => exact ih.search_step hc hn ha

theorem bind_ok {α β : Type} {x : Except Err α} {f : α → Except Err β} {y : β} (h : x >>= f = .ok y) : ∃ a, x = .ok a ∧ f a = .ok y := by
  cases x with
  | error e => cases h
  | ok a => exact ⟨a, rfl, h⟩

/-- A search of a closed index finds nothing. -/
theorem C123_nothing (hc : c.WF) {q : Query c} {fuel : Nat} {ids : List Nat} {ds : List c.N.V} {x : Ctx c}
    (h : s.close.answer w ctxs q fuel = .ok (ids, ds, x)) : ids = [] ∧ ds = [] := by
  unfold Idx.answer Idx.getNnsByVector Search.run at h
  have hloop : ∀ b r, Search.loop c (s.close.mem w) s.close.nItems q.vector b fuel (Search.initQueue c s.close.roots) (ctxs q.ctx).nns 0 = .ok r →
      r = ((ctxs q.ctx).nns, 0) := by
    intro b r hr
    cases fuel with
    | zero => cases hr
    | succ n =>
      unfold Search.loop at hr
      split at hr
      · cases hr
        rfl
      · cases hr
        rfl
  obtain ⟨r, h1, h⟩ := bind_ok h
  rw [hloop _ _ h1] at h
  dsimp only at h
  rw [if_neg (by omega)] at h
  obtain ⟨vn, -, h⟩ := bind_ok h
  obtain ⟨l, h2, h⟩ := bind_ok h
  have e : c.sortIds (((ctxs q.ctx).nns).take 0) = [] := List.perm_nil.1 (by simpa using hc.sortIds_perm [])
  rw [e] at h2
  cases h2
  have e2 : ∀ m, c.partialSort [] 0 m 0 = [] := fun m => List.perm_nil.1 (hc.partialSort_perm [] m)
  simp only [List.length_nil, e2, List.take_nil, List.map_nil] at h
  cases h
  exact ⟨rfl, rfl⟩

/-- **C123**: whatever the index and the schedule of `Close` and of the searches, a search that has returned has returned exactly what it returns alone, on
the index if it began before `Close` forgot the roots, on the closed index otherwise.  A search that fails has been overtaken by `Close`, or it fails alone. -/
theorem C123_answers (hc : c.WF) (hx : ∀ i, (ctxs i).dist.length = (ctxs i).nns.length) (hn : (qs.map Query.ctx).Nodup) (schedule : List (Option Nat))
    {n : Nat} {q : Query c} (hq : qs[n]? = some q) {pre post : List (Option Nat)} (hs : schedule = pre ++ some n :: post) (hpre : some n ∉ pre) :
    ∃ u roots task look, ((State.of s w ctxs qs).run mapping schedule).searches[n]? = some u ∧ u.at? = some (roots, task, look) ∧
      (∀ ids ds, task = .done ids ds → ∃ fuel, (if pre.count none < 4 then s else s.close).answer w ctxs q fuel =
        .ok (ids, ds, ((State.of s w ctxs qs).run mapping schedule).ctxs q.ctx)) ∧
      (∀ e, task = .failed e → (∃ fuel, (if pre.count none < 4 then s else s.close).answer w ctxs q fuel = .error e) ∨
        (pre.count none < 4 ∧ 1 ≤ schedule.count none)) := by
  have hi := Inv.run (mapping := mapping) (s := s) (w := w) (ctxs := ctxs) hc hn schedule
  obtain ⟨u, h1, -, -, -, -, h2⟩ := hi.search n q hq
  match hat : u.at? with
  | none =>
    rw [hat] at h2
    exact absurd (by rw [hs]; simp) h2.1
  | some (roots, task, look) =>
    rw [hat] at h2
    obtain ⟨pre', post', e1, e2, -, e4⟩ := h2
    rw [hs] at e1
    obtain ⟨rfl, rfl⟩ := ConcSave.split_unique e1 hpre e2
    refine ⟨u, roots, task, look, h1, hat, ?_, ?_⟩
    · rintro ids ds rfl
      rcases e4 with ⟨g1, -, -, g | ⟨-, ⟨e, g⟩ | ⟨-, g, -⟩⟩⟩ | ⟨g1, -, -, g⟩
      · rw [if_pos g1]
        exact ConcSave.alone_done hc (hx _) g
      · cases g
      · exact g.elim
      · rw [if_neg (by omega)]
        exact ConcSave.alone_done hc (hx _) g
    · rintro e rfl
      rcases e4 with ⟨g1, -, -, g | ⟨g, -⟩⟩ | ⟨g1, -, -, g⟩
      · rw [if_pos g1]
        exact Or.inl (ConcSave.alone_failed hc (hx _) g)
      · exact Or.inr ⟨g1, g⟩
      · rw [if_neg (by omega)]
        exact Or.inl (ConcSave.alone_failed hc (hx _) g)

/-- **C123**, completion: as long as `Close` has not begun, a search that returns something alone returns the same as soon as it was given enough steps. -/
theorem C123_finishes (hc : c.WF) (hx : ∀ i, (ctxs i).dist.length = (ctxs i).nns.length) (hn : (qs.map Query.ctx).Nodup)
    {n : Nat} {q : Query c} (hq : qs[n]? = some q) {fuel : Nat} {ids : List Nat} {ds : List c.N.V} {x : Ctx c}
    (h : s.answer w ctxs q fuel = .ok (ids, ds, x)) :
    ∃ N, ∀ schedule : List (Option Nat), none ∉ schedule → N ≤ schedule.count (some n) →
      ∃ u roots look, ((State.of s w ctxs qs).run mapping schedule).searches[n]? = some u ∧ u.at? = some (roots, .done ids ds, look) ∧
        ((State.of s w ctxs qs).run mapping schedule).ctxs q.ctx = x := by
  obtain ⟨N, hN⟩ := ConcSave.alone_finishes hc (hx _) h
  refine ⟨2 * N + 1, fun schedule hno hle => ?_⟩
  have hi := Inv.run (mapping := mapping) (s := s) (w := w) (ctxs := ctxs) hc hn schedule
  obtain ⟨u, h1, -, -, -, -, h2⟩ := hi.search n q hq
  have h0 : schedule.count none = 0 := List.count_eq_zero.2 hno
  match hat : u.at? with
  | none =>
    rw [hat] at h2
    exact absurd (List.count_pos_iff.1 (by omega)) h2.1
  | some (roots, task, look) =>
    rw [hat] at h2
    obtain ⟨pre, post, e1, e2, -, e4⟩ := h2
    have hcount : schedule.count (some n) = post.count (some n) + 1 := by
      rw [e1, List.count_append, List.count_eq_zero.2 e2, List.count_cons_self, Nat.zero_add]
    rcases e4 with ⟨-, -, -, g | ⟨g, -⟩⟩ | ⟨g1, -⟩
    · rw [hN _ (by omega)] at g
      have ht := congrArg Prod.fst g
      have hx2 := congrArg Prod.snd g
      dsimp only at ht hx2
      subst ht
      exact ⟨u, roots, look, h1, hat, hx2⟩
    · omega
    · have : pre.count none ≤ schedule.count none := by rw [e1, List.count_append]; omega
      omega

/-- When `Close` is done the fields that searches read are those of the closed index. -/
theorem C123_closed (hc : c.WF) (hn : (qs.map Query.ctx).Nodup) (schedule : List (Option Nat)) (h4 : 4 ≤ schedule.count none) :
    ((State.of s w ctxs qs).run mapping schedule).nodes = s.close.mem w ∧ ((State.of s w ctxs qs).run mapping schedule).nItems = s.close.nItems ∧
      ((State.of s w ctxs qs).run mapping schedule).roots = s.close.roots := by
  have hi := (Inv.run (mapping := mapping) (s := s) (w := w) (ctxs := ctxs) hc hn schedule).closer
  exact ⟨by rw [hi.nodes, if_neg (by omega)]; rfl, by rw [hi.nItems, if_neg (by omega)]; rfl, by rw [hi.roots, if_neg (by omega)]; rfl⟩

end

/-! ### a case -/

/-- The items that search number `n` returned, or what it failed with. -/
def outcome (x : State c) (n : Nat) : Option (Except Err (List Nat)) :=
  match x.searches[n]? with
  | some ⟨_, _, _, _, some (_, .done ids _, _)⟩ => some (.ok ids)
  | some ⟨_, _, _, _, some (_, .failed e, _)⟩ => some (.error e)
  | _ => none

/-- Whether search number `n` returned `ids`. -/
def returned (x : State c) (n : Nat) (ids : List Nat) : Bool :=
  match outcome x n with
  | some (.ok l) => decide (l = ids)
  | _ => false

/-- Whether search number `n` read outside the memory. -/
def outside (x : State c) (n : Nat) : Bool :=
  match outcome x n with
  | some (.error .oob) => true
  | _ => false

/-- Search 0 is done before `Close`, search 1 is overtaken by it. -/
def overtaken : List (Option Nat) :=
  List.replicate 30 (some 0) ++ [some 1, some 1, none, none, none, some 1, none] ++ List.replicate 10 (some 1)

/-- Search 0 collects its nodes, `Close` runs, search 1 begins and ends. -/
def late : List (Option Nat) := List.replicate 3 (some 0) ++ List.replicate 4 none ++ List.replicate 20 (some 1)

/-- Two items, one tree: `Close` comes too late for search 0, search 1 reads nil; and a search that begins after `Close` returns nothing.  The hypotheses of
`C123_answers` and `C123_finishes` hold. -/
theorem C123_case : ∃ s s', Session (angular32 4 2) 1 .single denseAdds 1 1 s s' ∧
    (∀ i : Nat, ((fun _ => s'.createContext : Nat → Ctx (angular32 4 2)) i).dist.length = ((fun _ => s'.createContext : Nat → Ctx (angular32 4 2)) i).nns.length) ∧
    ((twoQueries 0 1).map Query.ctx).Nodup ∧
    returned ((State.of s' ConcSave.noFiles (fun _ => s'.createContext) (twoQueries 0 1)).run false overtaken) 0 [0] = true ∧
    outside ((State.of s' ConcSave.noFiles (fun _ => s'.createContext) (twoQueries 0 1)).run false overtaken) 1 = true ∧
    outcome ((State.of s' ConcSave.noFiles (fun _ => s'.createContext) (twoQueries 0 1)).run false late) 0 = none ∧
    returned ((State.of s' ConcSave.noFiles (fun _ => s'.createContext) (twoQueries 0 1)).run false late) 1 [] = true ∧
    ∃ ds o, s'.getNnsByVector 100 ConcSave.noFiles [x32 0x3f800000, x32 0x3f000000] 1 (-1) s'.createContext = .ok ([0], ds, o) := by
  obtain ⟨s, s', h, hp⟩ := made_with (c := angular32 4 2) (r := Kiss32.new 0) (adds := denseAdds) (trees := 1)
    (fun s' => decide (
      returned ((State.of s' ConcSave.noFiles (fun _ => s'.createContext) (twoQueries 0 1)).run false overtaken) 0 [0] = true ∧
      outside ((State.of s' ConcSave.noFiles (fun _ => s'.createContext) (twoQueries 0 1)).run false overtaken) 1 = true ∧
      (outcome ((State.of s' ConcSave.noFiles (fun _ => s'.createContext) (twoQueries 0 1)).run false late) 0).isNone = true ∧
      returned ((State.of s' ConcSave.noFiles (fun _ => s'.createContext) (twoQueries 0 1)).run false late) 1 [] = true ∧
      answerIds (s'.getNnsByVector 100 ConcSave.noFiles [x32 0x3f800000, x32 0x3f000000] 1 (-1) s'.createContext) = some [0]))
    (angular32_wf (Or.inl rfl) (by decide)) (legalAdds_of (by decide +kernel)) (by decide +kernel) (by decide +kernel)
  obtain ⟨h2, h3, h4, h5, h6⟩ := of_decide_eq_true hp
  obtain ⟨ds, o, e⟩ := answerIds_some h6
  exact ⟨s, s', h, fun i => by simp [Idx.createContext], by decide, h2, h3, Option.isNone_iff_eq_none.1 h4, h5, ds, o, e⟩

end ConcClose
end Annoy
