import Verif.Model.Registry
import Mathlib.Tactic.SplitIfs
/-!
# The registry of open files (C35)

Histories are lists of calls, run from the empty registry of a new allocator
(index/memory/index_allocator_mmap.go:55-59, index_allocator_gcmem.go:42-46).
-/
namespace Annoy
namespace Registry

/-- A call on an allocator or on one of its allocations. -/
inductive Op where
  /-- `Open(path)` that succeeds -/
  | opn (path : String)
  /-- `Open(path)` that returns an error or panics: nothing is registered
  (index_allocator_mmap.go:66-91, index_allocator_gcmem.go:53-82) -/
  | openFails (path : String)
  /-- `Close()` on the `i`-th allocation handed out; it may be closed already -/
  | close (i : Nat)
  /-- `Get(path)` -/
  | get (path : String)
deriving DecidableEq

/-- Effect of one call on the registry. -/
def step (r : Registry) : Op → Registry
  | .opn p => (r.opn p).2
  | .openFails _ => r
  | .close i => r.close i
  | .get _ => r

def run (r : Registry) (h : List Op) : Registry := h.foldl step r

/-! ### Specification: what a history says, without the map -/

/-- Paths of the allocations handed out by a history, in order. -/
def opened : List Op → List String
  | [] => []
  | .opn p :: h => p :: opened h
  | _ :: h => opened h

/-- The history contains a `Close` of allocation `i` after that allocation was handed out; `k`
allocations exist before the history. -/
def ClosedIn (i : Nat) : Nat → List Op → Prop
  | _, [] => False
  | k, .opn _ :: h => ClosedIn i (k + 1) h
  | k, .close j :: h => (j = i ∧ i < k) ∨ ClosedIn i k h
  | k, _ :: h => ClosedIn i k h

/-- The registry knows `i` under its own path only while it is open. -/
def Sane (r : Registry) : Prop :=
  ∀ p i, r.map p = some i → ∃ o, r.objs[i]? = some o ∧ o.path = p ∧ o.closed = false

theorem Sane.step {r : Registry} (h : r.Sane) (op : Op) : (r.step op).Sane := by
  cases op with
  | opn p =>
    intro q i hq
    simp only [Registry.step, Registry.opn] at hq ⊢
    by_cases hqp : q = p
    · rw [if_pos hqp] at hq
      cases hq
      exact ⟨⟨p, false⟩, by simp, hqp.symm, rfl⟩
    · rw [if_neg hqp] at hq
      obtain ⟨o, ho, hp, hc⟩ := h q i hq
      refine ⟨o, ?_, hp, hc⟩
      rw [List.getElem?_append_left (List.getElem?_eq_some_iff.mp ho).1]
      exact ho
  | openFails p => exact h
  | get p => exact h
  | close j =>
    intro q i hq
    simp only [Registry.step, Registry.close] at hq ⊢
    cases hj : r.objs[j]? with
    | none => rw [hj] at hq; exact h q i hq
    | some o =>
      rw [hj] at hq
      simp only at hq ⊢
      by_cases hqo : q = o.path
      · rw [if_pos hqo] at hq; cases hq
      · rw [if_neg hqo] at hq
        obtain ⟨o', ho', hp, hc⟩ := h q i hq
        refine ⟨o', ?_, hp, hc⟩
        have hij : j ≠ i := by
          intro e
          subst e
          rw [hj] at ho'
          cases ho'
          exact hqo hp.symm
        rw [List.getElem?_set_ne hij]
        exact ho'

theorem Sane.run {r : Registry} (h : r.Sane) (ops : List Op) : (r.run ops).Sane := by
  induction ops generalizing r with
  | nil => exact h
  | cons op ops ih => exact ih (h.step op)

theorem sane_empty : empty.Sane := fun _ _ h => by cases h

/-- The objects of a registry, as far as the history determines them. -/
theorem run_objs (r : Registry) (ops : List Op) (i : Nat) :
    ((r.run ops).objs[i]?.map RegObj.path = (r.objs.map RegObj.path ++ opened ops)[i]?) ∧
    ((r.run ops).isClosed i ↔ r.isClosed i ∨ ClosedIn i r.objs.length ops) := by
  induction ops generalizing r with
  | nil => simp [Registry.run, opened, ClosedIn]
  | cons op ops ih =>
    have ih := ih (r.step op)
    have hrun : r.run (op :: ops) = (r.step op).run ops := rfl
    rw [hrun]
    refine ⟨?_, ?_⟩
    · rw [ih.1]
      cases op with
      | opn p => simp [Registry.step, Registry.opn, opened]
      | openFails p => rfl
      | get p => rfl
      | close j =>
        congr 2
        simp only [Registry.step, Registry.close]
        cases hj : r.objs[j]? with
        | none => rfl
        | some o =>
          simp only
          rw [List.map_set]
          obtain ⟨hlt, hjo⟩ := List.getElem?_eq_some_iff.mp hj
          apply List.ext_getElem (by simp)
          intro k h1 h2
          rw [List.getElem_set]
          split_ifs with e
          · subst e; simp [hjo]
          · rfl
    · rw [ih.2]
      cases op with
      | openFails p => rfl
      | get p => rfl
      | opn p =>
        have : (r.step (.opn p)).isClosed i ↔ r.isClosed i := by
          simp only [isClosed, Registry.step, Registry.opn]
          constructor
          · rintro ⟨o, ho, hc⟩
            rw [List.getElem?_append] at ho
            split_ifs at ho with hlt
            · exact ⟨o, ho, hc⟩
            · exfalso
              have hm := List.mem_of_getElem? ho
              simp only [List.mem_singleton] at hm
              subst hm
              cases hc
          · rintro ⟨o, ho, hc⟩
            exact ⟨o, by rw [List.getElem?_append_left (List.getElem?_eq_some_iff.mp ho).1]; exact ho, hc⟩
        rw [this]
        simp [Registry.step, Registry.opn, ClosedIn]
      | close j =>
        cases hj : r.objs[j]? with
        | none =>
          have hge : r.objs.length ≤ j := List.getElem?_eq_none_iff.mp hj
          have : r.step (.close j) = r := by simp [Registry.step, Registry.close, hj]
          rw [this]
          simp only [ClosedIn]
          constructor
          · rintro (h | h)
            · exact Or.inl h
            · exact Or.inr (Or.inr h)
          · rintro (h | ⟨rfl, h⟩ | h)
            · exact Or.inl h
            · omega
            · exact Or.inr h
        | some o =>
          obtain ⟨hlt, hjo⟩ := List.getElem?_eq_some_iff.mp hj
          have hc : (r.step (.close j)).isClosed i ↔ r.isClosed i ∨ j = i := by
            simp only [isClosed, Registry.step, Registry.close, hj]
            by_cases e : j = i
            · subst e
              simp [hlt]
            · rw [List.getElem?_set_ne e]
              simp [e]
          have hl : (r.step (.close j)).objs.length = r.objs.length := by
            simp [Registry.step, Registry.close, hj]
          rw [hc, hl]
          simp only [ClosedIn]
          constructor
          · rintro ((h | rfl) | h)
            · exact Or.inl h
            · exact Or.inr (Or.inl ⟨rfl, hlt⟩)
            · exact Or.inr (Or.inr h)
          · rintro (h | ⟨h, _⟩ | h)
            · exact Or.inl (Or.inl h)
            · exact Or.inl (Or.inr h)
            · exact Or.inr h

/-- A history without another `Open` of `path` and without a `Close` of an allocation of `path`; `ps`
are the paths of the allocations handed out so far. -/
def Quiet (path : String) : List String → List Op → Prop
  | _, [] => True
  | ps, .opn p :: h => p ≠ path ∧ Quiet path (ps ++ [p]) h
  | ps, .close i :: h => ps[i]? ≠ some path ∧ Quiet path ps h
  | ps, _ :: h => Quiet path ps h

theorem run_quiet (r : Registry) (path : String) (ops : List Op)
    (h : Quiet path (r.objs.map RegObj.path) ops) : (r.run ops).map path = r.map path := by
  induction ops generalizing r with
  | nil => rfl
  | cons op ops ih =>
    have hrun : r.run (op :: ops) = (r.step op).run ops := rfl
    rw [hrun]
    cases op with
    | openFails p => exact ih r h
    | get p => exact ih r h
    | opn p =>
      rw [ih (r.step (.opn p)) (by simpa [Registry.step, Registry.opn] using h.2)]
      simp [Registry.step, Registry.opn, Ne.symm h.1]
    | close i =>
      have hp : (r.step (.close i)).objs.map RegObj.path = r.objs.map RegObj.path := by
        have := fun k => (run_objs r [.close i] k).1
        apply List.ext_getElem?
        intro k
        have := this k
        simp only [opened, List.append_nil] at this
        rw [List.getElem?_map]
        exact this
      rw [ih (r.step (.close i)) (by rw [hp]; exact h.2)]
      simp only [Registry.step, Registry.close]
      cases hi : r.objs[i]? with
      | none => rfl
      | some o =>
        simp only
        rw [if_neg]
        intro e
        apply h.1
        rw [List.getElem?_map, hi, e]
        rfl

/-- **C35, first half.**  After any history, `Get(path)` returns nothing or an allocation that the history handed
out for exactly this path and that it never closed. -/
theorem C35_get_open (h : List Op) (path : String) (i : Nat) (hg : (empty.run h).get path = some i) :
    (opened h)[i]? = some path ∧ ¬ ClosedIn i 0 h := by
  obtain ⟨o, ho, hp, hc⟩ := sane_empty.run h path i hg
  have := run_objs empty h i
  refine ⟨?_, ?_⟩
  · have h1 := this.1
    rw [ho] at h1
    simp only [Option.map_some, empty, List.map_nil, List.nil_append] at h1
    rw [← h1, hp]
  · intro hcl
    obtain ⟨o', ho', hc'⟩ := this.2.mpr (Or.inr hcl)
    rw [ho] at ho'
    cases ho'
    rw [hc] at hc'
    cases hc'

/-- **C35, second half.**  After any history, then `Open(path)`, then any calls among which there is no other
`Open` of this path and no `Close` of an allocation of this path, `Get(path)` returns the allocation of that
`Open`. -/
theorem C35_get_last (before after : List Op) (path : String)
    (hq : Quiet path (opened before ++ [path]) after) :
    (empty.run (before ++ .opn path :: after)).get path = some (opened before).length := by
  have hrun : empty.run (before ++ .opn path :: after)
      = ((empty.run before).step (.opn path)).run after := by
    simp [Registry.run, List.foldl_append]
  have hp : (empty.run before).objs.map RegObj.path = opened before := by
    apply List.ext_getElem?
    intro k
    rw [List.getElem?_map, (run_objs empty before k).1]
    rfl
  have hp2 : ((empty.run before).step (.opn path)).objs.map RegObj.path = opened before ++ [path] := by
    rw [← hp]
    simp [Registry.step, Registry.opn]
  rw [hrun, Registry.get, run_quiet _ _ _ (by rw [hp2]; exact hq)]
  simp only [Registry.step, Registry.opn]
  rw [if_pos trivial, ← hp, List.length_map]

/-- `Get` of a path that was never opened finds nothing. -/
theorem C35_get_unknown (h : List Op) (path : String) (hn : path ∉ opened h) :
    (empty.run h).get path = none := by
  cases hg : (empty.run h).get path with
  | none => rfl
  | some i => exact absurd (List.mem_of_getElem? (C35_get_open h path i hg).1) hn

/-- The map is keyed by path, not by allocation: when a file is opened twice, closing the first allocation
(even closing it a second time) makes the second, still open one unknown. -/
theorem C35_double_open (path : String) :
    let h := [Op.opn path, .opn path, .close 0]
    (empty.run h).get path = none ∧ (opened h)[1]? = some path ∧ ¬ ClosedIn 1 0 h := by
  simp [Registry.run, Registry.step, Registry.opn, Registry.close, Registry.get, empty, opened, ClosedIn]

-- Hypotheses are met: two files, one closed, one opened again.
example : (empty.run [.opn "a", .opn "b", .close 0, .openFails "c", .opn "a", .get "b"]).get "a" = some 2 :=
  C35_get_last [.opn "a", .opn "b", .close 0, .openFails "c"] [.get "b"] "a"
    (by simp [Quiet])
example : (empty.run [.opn "a", .opn "b", .close 0]).get "a" = none := by decide +kernel
example : Quiet "a" (opened [.opn "b"] ++ ["a"]) [.close 0, .opn "c", .get "a", .close 2, .close 7] := by
  simp [Quiet, opened]

end Registry
end Annoy
