import Verif.Proof.ConcSearch
import Verif.Props.SearchWitness
/-!
# C73: searches in several goroutines

"Create a new context per goroutine" (interfaces/index.go:37).  Several goroutines search the same index, each with its own
context, and take steps in any order.
-/
namespace Annoy
open ConcSearch
variable {c : Cfg} {w : World} {s : Idx c}

/-- A query: number of the context, vector, `numReturn`, `numNodesToInspect`. -/
structure Query (c : Cfg) where
  ctx : Nat
  vector : List c.N.V
  numReturn : Int
  numInspect : Int

/-- The moment before the first step of some queries of an index. -/
def Idx.searching (w : World) (s : Idx c) (ctxs : Nat → Ctx c) (qs : List (Query c)) : Searches c :=
  Searches.start ctxs (qs.map fun q => (q.ctx, s.searchCall w q.vector q.numReturn q.numInspect))

/-- What the query alone returns. -/
def Idx.answer (w : World) (s : Idx c) (ctxs : Nat → Ctx c) (q : Query c) (fuel : Nat) :
    Except Err (List Nat × List c.N.V × Ctx c) :=
  s.getNnsByVector fuel w q.vector q.numReturn q.numInspect (ctxs q.ctx)

theorem alone {ctxs : Nat → Ctx c} {qs : List (Query c)} (hn : (qs.map Query.ctx).Nodup) (schedule : List Nat) {n : Nat} {q : Query c}
    (hq : qs[n]? = some q) :
    ∃ t, ((s.searching w ctxs qs).run schedule).threads[n]? = some t ∧
      (t.task, ((s.searching w ctxs qs).run schedule).ctxs q.ctx) =
        (s.searchCall w q.vector q.numReturn q.numInspect).next^[schedule.count n]
          ((s.searchCall w q.vector q.numReturn q.numInspect).start, ctxs q.ctx) := by
  obtain ⟨_, h⟩ := thread_alone (ctxs := ctxs)
    (calls := qs.map fun q => (q.ctx, s.searchCall w q.vector q.numReturn q.numInspect))
    (by rw [List.map_map]; exact hn) schedule
  obtain ⟨t, h1, _, _, h4⟩ := h n (q.ctx, s.searchCall w q.vector q.numReturn q.numInspect) (by rw [List.getElem?_map, hq]; rfl)
  exact ⟨t, h1, h4⟩

/-- **C73**, answers: whatever the schedule, a search that is done has returned exactly what it returns alone, and left its
context as it does alone. -/
theorem C73_answers (hc : c.WF) {ctxs : Nat → Ctx c} (hx : ∀ i, (ctxs i).dist.length = (ctxs i).nns.length)
    {qs : List (Query c)} (hn : (qs.map Query.ctx).Nodup) (schedule : List Nat) {n : Nat} {q : Query c} (hq : qs[n]? = some q)
    {t : Thread c} (ht : ((s.searching w ctxs qs).run schedule).threads[n]? = some t) {ids : List Nat} {ds : List c.N.V}
    (hd : t.task = .done ids ds) :
    ∃ fuel, s.answer w ctxs q fuel = .ok (ids, ds, ((s.searching w ctxs qs).run schedule).ctxs q.ctx) := by
  obtain ⟨t', h1, h2⟩ := alone (w := w) (s := s) (ctxs := ctxs) hn schedule hq
  rw [ht] at h1
  cases h1
  rw [hd] at h2
  generalize ((s.searching w ctxs qs).run schedule).ctxs q.ctx = y at *
  have h := run_reaches (k := s.searchCall w q.vector q.numReturn q.numInspect) hc (schedule.count n) (ctxs q.ctx) (hx _)
  refine ⟨schedule.count n, ?_⟩
  unfold Idx.answer Idx.getNnsByVector
  change (match Search.run c (schedule.count n) (s.mem w) s.nItems s.roots q.vector q.numReturn q.numInspect (ctxs q.ctx) with
    | .ok (ids, ds, x') => _ | .error e => _) at h
  cases hr : Search.run c (schedule.count n) (s.mem w) s.nItems s.roots q.vector q.numReturn q.numInspect (ctxs q.ctx) with
  | ok p =>
    obtain ⟨ids', ds', x'⟩ := p
    rw [hr] at h
    have := Reaches.unique h ⟨_, h2.symm⟩ trivial trivial
    cases this
    rfl
  | error e =>
    rw [hr] at h
    rcases h with ⟨x', h⟩ | ⟨_, q', cnt, x', h⟩
    · have := Reaches.unique h ⟨_, h2.symm⟩ trivial trivial
      cases this
    · rw [h] at h2
      cases h2

/-- **C73**, panics: a search that fails, fails alone too. -/
theorem C73_failures (hc : c.WF) {ctxs : Nat → Ctx c} (hx : ∀ i, (ctxs i).dist.length = (ctxs i).nns.length)
    {qs : List (Query c)} (hn : (qs.map Query.ctx).Nodup) (schedule : List Nat) {n : Nat} {q : Query c} (hq : qs[n]? = some q)
    {t : Thread c} (ht : ((s.searching w ctxs qs).run schedule).threads[n]? = some t) {e : Err} (hd : t.task = .failed e) :
    ∃ fuel, s.answer w ctxs q fuel = .error e := by
  obtain ⟨t', h1, h2⟩ := alone (w := w) (s := s) (ctxs := ctxs) hn schedule hq
  rw [ht] at h1
  cases h1
  rw [hd] at h2
  generalize ((s.searching w ctxs qs).run schedule).ctxs q.ctx = y at *
  have h := run_reaches (k := s.searchCall w q.vector q.numReturn q.numInspect) hc (schedule.count n) (ctxs q.ctx) (hx _)
  refine ⟨schedule.count n, ?_⟩
  unfold Idx.answer Idx.getNnsByVector
  change (match Search.run c (schedule.count n) (s.mem w) s.nItems s.roots q.vector q.numReturn q.numInspect (ctxs q.ctx) with
    | .ok (ids, ds, x') => _ | .error e => _) at h
  cases hr : Search.run c (schedule.count n) (s.mem w) s.nItems s.roots q.vector q.numReturn q.numInspect (ctxs q.ctx) with
  | ok p =>
    obtain ⟨ids', ds', x'⟩ := p
    rw [hr] at h
    have := Reaches.unique h ⟨_, h2.symm⟩ trivial trivial
    cases this
  | error e' =>
    rw [hr] at h
    rcases h with ⟨x', h⟩ | ⟨_, q', cnt, x', h⟩
    · have := Reaches.unique h ⟨_, h2.symm⟩ trivial trivial
      cases this
      rfl
    · rw [h] at h2
      cases h2

/-- **C73**, completion: a search that returns something alone returns the same among others, as soon as it was given enough
steps. -/
theorem C73_finishes (hc : c.WF) {ctxs : Nat → Ctx c} (hx : ∀ i, (ctxs i).dist.length = (ctxs i).nns.length)
    {qs : List (Query c)} (hn : (qs.map Query.ctx).Nodup) {n : Nat} {q : Query c} (hq : qs[n]? = some q)
    {fuel : Nat} {ids : List Nat} {ds : List c.N.V} {x' : Ctx c} (h : s.answer w ctxs q fuel = .ok (ids, ds, x')) :
    ∃ N, ∀ schedule : List Nat, N ≤ schedule.count n →
      ∃ t, ((s.searching w ctxs qs).run schedule).threads[n]? = some t ∧ t.task = .done ids ds ∧
        ((s.searching w ctxs qs).run schedule).ctxs q.ctx = x' := by
  have hr := run_reaches (k := s.searchCall w q.vector q.numReturn q.numInspect) hc fuel (ctxs q.ctx) (hx _)
  unfold Idx.answer Idx.getNnsByVector at h
  change (match Search.run c fuel (s.mem w) s.nItems s.roots q.vector q.numReturn q.numInspect (ctxs q.ctx) with
    | .ok (ids, ds, x') => _ | .error e => _) at hr
  rw [h] at hr
  obtain ⟨N, hN⟩ := hr
  refine ⟨N, fun schedule hs => ?_⟩
  obtain ⟨t, h1, h2⟩ := alone (w := w) (s := s) (ctxs := ctxs) hn schedule hq
  obtain ⟨d, hd⟩ := Nat.exists_eq_add_of_le hs
  rw [hd, Nat.add_comm, Function.iterate_add_apply, hN, iterate_ended (by trivial)] at h2
  cases h2' : t.task <;> rw [h2'] at h2 <;> cases h2
  exact ⟨t, h1, h2', rfl⟩

/-! ### one context for two goroutines -/

/-- The indexes goroutine `n` returned. -/
def doneIds (x : Searches c) (n : Nat) : Option (List Nat) :=
  match x.threads[n]? with
  | some ⟨_, _, .done ids _⟩ => some ids
  | _ => none

theorem doneIds_some {x : Searches c} {n : Nat} {ids : List Nat} (h : doneIds x n = some ids) :
    ∃ t ds, x.threads[n]? = some t ∧ t.task = .done ids ds := by
  unfold doneIds at h
  split at h
  · next k i ids' ds e => cases h; exact ⟨_, ds, e, rfl⟩
  · cases h

/-- Both goroutines measure their distances before one of them sorts. -/
def crossed : List Nat := List.replicate 7 0 ++ List.replicate 7 1 ++ List.replicate 3 0 ++ List.replicate 3 1

/-- Nearest to item 0, and nearest to item 1, with contexts number `i` and `j`. -/
def twoQueries (i j : Nat) : List (Query (angular32 4 2)) :=
  [⟨i, [x32 0x3f800000, x32 0x3f000000], 1, -1⟩, ⟨j, [x32 0x3f000000, x32 0x3f800000], 1, -1⟩]

/-- The same on the memory an index is built in. -/
def searchingBuilt (s : Idx c) (ctxs : Nat → Ctx c) (qs : List (Query c)) : Searches c :=
  Searches.start ctxs (qs.map fun q => (q.ctx, ⟨s.bmem, s.nItems, s.roots, q.vector, q.numReturn, q.numInspect⟩))

theorem searching_built {s : Idx c} {m : Nat → Option (List c.N.V)} {n N0 : Nat} (h : s.Built m n N0) (w : World)
    (h0 : 0 < s.nNodes) (ctxs : Nat → Ctx c) (qs : List (Query c)) : s.searching w ctxs qs = searchingBuilt s ctxs qs := by
  obtain ⟨h1, h2⟩ := h.mem_eq w h0
  unfold Idx.searching searchingBuilt Idx.searchCall
  rw [h1, h2]

/-- The index of the examples: two items. -/
theorem crossed_case : ∃ s s', Session (angular32 4 2) 1 .single denseAdds 1 1 s s' ∧ ∀ w,
    doneIds ((s'.searching w (fun _ => s'.createContext) (twoQueries 0 1)).run crossed) 0 = some [0] ∧
    doneIds ((s'.searching w (fun _ => s'.createContext) (twoQueries 0 1)).run crossed) 1 = some [1] ∧
    doneIds ((s'.searching w (fun _ => s'.createContext) (twoQueries 0 0)).run crossed) 0 = some [1] ∧
    ∃ ds o, s'.getNnsByVector 100 w [x32 0x3f800000, x32 0x3f000000] 1 (-1) s'.createContext = .ok ([0], ds, o) := by
  obtain ⟨s, s', h, hp⟩ := made_with (c := angular32 4 2) (r := Kiss32.new 0) (adds := denseAdds) (trees := 1)
    (fun s' => decide (s'.roots = [2] ∧
      doneIds ((searchingBuilt s' (fun _ => s'.createContext) (twoQueries 0 1)).run crossed) 0 = some [0] ∧
      doneIds ((searchingBuilt s' (fun _ => s'.createContext) (twoQueries 0 1)).run crossed) 1 = some [1] ∧
      doneIds ((searchingBuilt s' (fun _ => s'.createContext) (twoQueries 0 0)).run crossed) 0 = some [1] ∧
      answerIds (Search.run (angular32 4 2) 100 s'.bmem s'.nItems s'.roots [x32 0x3f800000, x32 0x3f000000] 1 (-1)
        s'.createContext) = some [0]))
    (angular32_wf (Or.inl rfl) (by decide)) (legalAdds_of (by decide +kernel)) (by decide +kernel) (by decide +kernel)
  obtain ⟨h1, h2, h3, h4, h5⟩ := of_decide_eq_true hp
  refine ⟨s, s', h, fun w => ?_⟩
  obtain ⟨N0, B, _⟩ := h.built
  have h0 : 0 < s'.nNodes := by have := B.nNodes; rw [h1] at this; simp at this; omega
  obtain ⟨ds, o, e⟩ := answerIds_some h5
  rw [searching_built B w h0, searching_built B w h0]
  exact ⟨h2, h3, h4, ds, o, (B.search w h0 _ _ _ _ _).trans e⟩

/-- **C73 needs a context per goroutine**: two goroutines share one, both measure their distances, then the first one sorts
and returns: it returns item 1, the answer to the other goroutine's query; alone it returns item 0. -/
theorem C73_shared_context_refuted : ∃ s s', Session (angular32 4 2) 1 .single denseAdds 1 1 s s' ∧ ∀ w,
    (∃ t ds, ((s'.searching w (fun _ => s'.createContext) (twoQueries 0 0)).run crossed).threads[0]? = some t ∧
      t.task = .done [1] ds) ∧
    ∃ ds o, s'.getNnsByVector 100 w [x32 0x3f800000, x32 0x3f000000] 1 (-1) s'.createContext = .ok ([0], ds, o) := by
  obtain ⟨s, s', h, hw⟩ := crossed_case
  exact ⟨s, s', h, fun w => ⟨doneIds_some (hw w).2.2.1, (hw w).2.2.2⟩⟩

/-- `C73_answers` and `C73_finishes` apply to the same goroutines with a context each: both are done after the same schedule,
with their own answers. -/
example : ∃ s s', Session (angular32 4 2) 1 .single denseAdds 1 1 s s' ∧ (angular32 4 2).WF ∧
    s'.createContext.dist.length = s'.createContext.nns.length ∧ ((twoQueries 0 1).map Query.ctx).Nodup ∧ ∀ w,
    (∃ t ds, ((s'.searching w (fun _ => s'.createContext) (twoQueries 0 1)).run crossed).threads[0]? = some t ∧
      t.task = .done [0] ds) ∧
    (∃ t ds, ((s'.searching w (fun _ => s'.createContext) (twoQueries 0 1)).run crossed).threads[1]? = some t ∧
      t.task = .done [1] ds) ∧
    ∃ ds o, s'.getNnsByVector 100 w [x32 0x3f800000, x32 0x3f000000] 1 (-1) s'.createContext = .ok ([0], ds, o) := by
  obtain ⟨s, s', h, hw⟩ := crossed_case
  exact ⟨s, s', h, h.wf, by simp [Idx.createContext], by decide,
    fun w => ⟨doneIds_some (hw w).1, doneIds_some (hw w).2.1, (hw w).2.2.2⟩⟩

end Annoy
