import Verif.Proof.SearchSession
import Verif.Props.Finish
/-!
# Searching a built index (C16 to C21, C24, C26)

`TopK` (Spec/Search.lean) says what a right answer is; `itemDist` is the distance of the query from an added
vector, computed by the distance implementation on nodes that hold just these two vectors.
-/
namespace Annoy

/-! ### queries whose margin can be computed -/

theorem angular_marginOk {N : Num} {C : Codec N.V} {R : Rng} {sI sP} {k f : Nat} {query : List N.V}
    (hq : query.length = f) (hf : 0 < f) : MarginOk (angularCfg N C R sI sP k f) query := by
  intro b a
  show ∃ x, Angular.margin _ b a query = .ok x
  unfold Angular.margin
  have h1 : query.isEmpty = false := by
    cases query with
    | nil => simp at hq; omega
    | cons x xs => rfl
  rw [h1, if_neg (by simp), if_neg (show ¬ query.length < (angularLayout k C.sz f).f from (show ¬ query.length < f by omega))]
  exact ⟨_, rfl⟩

theorem dot_marginOk {N : Num} {C : Codec N.V} {R : Rng} {sI sP} {k f : Nat} {query : List N.V}
    (hq : query.length = f) (hf : 0 < f) : MarginOk (dotCfg N C R sI sP k f) query := by
  intro b a
  show ∃ x, DotProduct.margin _ b a query = .ok x
  unfold DotProduct.margin
  have h1 : query.isEmpty = false := by
    cases query with
    | nil => simp at hq; omega
    | cons x xs => rfl
  rw [h1, if_neg (by simp), if_neg (show ¬ query.length < (dotLayout k C.sz f).f from (show ¬ query.length < f by omega))]
  exact ⟨_, rfl⟩

/-- A query as the search expects it: right length, and `Margin` can be computed (always so for a positive length, see
`angular_marginOk` and `dot_marginOk`). -/
structure GoodQuery (c : Cfg) (query : List c.N.V) : Prop where
  length : query.length = c.L.f
  margin : MarginOk c query

namespace Search
variable {c : Cfg} {mem : Block} {n : Nat} {roots : List Nat} {m : Nat → Option (List c.N.V)} {ts : List Tree}

/-- What a search collected and what it answers. -/
theorem answer (hc : c.WF) (hN : c.N.Lawful) (h : Searchable c mem n roots m ts) {query : List c.N.V}
    (hq : GoodQuery c query) {k b : Int} {fuel : Nat} {ctx : Ctx c} {ids : List Nat} {ds : List c.N.V} {ctx' : Ctx c}
    (hr : run c fuel mem n roots query k b ctx = .ok (ids, ds, ctx')) :
    ∃ done rest : List Tree, (done ++ rest.flatMap Tree.leaves).Perm (ts.flatMap Tree.leaves) ∧
      (rest = [] ∨ (if b = -1 then k * roots.length else b) ≤ (done.flatMap Tree.items).length) ∧
      collect mem n query (if b = -1 then k * roots.length else b) fuel (initQueue c roots) [] =
        .ok (done.flatMap Tree.items) ∧
      TopK c.N c.D.normalizedDistance (itemDist c m query) (itemsAmong m n (done.flatMap Tree.items)) k.toNat ids ds := by
  obtain ⟨col, h1, h2⟩ := collect_of_run hr
  obtain ⟨done, rest, d1, d2, d3⟩ := candidates hc h hq.margin (if b = -1 then k * roots.length else b)
    (Nat.lt_succ_self (Tree.sizes ts))
  have e := collect_det h1 d1
  subst e
  obtain ⟨ids', ds', ctx'', r1, r2, _⟩ := run_of_collect (b := b) hc hN h hq.length h1 (col_below h d2) h2
  rw [hr] at r1
  cases r1
  exact ⟨done, rest, d2, d3, h1, r2⟩

theorem itemsAmong_live {col : List Nat} : ∀ i ∈ itemsAmong m n col, (m i).isSome :=
  fun _ hi => (mem_itemsAmong.1 hi).2.2

/-- A search has an answer if the context is large enough, else it panics; nothing else can happen. -/
theorem outcome (hc : c.WF) (hN : c.N.Lawful) (h : Searchable c mem n roots m ts) {query : List c.N.V}
    (hq : GoodQuery c query) (k b : Int) {fuel : Nat} (hf : Tree.sizes ts < fuel) (ctx : Ctx c) :
    (∃ x, run c fuel mem n roots query k b ctx = .ok x) ∨
      (ctx.nns.length < (ts.flatMap Tree.items).length ∧ ∃ msg, run c fuel mem n roots query k b ctx = .error (.panic msg)) := by
  obtain ⟨done, rest, d1, d2, d3⟩ := candidates hc h hq.margin (if b = -1 then k * roots.length else b) hf
  have hl := (done_items d2).length_eq
  rw [List.length_append] at hl
  by_cases hfit : (done.flatMap Tree.items).length ≤ ctx.nns.length
  · obtain ⟨ids, ds, ctx', r1, _⟩ := run_of_collect (b := b) hc hN h hq.length d1 (col_below h d2) hfit
    exact Or.inl ⟨_, r1⟩
  · refine Or.inr ⟨by omega, run_panic d1 (by omega)⟩

/-- With a budget of at least `(number of roots) * (items - 1) + 1` all items are looked at. -/
theorem exhaustive (hc : c.WF) (hN : c.N.Lawful) (h : Searchable c mem n roots m ts) (C : Complete m ts)
    (U : (∀ t ∈ ts, t.items.Perm (liveOf m n)) ∨ ∀ t ∈ ts, t.leaves = [t]) {query : List c.N.V}
    (hq : GoodQuery c query) {k b : Int} {fuel : Nat} {ctx : Ctx c} {ids : List Nat} {ds : List c.N.V} {ctx' : Ctx c}
    (hroots : roots ≠ []) (hb : ((roots.length * ((liveOf m n).length - 1) + 1 : Nat) : Int) ≤ b)
    (hr : run c fuel mem n roots query k b ctx = .ok (ids, ds, ctx')) :
    TopK c.N c.D.normalizedDistance (itemDist c m query) (liveOf m n) k.toNat ids ds ∧
      ids = (best c m query k (liveOf m n)).map Prod.snd ∧
      ds = (best c m query k (liveOf m n)).map fun p => c.D.normalizedDistance p.1 := by
  obtain ⟨done, rest, d1, d2, d3, d4⟩ := answer hc hN h hq hr
  have hT : ts.length = roots.length := by rw [← h.roots]; simp
  have hne : ts ≠ [] := by rintro rfl; exact hroots (by rw [← h.roots]; rfl)
  have hb1 : b ≠ -1 := by omega
  rw [if_neg hb1] at d2
  have hu : Uniform (liveOf m n).length ts := by
    rcases U with U | U
    · exact Or.inl fun t ht => (U t ht).length_eq.le
    · exact Or.inr U
  have hall : ∀ i, (m i).isSome → i ∈ done.flatMap Tree.items := fun i hi =>
    all_found C hu d1 d2 hne (by rw [hT]; exact hb) hi
  have hS : itemsAmong m n (done.flatMap Tree.items) = liveOf m n := by
    unfold itemsAmong liveOf
    apply List.filter_congr
    intro i _
    by_cases hi : (m i).isSome
    · simp only [hi, hall i hi, and_self, decide_true]
    · simp [hi]
  obtain ⟨col, e1, e2⟩ := collect_of_run hr
  have e := collect_det e1 d3
  have hbest := run_best hc h hq.length d3 (col_below h d1) (e ▸ e2) hr
  rw [hS] at d4 hbest
  exact ⟨d4, hbest⟩

/-- With the default budget there are as many results as asked for, or as items. -/
theorem default_count (hc : c.WF) (hN : c.N.Lawful) (h : Searchable c mem n roots m ts) (C : Complete m ts)
    (U : (∀ t ∈ ts, t.items.Perm (liveOf m n)) ∨ ∀ t ∈ ts, t.leaves = [t]) {query : List c.N.V}
    (hq : GoodQuery c query) {k : Nat} {fuel : Nat} {ctx : Ctx c} {ids : List Nat} {ds : List c.N.V} {ctx' : Ctx c}
    (hroots : roots ≠ []) (hr : run c fuel mem n roots query k (-1) ctx = .ok (ids, ds, ctx')) :
    ids.length = min k (liveOf m n).length ∧ ds.length = ids.length := by
  obtain ⟨done, rest, d1, d2, d3, d4⟩ := answer hc hN h hq hr
  have hT : ts.length = roots.length := by rw [← h.roots]; simp
  have hne : ts ≠ [] := by rintro rfl; exact hroots (by rw [← h.roots]; rfl)
  rw [if_pos rfl, ← hT] at d2
  have hlive : ∀ i, i ∈ liveOf m n ↔ (m i).isSome := fun i =>
    mem_liveOf.trans ⟨fun h => h.2, fun hi => ⟨h.bound i hi, hi⟩⟩
  have h1 := enough_found h C (liveOf_nodup _ _) hlive U d1 (k := k) (by
    rcases d2 with d2 | d2
    · exact Or.inl d2
    · right; push_cast; exact d2) hne
  have h2 : (itemsAmong m n (done.flatMap Tree.items)).length ≤ (liveOf m n).length :=
    (List.subperm_of_subset (itemsAmong_nodup _ _ _) fun i hi =>
      (hlive i).2 (mem_itemsAmong.1 hi).2.2).length_le
  have h3 := d4.length
  have h4 := congrArg List.length d4.dists
  rw [List.length_map] at h4
  refine ⟨?_, h4⟩
  rw [h3, Int.toNat_natCast]
  omega

/-! ### the content of the context -/

theorem loop_content {query : List c.N.V} {budget : Int} (fuel : Nat) : ∀ {q cnt} {buf buf' : List Nat},
    buf.length = buf'.length → buf.take cnt = buf'.take cnt →
    (∃ e, loop c mem n query budget fuel q buf cnt = .error e ∧ loop c mem n query budget fuel q buf' cnt = .error e) ∨
    ∃ o o' k, loop c mem n query budget fuel q buf cnt = .ok (o, k) ∧ loop c mem n query budget fuel q buf' cnt = .ok (o', k) ∧
      o.length = buf.length ∧ o'.length = buf.length ∧ o.take k = o'.take k := by
  induction fuel with
  | zero => intro q cnt buf buf' _ _; exact Or.inl ⟨_, rfl, rfl⟩
  | succ fuel ih =>
    intro q cnt buf buf' hl ht
    unfold loop
    by_cases h1 : (cnt : Int) < budget
    · rw [if_pos h1, if_pos h1]
      cases hp : Heap.pop (pairLess c.N) q with
      | none => exact Or.inr ⟨buf, buf', cnt, rfl, rfl, rfl, hl.symm, ht⟩
      | some v =>
        obtain ⟨⟨d, i⟩, q'⟩ := v
        dsimp only
        cases hg : getNode c.L mem i with
        | error e => exact Or.inl ⟨e, rfl, rfl⟩
        | ok a =>
          simp only [bind, Except.bind]
          by_cases h2 : Node.nDesc c.L mem.get a = 1 ∧ i < n
          · rw [if_pos h2, if_pos h2]
            by_cases h3 : cnt < buf.length
            · rw [if_pos h3, if_pos (by omega)]
              have := ih (q := q') (cnt := cnt + 1) (buf := buf.set cnt i) (buf' := buf'.set cnt i) (by simp [hl]) (by
                rw [List.take_add_one, List.take_add_one, List.take_set_of_le (Nat.le_refl _), List.take_set_of_le (Nat.le_refl _), ht]
                simp [h3, hl ▸ h3])
              simpa using this
            · rw [if_neg h3, if_neg (by omega)]; exact Or.inl ⟨_, rfl, rfl⟩
          · rw [if_neg h2, if_neg h2]
            by_cases h3 : Node.nDesc c.L mem.get a ≤ c.L.K
            · rw [if_pos h3, if_pos h3]
              by_cases h4 : cnt ≤ buf.length
              · rw [if_pos h4, if_pos (by omega)]
                set ch := Node.getChildren c.L mem.get a with hch
                have hcl : ch.length = Node.nDesc c.L mem.get a := by rw [hch]; unfold Node.getChildren; simp
                have e1 := copyAt_length buf ch cnt h4
                have e2 := copyAt_length buf' ch cnt (by omega)
                have := ih (q := q') (cnt := cnt + Node.nDesc c.L mem.get a) (buf := copyAt buf cnt ch)
                  (buf' := copyAt buf' cnt ch) (by omega) (by
                    unfold copyAt
                    rw [← ht, hl]
                    generalize hA : List.take cnt buf ++ List.take (buf'.length - cnt) ch = A
                    have hAl : A.length = min (cnt + ch.length) buf'.length := by
                      rw [← hA]
                      simp only [List.length_append, List.length_take]
                      omega
                    by_cases h5 : cnt + ch.length ≤ buf'.length
                    · rw [List.take_left' (by omega), List.take_left' (by omega)]
                    · rw [List.drop_eq_nil_of_le (by omega), List.drop_eq_nil_of_le (by omega)])
                rw [e1] at this
                exact this
              · rw [if_neg h4, if_neg (by omega)]; exact Or.inl ⟨_, rfl, rfl⟩
            · rw [if_neg h3, if_neg h3]
              cases hm : c.D.margin mem.get a query with
              | error e => exact Or.inl ⟨e, rfl, rfl⟩
              | ok x => exact ih hl ht
    · rw [if_neg h1, if_neg h1]
      exact Or.inr ⟨buf, buf', cnt, rfl, rfl, rfl, hl.symm, ht⟩

theorem distances_length {vn : Bytes} (l : List Nat) : ∀ {last r}, distances c mem vn last l = .ok r → r.length ≤ l.length := by
  induction l with
  | nil => intro last r h; cases h; simp
  | cons j js ih =>
    intro last r h
    unfold distances at h
    split at h
    · exact (ih h).trans (by simp)
    · simp only [bind, Except.bind] at h
      split at h
      · cases h
      · split at h
        · cases h
        · next rest hrest =>
          have := ih hrest
          split at h <;> cases h <;> simp <;> omega

/-- A query sees only the size of the context. -/
theorem run_content (hc : c.WF) (fuel : Nat) (query : List c.N.V) (k b : Int) {ctx ctx' : Ctx c}
    (hl : ctx.nns.length = ctx'.nns.length) (hd : ctx.dist.length = ctx.nns.length) (hd' : ctx'.dist.length = ctx'.nns.length) :
    (∃ e, run c fuel mem n roots query k b ctx = .error e ∧ run c fuel mem n roots query k b ctx' = .error e) ∨
    ∃ ids ds o o', run c fuel mem n roots query k b ctx = .ok (ids, ds, o) ∧
      run c fuel mem n roots query k b ctx' = .ok (ids, ds, o') ∧
      o.nns.length = ctx.nns.length ∧ o.dist.length = ctx.nns.length ∧
      o'.nns.length = ctx.nns.length ∧ o'.dist.length = ctx.nns.length := by
  unfold run
  rcases loop_content (c := c) (mem := mem) (n := n) (query := query) (budget := if b = -1 then k * roots.length else b)
    fuel (q := initQueue c roots) (cnt := 0) (buf := ctx.nns) (buf' := ctx'.nns) hl (by simp) with
    ⟨e, h1, h2⟩ | ⟨o, o', cnt, h1, h2, h3, h4, h5⟩
  · simp only [h1, h2, bind, Except.bind]; exact Or.inl ⟨e, rfl, rfl⟩
  · simp only [h1, h2, bind, Except.bind]
    by_cases h6 : cnt > o.length
    · rw [if_pos h6, if_pos (by omega)]; exact Or.inl ⟨_, rfl, rfl⟩
    · rw [if_neg h6, if_neg (by omega), h5]
      cases hv : queryNode c query with
      | error e => exact Or.inl ⟨e, rfl, rfl⟩
      | ok vn =>
        dsimp only
        cases hds : distances c mem vn none (c.sortIds (o'.take cnt)) with
        | error e => exact Or.inl ⟨e, rfl, rfl⟩
        | ok r =>
          dsimp only
          have hr := distances_length _ hds
          have hp := (hc.sortIds_perm (o'.take cnt)).length_eq
          have hm := fun x => (hc.partialSort_perm r x).length_eq
          rw [hp, List.length_take] at hr
          refine Or.inr ⟨_, _, _, _, rfl, rfl, ?_, ?_, ?_, ?_⟩ <;>
            simp only [List.length_append, List.length_drop, hp, hm, List.length_take] <;> omega

end Search

section
variable {c : Cfg} {numCPU : Nat} {pol : BuildPolicy} {adds : List (Nat × List c.N.V)} {trees workers : Int}
  {s s' : Idx c}

/-! ### C16 -/

/-- **C16**: whatever a query of a built index returns is a right answer for a set `S` of added items that it looked at:
at most `numReturn` indexes, no duplicates, all added, in order of (distance, index), the i-th distance being the
normalized distance of the i-th item, and nothing that was looked at is missing in front of a returned item. -/
theorem C16_sound (h : Session c numCPU pol adds trees workers s s') (hN : c.N.Lawful) (w : World) {query : List c.N.V}
    (hq : GoodQuery c query) {k b : Int} {fuel : Nat} {ctx ctx' : Ctx c} {ids : List Nat} {ds : List c.N.V}
    (hr : s'.getNnsByVector fuel w query k b ctx = .ok (ids, ds, ctx')) :
    ∃ S : List Nat, S.Nodup ∧ (∀ i ∈ S, (lastAdded adds i).isSome) ∧
      TopK c.N c.D.normalizedDistance (itemDist c (lastAdded adds) query) S k.toNat ids ds := by
  obtain ⟨ts, S, _⟩ := h.searchable w
  obtain ⟨done, rest, _, _, _, r⟩ := Search.answer h.wf hN S hq hr
  exact ⟨_, itemsAmong_nodup _ _ _, Search.itemsAmong_live, r⟩

/-! ### C17 -/

/-- **C17**, given that inner nodes survive (`SplitsKept`): with a budget of at least
`(number of roots) * (items - 1) + 1` the answer is the answer of a linear scan over all added items. -/
theorem C17_exhaustive_partial (h : Session c numCPU pol adds trees workers s s')
    (hk : SplitsKept c numCPU pol (slotCount adds) trees workers) (hN : c.N.Lawful) (w : World) {query : List c.N.V}
    (hq : GoodQuery c query) {k b : Int} {fuel : Nat} {ctx ctx' : Ctx c} {ids : List Nat} {ds : List c.N.V}
    (hroots : s'.roots ≠ [])
    (hb : ((s'.roots.length * ((addedIds adds).length - 1) + 1 : Nat) : Int) ≤ b)
    (hr : s'.getNnsByVector fuel w query k b ctx = .ok (ids, ds, ctx')) :
    TopK c.N c.D.normalizedDistance (itemDist c (lastAdded adds) query) (addedIds adds) k.toNat ids ds ∧
    ((∀ i ∈ addedIds adds, c.N.Ordinary (itemDist c (lastAdded adds) query i)) →
      ids = nearest c.N (itemDist c (lastAdded adds) query) (addedIds adds) k.toNat) := by
  obtain ⟨ts, S, C, U, _⟩ := h.searchable_complete hk w
  obtain ⟨N0, B, _⟩ := h.built
  have e : liveOf (lastAdded adds) s'.nItems = addedIds adds := by rw [B.nItems]
  obtain ⟨d4, _⟩ := Search.exhaustive h.wf hN S C (by rw [e]; exact U) hq hroots (by rw [e]; exact hb) hr
  rw [e] at d4
  exact ⟨d4, fun ho => (d4.unique hN (nearest_topK hN _ (liveOf_nodup _ _) ho k.toNat) (List.Perm.refl _) ho).1⟩

/-! ### C18 -/

/-- **C18**, given that inner nodes survive (`SplitsKept`): with the default budget exactly
`min numReturn (number of added items)` results are returned. -/
theorem C18_default_count_partial (h : Session c numCPU pol adds trees workers s s')
    (hk : SplitsKept c numCPU pol (slotCount adds) trees workers) (hN : c.N.Lawful) (w : World) {query : List c.N.V}
    (hq : GoodQuery c query) {k : Nat} {fuel : Nat} {ctx ctx' : Ctx c} {ids : List Nat} {ds : List c.N.V}
    (hroots : s'.roots ≠ []) (hr : s'.getNnsByVector fuel w query k (-1) ctx = .ok (ids, ds, ctx')) :
    ids.length = min k (addedIds adds).length ∧ ds.length = ids.length := by
  obtain ⟨ts, S, C, U, _⟩ := h.searchable_complete hk w
  obtain ⟨N0, B, _⟩ := h.built
  have e : liveOf (lastAdded adds) s'.nItems = addedIds adds := by rw [B.nItems]
  rw [← e]
  exact Search.default_count h.wf hN S C (by rw [e]; exact U) hq hroots hr

/-! ### C19 -/

/-- **C19**: when the budget is increased, and neither query fails, the answer has at least as many entries, and
position by position the entry does not come later in the order of (distance, index); in particular the i-th distance is
not larger.  Distances are assumed not to be NaN. -/
theorem C19_budget (h : Session c numCPU pol adds trees workers s s') (hN : c.N.Lawful) (w : World) {query : List c.N.V}
    (hq : GoodQuery c query) {k b b' : Int} (hb : b ≤ b') (h1 : b ≠ -1) (h2 : b' ≠ -1) {fuel fuel' : Nat}
    {ctx ctx' o o' : Ctx c} {ids ids' : List Nat} {ds ds' : List c.N.V}
    (ho : ∀ i ∈ addedIds adds, c.N.Ordinary (itemDist c (lastAdded adds) query i))
    (hr : s'.getNnsByVector fuel w query k b ctx = .ok (ids, ds, o))
    (hr' : s'.getNnsByVector fuel' w query k b' ctx' = .ok (ids', ds', o')) :
    ids.length ≤ ids'.length ∧ ∀ (a : Nat) (ha : a < ids.length) (ha' : a < ids'.length),
      ¬ PairLt c.N (itemDist c (lastAdded adds) query ids[a], ids[a]) (itemDist c (lastAdded adds) query ids'[a], ids'[a]) ∧
      c.N.lt (itemDist c (lastAdded adds) query ids[a]) (itemDist c (lastAdded adds) query ids'[a]) = false := by
  obtain ⟨ts, S, _⟩ := h.searchable w
  obtain ⟨done, rest, d1, d2, d3, d4⟩ := Search.answer h.wf hN S hq hr
  obtain ⟨done', rest', e1, e2, e3, e4⟩ := Search.answer h.wf hN S hq hr'
  rw [if_neg h1] at d3
  rw [if_neg h2] at e3
  have d3' := Search.collect_mono _ d3 (le_max_left fuel fuel')
  have e3' := Search.collect_mono _ e3 (le_max_right fuel fuel')
  have hpre := Search.collect_budget hb _ d3' e3'
  have hsub : ∀ i ∈ itemsAmong (lastAdded adds) s'.nItems (done.flatMap Tree.items),
      i ∈ itemsAmong (lastAdded adds) s'.nItems (done'.flatMap Tree.items) := by
    intro i hi
    obtain ⟨x1, x2, x3⟩ := mem_itemsAmong.1 hi
    exact mem_itemsAmong.2 ⟨x1, hpre.subset x2, x3⟩
  have hlen := (List.subperm_of_subset (itemsAmong_nodup _ _ _) hsub).length_le
  have ho' : ∀ i ∈ itemsAmong (lastAdded adds) s'.nItems (done'.flatMap Tree.items),
      c.N.Ordinary (itemDist c (lastAdded adds) query i) :=
    fun i hi => ho i (mem_addedIds.2 (mem_itemsAmong.1 hi).2.2)
  refine ⟨by rw [d4.length, e4.length]; omega, fun a ha ha' => ?_⟩
  have := d4.mono hN e4 hsub ho' ha ha'
  refine ⟨this, ?_⟩
  by_contra hcon
  rw [Bool.not_eq_false] at hcon
  exact this (Or.inl hcon)

/-! ### C20 -/

/-- Every query of a built index comes to an end: there is a number of queue pops, depending on the index only, after which the search has
ended; no node outside the index is read; the only way not to answer is a context that is too small. -/
theorem C65_search_terminates (h : Session c numCPU pol adds trees workers s s') (hN : c.N.Lawful) (w : World) :
    ∃ F : Nat, ∀ (query : List c.N.V), GoodQuery c query → ∀ (k b : Int) (ctx : Ctx c) (fuel : Nat), F ≤ fuel →
      (∃ x, s'.getNnsByVector fuel w query k b ctx = .ok x) ∨
      ∃ msg, s'.getNnsByVector fuel w query k b ctx = .error (.panic msg) := by
  obtain ⟨ts, S, _⟩ := h.searchable w
  refine ⟨Tree.sizes ts + 1, fun query hq k b ctx fuel hf => ?_⟩
  rcases Search.outcome h.wf hN S hq k b (by omega : Tree.sizes ts < fuel) ctx with h1 | ⟨_, h1⟩
  · exact Or.inl h1
  · exact Or.inr h1

/-- The trees of an index with `n` slots have at most `n` entries each. -/
theorem Search.items_length_le {L : Layout} {b : Bytes} {n : Nat} {live : List Nat} {ts : List Tree} (hle : live.length ≤ n)
    (R : ∀ t ∈ ts, RootTree L b n live t) : (ts.flatMap Tree.items).length ≤ ts.length * n := by
  apply Search.flatMap_length_le
  intro t ht
  have hR := R t ht
  cases t with
  | item i => exact hR.elim
  | hole i => exact hR.elim
  | bucket i l =>
    obtain ⟨_, _, _, _, l', h5, rfl⟩ := hR
    have := h5.length_eq
    simp only [Tree.items, List.length_append, List.length_replicate]
    omega
  | split i l r =>
    obtain ⟨_, _, _, h4, _⟩ := hR
    have := ((R _ ht).items_perm fun h5 => by omega).length_eq
    omega

/-- **C20**, given that inner nodes survive (`SplitsKept`): twice the number of tree nodes, plus one, bounds the number of
queue pops for all roots together; no node outside the index is read.  If the context has room for every entry of
every tree, there is an answer. -/
theorem C20_bound_partial (h : Session c numCPU pol adds trees workers s s')
    (hk : SplitsKept c numCPU pol (slotCount adds) trees workers) (hN : c.N.Lawful) (w : World) {query : List c.N.V}
    (hq : GoodQuery c query) (k b : Int) (ctx : Ctx c) {fuel : Nat} (hf : 2 * (s'.nNodes - s'.nItems) < fuel) :
    ((∃ x, s'.getNnsByVector fuel w query k b ctx = .ok x) ∨
      ∃ msg, s'.getNnsByVector fuel w query k b ctx = .error (.panic msg)) ∧
    (s'.roots.length * slotCount adds ≤ ctx.nns.length → ∃ x, s'.getNnsByVector fuel w query k b ctx = .ok x) := by
  obtain ⟨ts, S, C, U, Z, R⟩ := h.searchable_complete hk w
  have ho := Search.outcome h.wf hN S hq k b (by omega : Tree.sizes ts < fuel) ctx
  refine ⟨?_, fun hl => ?_⟩
  · rcases ho with h1 | ⟨_, h1⟩
    · exact Or.inl h1
    · exact Or.inr h1
  · have hT : ts.length = s'.roots.length := by rw [← S.roots]; simp
    obtain ⟨N0, B, _⟩ := h.built
    have hlen := Search.items_length_le (live := addedIds adds) (n := slotCount adds) (liveOf_length_le _ _)
      (fun t ht => by have := R t ht; rwa [B.nItems] at this)
    rw [hT] at hlen
    rcases ho with h1 | ⟨h1, _⟩
    · exact h1
    · omega

/-! ### C21 -/

/-- **C21**: the outcome of a query (answer or failure) does not depend on what is in the context, whatever the index, the memory or the
query; and the context keeps its size, so this holds for every sequence of queries. -/
theorem C21_context_content (hc : c.WF) (w : World) (t : Idx c) (fuel : Nat) (query : List c.N.V) (k b : Int) {ctx ctx' : Ctx c}
    (hl : ctx.nns.length = ctx'.nns.length) (hd : ctx.dist.length = ctx.nns.length) (hd' : ctx'.dist.length = ctx'.nns.length) :
    (∃ e, t.getNnsByVector fuel w query k b ctx = .error e ∧ t.getNnsByVector fuel w query k b ctx' = .error e) ∨
    ∃ ids ds o o', t.getNnsByVector fuel w query k b ctx = .ok (ids, ds, o) ∧
      t.getNnsByVector fuel w query k b ctx' = .ok (ids, ds, o') ∧
      o.nns.length = ctx.nns.length ∧ o.dist.length = ctx.nns.length ∧
      o'.nns.length = ctx.nns.length ∧ o'.dist.length = ctx.nns.length :=
  Search.run_content hc fuel query k b hl hd hd'

/-- One query of a sequence: fuel, query, `numReturn`, `numNodesToInspect`. -/
structure Asked (c : Cfg) where
  fuel : Nat
  query : List c.N.V
  k : Int
  b : Int

/-- Queries one after the other with the same context. -/
def Idx.askAll (t : Idx c) (w : World) : List (Asked c) → Ctx c → Except Err (List (List Nat × List c.N.V) × Ctx c)
  | [], ctx => .ok ([], ctx)
  | q :: qs, ctx => do
    let (ids, ds, ctx) ← t.getNnsByVector q.fuel w q.query q.k q.b ctx
    let (rs, ctx) ← t.askAll w qs ctx
    .ok ((ids, ds) :: rs, ctx)

/-- **C21** for sequences: each query of a sequence that reuses a context answers as with a new context. -/
theorem C21_reuse (hc : c.WF) (w : World) (t : Idx c) (qs : List (Asked c)) : ∀ {ctx : Ctx c},
    ctx.nns.length = t.createContext.nns.length → ctx.dist.length = ctx.nns.length →
    ∀ {rs ctx'}, t.askAll w qs ctx = .ok (rs, ctx') →
      rs.length = qs.length ∧ ∀ (a : Nat) (ha : a < qs.length) (ha' : a < rs.length),
        ∃ o, t.getNnsByVector qs[a].fuel w qs[a].query qs[a].k qs[a].b t.createContext = .ok (rs[a].1, rs[a].2, o) := by
  induction qs with
  | nil => intro ctx _ _ rs ctx' h; cases h; exact ⟨rfl, fun a ha => absurd ha (by simp)⟩
  | cons q qs ih =>
    intro ctx hl hd rs ctx' h
    unfold Idx.askAll at h
    simp only [bind, Except.bind] at h
    rcases C21_context_content hc w t q.fuel q.query q.k q.b hl hd (by simp [Idx.createContext]) with
      ⟨e, h1, _⟩ | ⟨ids, ds, o, o', h1, h2, h3, h4, h5, h6⟩
    · rw [h1] at h; cases h
    · rw [h1] at h
      dsimp only at h
      split at h
      · cases h
      · next v hv =>
        obtain ⟨rs', ctx''⟩ := v
        cases h
        obtain ⟨g1, g2⟩ := ih (ctx := o) (by omega) (by omega) hv
        refine ⟨by simp [g1], ?_⟩
        intro a ha ha'
        cases a with
        | zero => exact ⟨o', h2⟩
        | succ a => exact g2 a (by simpa using ha) (by simpa using ha')

/-! ### C24 -/

/-- **C24**, first half: searching by item is searching by the vector `GetItem` returns, with every index. -/
theorem C24_by_item (t : Idx c) (fuel : Nat) (w : World) (i : Nat) (k b : Int) (ctx : Ctx c) :
    t.getNnsByItem fuel w i k b ctx = (t.getItem w i >>= fun v => t.getNnsByVector fuel w v k b ctx) := by
  unfold Idx.getNnsByItem Idx.getItem
  cases getNode c.L (t.mem w) i <;> rfl

/-- **C24**, second half: the distance returned for `j` when searching by item `i` is the one of `GetDistance`, bit for bit. -/
theorem C24_distances (h : Session c numCPU pol adds trees workers s s') (hN : c.N.Lawful) (w : World)
    (hm : ∀ v : List c.N.V, v.length = c.L.f → MarginOk c v) {i : Nat} (hi : (lastAdded adds i).isSome) {k b : Int} {fuel : Nat}
    {ctx ctx' : Ctx c} {ids : List Nat} {ds : List c.N.V}
    (hr : s'.getNnsByItem fuel w i k b ctx = .ok (ids, ds, ctx')) :
    ids.map (fun j => s'.getDistance w i j) = ds.map Except.ok := by
  obtain ⟨v, hv⟩ := Option.isSome_iff_exists.1 hi
  obtain ⟨N0, B, _⟩ := h.built
  have hnn := B.n_le_nNodes
  have hvi := B.items i v hv
  rw [C24_by_item, B.getItem w hv] at hr
  have hr' : s'.getNnsByVector fuel w v k b ctx = .ok (ids, ds, ctx') := hr
  have hlen : v.length = c.L.f := hvi.vec ▸ by simp [Node.vec]
  obtain ⟨S, S1, S2, S3⟩ := C16_sound h hN w ⟨hlen, hm v hlen⟩ hr'
  rw [S3.dists, List.map_map]
  apply List.map_congr_left
  intro j hj
  obtain ⟨u, hu⟩ := Option.isSome_iff_exists.1 (S2 j (S3.sub j hj))
  have hib := B.bound i v hv
  have hjb := B.bound j u hu
  have hmem := (B.mem_eq w (by omega)).1
  simp only [Idx.getDistance, B.getNode w (show i < s'.nNodes by omega), B.getNode w (show j < s'.nNodes by omega),
    bind, Except.bind, Function.comp]
  rw [hmem]
  congr 2
  unfold itemDist
  rw [hu]
  exact h.wf.distance _ _ _ _ _ _ _ _ (hvi.same_canon h.wf) ((B.items j u hu).same_canon h.wf)

/-! ### C26 -/

/-- **C26**: without trees, or with `numReturn ≤ 0` and the default budget (or any budget that is not positive), the answer is empty and there is no failure,
whatever the index, its memory and the context; the query must not be too long. -/
theorem C26_empty (hc : c.WF) (t : Idx c) (fuel : Nat) (w : World) {query : List c.N.V} (hq : query.length ≤ c.L.f) {k b : Int}
    (h : t.roots = [] ∨ (k ≤ 0 ∧ b = -1) ∨ (b ≤ 0 ∧ b ≠ -1)) (ctx : Ctx c) :
    ∃ o, t.getNnsByVector (fuel + 1) w query k b ctx = .ok ([], [], o) := by
  have hl : Search.loop c (t.mem w) t.nItems query (if b = -1 then k * t.roots.length else b) (fuel + 1)
      (Search.initQueue c t.roots) ctx.nns 0 = .ok (ctx.nns, 0) := by
    have hq0 : Search.initQueue c [] = [] := rfl
    unfold Search.loop
    generalize hB : (if b = -1 then k * (t.roots.length : Int) else b) = B
    by_cases h1 : ((0 : Nat) : Int) < B
    · have hr : t.roots = [] := by
        rcases h with h | ⟨h, rfl⟩ | ⟨h, h'⟩
        · exact h
        · exfalso
          rw [if_pos rfl] at hB
          have : k * (t.roots.length : Int) ≤ 0 := Int.mul_nonpos_of_nonpos_of_nonneg h (by omega)
          omega
        · exfalso
          rw [if_neg h'] at hB
          omega
      rw [if_pos h1, hr, hq0]
      rfl
    · rw [if_neg h1]
  have hqn : ∃ vn, Search.queryNode c query = .ok vn := by
    unfold Search.queryNode
    have := hc.layout.size_eq
    have := Nat.mul_le_mul_right c.C.sz hq
    rw [if_pos (by omega)]
    exact ⟨_, rfl⟩
  obtain ⟨vn, hvn⟩ := hqn
  have hs : c.sortIds [] = [] := (hc.sortIds_perm []).eq_nil
  have hp : ∀ m, c.partialSort [] 0 m 0 = [] := fun m => (hc.partialSort_perm [] m).eq_nil
  unfold Idx.getNnsByVector Search.run
  simp only [hl, hvn, bind, Except.bind, List.take_zero, hs, Search.distances, List.length_nil, hp]
  simp

end
end Annoy
