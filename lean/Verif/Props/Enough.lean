import Verif.Props.DepthFirst
import Verif.Props.Room
/-!
# The first tree, with infinite margins (C86, C87, C88, C92)

A margin that overflows is infinite; the theorems of `FirstTree` and `Room` exclude that.  By C114 what a search gathers is known for all margins that
are not NaN, so the same properties hold there.
-/
namespace Annoy

theorem takeUpTo_of_le : ∀ (xs : List (List Nat)) (budget : Int), (xs.flatten.length : Int) ≤ budget → ∀ i ∈ xs.flatten, i ∈ takeUpTo budget xs
  | [], _, _, i, hi => by simp at hi
  | x :: xs, budget, h, i, hi => by
    rw [List.flatten_cons, List.length_append] at h
    have hlen : 0 < (x ++ xs.flatten).length := List.length_pos_of_mem (by rw [List.flatten_cons] at hi; exact hi)
    rw [List.length_append] at hlen
    unfold takeUpTo
    rw [if_pos (by omega)]
    rw [List.flatten_cons, List.mem_append] at hi
    rcases hi with hi | hi
    · exact List.mem_append_left _ hi
    · exact List.mem_append_right _ (takeUpTo_of_le xs _ (by omega) i hi)

theorem takeUpTo_prefix : ∀ (xs ys : List (List Nat)) (budget : Int), takeUpTo budget xs <+: takeUpTo budget (xs ++ ys)
  | [], _, _ => List.nil_prefix
  | x :: xs, ys, budget => by
    rw [List.cons_append]
    unfold takeUpTo
    split
    · exact (List.prefix_append_right_inj _).2 (takeUpTo_prefix xs ys _)
    · exact List.nil_prefix

theorem takeUpTo_sub : ∀ (xs : List (List Nat)) (budget : Int), takeUpTo budget xs <+: xs.flatten
  | [], _ => List.nil_prefix
  | x :: xs, budget => by
    unfold takeUpTo
    split
    · exact (List.prefix_append_right_inj _).2 (takeUpTo_sub xs _)
    · exact List.nil_prefix

/-- A budget that the first lists use up is not spent on the others. -/
theorem takeUpTo_append_of_le : ∀ (xs ys : List (List Nat)) (budget : Int), budget ≤ xs.flatten.length →
    takeUpTo budget (xs ++ ys) = takeUpTo budget xs
  | [], [], _, _ => rfl
  | [], y :: ys, budget, h => by
    rw [List.nil_append]
    unfold takeUpTo
    rw [if_neg (by simp at h; omega)]
  | x :: xs, ys, budget, h => by
    rw [List.cons_append]
    rw [List.flatten_cons, List.length_append] at h
    unfold takeUpTo
    split
    · rw [takeUpTo_append_of_le xs ys _ (by omega)]
    · rfl

namespace Search
variable {c : Cfg} {mem : Block} {n : Nat} {roots : List Nat} {m : Nat → Option (List c.N.V)} {ts : List Tree}

/-- What a search of an index gathers begins with what a search of its first tree gathers. -/
theorem collect_first (hc : c.WF) (hk : c.N.KeyLaws) (hM : MinKeys c) (S : Searchable c mem n roots m ts) (hd : ∀ t ∈ ts, t.Descends)
    (ha : ∀ t ∈ ts, t.nodes.Nodup) (hr : roots.Nodup) {query : List c.N.V} (hq : GoodQuery c query)
    (ho : ∀ t ∈ ts, ∀ i ∈ t.splitNodes, c.N.Ordinary (marginOf c mem query i)) {t : Tree} (ht : t ∈ ts) (hfirst : ∀ u ∈ ts, t.root ≤ u.root) :
    ∃ rest, ∀ {budget : Int} {fuel : Nat} {col : List Nat}, collect mem n query budget fuel (initQueue c roots) [] = .ok col →
      col = takeUpTo budget (t.order c.N (marginOf c mem query) c.N.inf ++ rest) := by
  obtain ⟨rest, p, hlt⟩ := first_split ht (by rw [S.roots]; exact hr) hfirst
  have hrest : (rest.map Tree.root).Nodup := by
    have := (p.map Tree.root).nodup_iff.1 (by rw [S.roots]; exact hr)
    rw [List.map_cons, List.nodup_cons] at this
    exact this.2
  obtain ⟨us, pu, hu⟩ := exists_sorted rest hrest
  refine ⟨us.flatMap (Tree.order c.N (marginOf c mem query) c.N.inf), fun {budget fuel col} h => ?_⟩
  refine collect_depth_first hc hk hM S hd ha hr hq ho h (us := t :: us) ⟨?_, ?_, ?_⟩
  · rw [List.map_cons, List.pairwise_cons]
    refine ⟨fun r hr => ?_, hu⟩
    obtain ⟨u, hu, rfl⟩ := List.mem_map.1 hr
    exact hlt u (pu.subset hu)
  · rw [← S.roots]
    exact ((List.Perm.cons t pu).trans p.symm).map _
  · intro u hu
    refine (S.walk u (p.symm.subset ?_)).holds
    rcases List.mem_cons.1 hu with rfl | hu
    · exact List.mem_cons_self
    · exact List.mem_cons_of_mem _ (pu.subset hu)

/-- **C86**, for the trees of an index, when no margin is NaN. -/
theorem exact_of_budget_ordinary (hc : c.WF) (hk : c.N.KeyLaws) (hM : MinKeys c) (S : Searchable c mem n roots m ts) (hd : ∀ t ∈ ts, t.Descends)
    (ha : ∀ t ∈ ts, t.nodes.Nodup) (hr : roots.Nodup) (C : Complete m ts)
    (U : (∀ t ∈ ts, t.items.Perm (liveOf m n)) ∨ ∀ t ∈ ts, t.leaves = [t]) {query : List c.N.V} (hq : GoodQuery c query)
    (ho : ∀ t ∈ ts, ∀ i ∈ t.splitNodes, c.N.Ordinary (marginOf c mem query i)) (hne : roots ≠ [])
    {k b : Int} {fuel : Nat} (hb : ((liveOf m n).length : Int) ≤ (if b = -1 then k * roots.length else b))
    {ctx : Ctx c} {ids : List Nat} {ds : List c.N.V} {ctx' : Ctx c} (hrun : run c fuel mem n roots query k b ctx = .ok (ids, ds, ctx')) :
    TopK c.N c.D.normalizedDistance (itemDist c m query) (liveOf m n) k.toNat ids ds := by
  have hts : ts ≠ [] := by rintro rfl; exact hne (by rw [← S.roots]; rfl)
  obtain ⟨done, rest, d1, d2, d3, d4⟩ := answer hc hk.lawful S hq hrun
  suffices h : itemsAmong m n (done.flatMap Tree.items) = liveOf m n by rw [h] at d4; exact d4
  by_cases h0 : liveOf m n = []
  · rw [h0]
    refine List.eq_nil_iff_forall_not_mem.2 fun i hi => ?_
    have h2 := mem_itemsAmong.1 hi
    have : i ∈ liveOf m n := mem_liveOf.2 ⟨h2.1, h2.2.2⟩
    rw [h0] at this
    cases this
  have hpos := List.length_pos_of_ne_nil h0
  rcases U with U | U
  · obtain ⟨t, ht, hfirst⟩ := Tree.exists_first hts
    obtain ⟨rest, H⟩ := collect_first hc hk hM S hd ha hr hq ho ht hfirst
    rw [H d3]
    refine itemsAmong_all fun i hi => (takeUpTo_prefix _ _ _).subset (takeUpTo_of_le _ _ ?_ i ((t.order_items _).symm.subset (C t ht i hi)))
    rw [(t.order_items _).length_eq, (U t ht).length_eq]
    exact hb
  · exact itemsAmong_all fun i hi => bucket_all C U d1 d2 hts (by omega) hi

/-- **C87**, for the trees of an index, when no margin is NaN. -/
theorem first_tree_suffices_ordinary (hc : c.WF) (hk : c.N.KeyLaws) (hM : MinKeys c) (S : Searchable c mem n roots m ts)
    (hd : ∀ t ∈ ts, t.Descends) (ha : ∀ t ∈ ts, t.nodes.Nodup) (hr : roots.Nodup) (C : Complete m ts) {query : List c.N.V}
    (hq : GoodQuery c query) (ho : ∀ t ∈ ts, ∀ i ∈ t.splitNodes, c.N.Ordinary (marginOf c mem query i)) {t : Tree} (ht : t ∈ ts)
    (hfirst : ∀ u ∈ ts, t.root ≤ u.root) {k b : Int} {fuel : Nat} (h0 : 0 ≤ (if b = -1 then k * roots.length else b))
    {ctx : Ctx c} {ids : List Nat} {ds : List c.N.V} {ctx' : Ctx c} (hrun : run c fuel mem n roots query k b ctx = .ok (ids, ds, ctx'))
    {fuel' : Nat} (hf : t.size < fuel') :
    ∃ ctx'', run c fuel' mem n [t.root] query k (if b = -1 then k * roots.length else b) ctx = .ok (ids, ds, ctx'') := by
  have hne : (if b = -1 then k * (roots.length : Int) else b) ≠ -1 := by omega
  have S1 := Searchable.one S ht
  have only : ∀ {p : Tree → Prop}, p t → ∀ u ∈ [t], p u := fun h u hu => by rw [List.mem_singleton] at hu; subst hu; exact h
  obtain ⟨rest, H⟩ := collect_first hc hk hM S hd ha hr hq ho ht hfirst
  obtain ⟨done, rs, d1, d2, d3, -⟩ := answer hc hk.lawful S hq hrun
  obtain ⟨col, e1, e2⟩ := collect_of_run hrun
  obtain rfl := collect_det e1 d3
  have h1 := run_best hc S hq.length e1 (col_below S d1) e2 hrun
  have hf' : Tree.sizes [t] < fuel' := by simpa [Tree.sizes] using hf
  obtain ⟨done', rs', c1, c2, c3⟩ := candidates hc S1 hq.margin (if b = -1 then k * (roots.length : Int) else b) hf'
  have hcol' := collect_depth_first hc hk hM S1 (only (hd t ht)) (only (ha t ht)) (List.nodup_singleton _) hq (only (ho t ht)) c1
    (us := [t]) ⟨by simp, by simp, only (S.walk t ht).holds⟩
  rw [List.flatMap_cons, List.flatMap_nil, List.append_nil] at hcol'
  have hle : (done'.flatMap Tree.items).length ≤ (done.flatMap Tree.items).length := by
    rw [hcol', H e1]
    exact (takeUpTo_prefix _ _ _).length_le
  have c1' : collect mem n query (if (if b = -1 then k * (roots.length : Int) else b) = -1 then k * (([t.root] : List Nat).length : Int)
      else (if b = -1 then k * (roots.length : Int) else b)) fuel' (initQueue c [t.root]) [] = .ok (done'.flatMap Tree.items) := by
    rw [if_neg hne]; exact c1
  obtain ⟨ids', ds', o, r1, -⟩ := run_of_collect (b := if b = -1 then k * (roots.length : Int) else b) hc hk.lawful S1 hq.length c1'
    (col_below S1 c2) (hle.trans e2)
  have h2 := run_best hc S1 hq.length c1' (col_below S1 c2) (hle.trans e2) r1
  have heq : itemsAmong m n (done'.flatMap Tree.items) = itemsAmong m n (done.flatMap Tree.items) := by
    rw [hcol', H e1]
    exact (found_first (C t ht) _ _ _).symm
  rw [heq] at h2
  refine ⟨o, ?_⟩
  rw [r1, h1.1, h1.2, h2.1, h2.2]

/-- **C92**, for the trees of an index, when no margin is NaN. -/
theorem first_tree_room_ordinary (hc : c.WF) (hk : c.N.KeyLaws) (hM : MinKeys c) (S : Searchable c mem n roots m ts)
    (hd : ∀ t ∈ ts, t.Descends) (ha : ∀ t ∈ ts, t.nodes.Nodup) (hr : roots.Nodup) {query : List c.N.V} (hq : GoodQuery c query)
    (ho : ∀ t ∈ ts, ∀ i ∈ t.splitNodes, c.N.Ordinary (marginOf c mem query i)) {t : Tree} (ht : t ∈ ts)
    (hfirst : ∀ u ∈ ts, t.root ≤ u.root) {k b : Int} {fuel : Nat} (hb : (if b = -1 then k * roots.length else b) ≤ t.items.length)
    (hf : Tree.sizes ts < fuel) {ctx : Ctx c} (hroom : t.items.length ≤ ctx.nns.length) :
    ∃ x, run c fuel mem n roots query k b ctx = .ok x := by
  obtain ⟨rest, H⟩ := collect_first hc hk hM S hd ha hr hq ho ht hfirst
  obtain ⟨done, rs, d1, d2, d3⟩ := candidates hc S hq.margin (if b = -1 then k * (roots.length : Int) else b) hf
  have hl : (done.flatMap Tree.items).length ≤ t.items.length := by
    rw [H d1, takeUpTo_append_of_le _ _ _ (by rw [(t.order_items _).length_eq]; exact hb), ← (t.order_items _).length_eq]
    exact (takeUpTo_sub _ _).length_le
  obtain ⟨ids, ds, ctx', e, -⟩ := run_of_collect (b := b) hc hk.lawful S hq.length d1 (col_below S d2) (hl.trans hroom)
  exact ⟨_, e⟩

end Search

namespace Session
variable {c : Cfg} {numCPU : Nat} {pol : BuildPolicy} {adds : List (Nat × List c.N.V)} {trees workers : Int} {s s' : Idx c}

/-- **C86**, given that inner nodes survive being written and that no margin of the query is NaN: a search whose budget (`searchK`, or
`numReturn * len(roots)` for -1) is at least the number of added items is a linear scan over them, however many trees there are. -/
theorem C86_ordinary (h : Session c numCPU pol adds trees workers s s')
    (hs : SplitsKept c numCPU pol (slotCount adds) trees workers) (hk : c.N.KeyLaws) (hM : MinKeys c) (w : World) {query : List c.N.V}
    (hq : GoodQuery c query) (hord : OrdinaryMargins s' w query) (hne : s'.roots ≠ []) {k b : Int} {fuel : Nat}
    (hb : ((addedIds adds).length : Int) ≤ (if b = -1 then k * s'.roots.length else b)) {ctx ctx' : Ctx c} {ids : List Nat}
    {ds : List c.N.V} (hr : s'.getNnsByVector fuel w query k b ctx = .ok (ids, ds, ctx')) :
    TopK c.N c.D.normalizedDistance (itemDist c (lastAdded adds) query) (addedIds adds) k.toNat ids ds ∧
    ((∀ i ∈ addedIds adds, c.N.Ordinary (itemDist c (lastAdded adds) query i)) →
      ids = nearest c.N (itemDist c (lastAdded adds) query) (addedIds adds) k.toNat) := by
  obtain ⟨ts, S, C, U, -, hroot, -⟩ := h.searchable_inner hs w
  obtain ⟨N0, B, _⟩ := h.built
  have e : liveOf (lastAdded adds) s'.nItems = addedIds adds := by rw [B.nItems]
  have d4 := Search.exact_of_budget_ordinary h.wf hk hM S (fun t ht => (hroot t ht).descends)
    (fun t ht => (hroot t ht).nodes_different h.wf.layout (liveOf_nodup _ _) (fun i hi => by
      rw [B.nItems]; exact (mem_liveOf.1 hi).1)) (h.roots_nodup hs) C (by rw [e]; exact U) hq (hord.at hq S) hne
    (by rw [e]; exact hb) hr
  rw [e] at d4
  exact ⟨d4, fun ho => (d4.unique hk.lawful (nearest_topK hk.lawful _ (liveOf_nodup _ _) ho k.toNat) (List.Perm.refl _) ho).1⟩

/-- **C86** for loaded indexes, when no margin is NaN. -/
theorem C86_ordinary_loaded (h : Session c numCPU pol adds trees workers s s')
    (hn : 2 ≤ slotCount adds) (hroots : s'.roots ≠ []) (hk : c.L.CountKept (slotCount adds))
    (hs : SplitsKept c numCPU pol (slotCount adds) trees workers) (hck : c.L.CopiesKept (slotCount adds)) (hkl : c.N.KeyLaws)
    (hM : MinKeys c) {w : World} {path : String} (hf : FileOf s' w path) {bk : Backend} {u t : Idx c}
    (hl : u.load bk w path = .ok (.nil, t)) {query : List c.N.V} (hq : GoodQuery c query) (hord : OrdinaryMargins t w query)
    {k b : Int} {fuel : Nat} (hb : ((addedIds adds).length : Int) ≤ (if b = -1 then k * t.roots.length else b))
    {ctx ctx' : Ctx c} {ids : List Nat} {ds : List c.N.V} (hr : t.getNnsByVector fuel w query k b ctx = .ok (ids, ds, ctx')) :
    TopK c.N c.D.normalizedDistance (itemDist c (lastAdded adds) query) (addedIds adds) k.toNat ids ds ∧
    ((∀ i ∈ addedIds adds, c.N.Ordinary (itemDist c (lastAdded adds) query i)) →
      ids = nearest c.N (itemDist c (lastAdded adds) query) (addedIds adds) k.toNat) := by
  obtain ⟨h1, e, ts, S, C, U, Z⟩ := h.reload_complete hn hroots hk hs hck hf hl
  obtain ⟨t', h2, N0, B, hN, R⟩ := h.reload hn hroots hk hf bk u
  rw [hl] at h2
  cases h2
  have d4 := Search.exact_of_budget_ordinary h.wf hkl hM S (fun v hv => (Z v hv).descends)
    (fun v hv => (Z v hv).nodes_different h.wf.layout (liveOf_nodup _ _) (fun i hi => (mem_liveOf.1 hi).1)) R.roots_nodup C
    (by rw [e]; exact U) hq (hord.at hq S) h1 (by rw [e]; exact hb) hr
  rw [e] at d4
  exact ⟨d4, fun ho => (d4.unique hkl.lawful (nearest_topK hkl.lawful _ (liveOf_nodup _ _) ho k.toNat) (List.Perm.refl _) ho).1⟩

/-- **C87**, given that inner nodes survive being written and that no margin of the query is NaN: for every `numReturn`, budget (not
negative) and context, the answer is the answer of the index with its first tree only, asked with the same budget. -/
theorem C87_ordinary (h : Session c numCPU pol adds trees workers s s')
    (hs : SplitsKept c numCPU pol (slotCount adds) trees workers) (hk : c.N.KeyLaws) (hM : MinKeys c) (w : World) {query : List c.N.V}
    (hq : GoodQuery c query) (hord : OrdinaryMargins s' w query) {r : Nat} (hr : r ∈ s'.roots) (hmin : ∀ r' ∈ s'.roots, r ≤ r')
    {k b : Int} {fuel : Nat} (h0 : 0 ≤ (if b = -1 then k * s'.roots.length else b)) {ctx ctx' : Ctx c} {ids : List Nat} {ds : List c.N.V}
    (hrun : s'.getNnsByVector fuel w query k b ctx = .ok (ids, ds, ctx')) :
    ∃ fuel' ctx'', { s' with roots := [r] }.getNnsByVector fuel' w query k (if b = -1 then k * s'.roots.length else b) ctx =
      .ok (ids, ds, ctx'') := by
  obtain ⟨ts, S, C, -, -, hroot, -⟩ := h.searchable_inner hs w
  rw [← S.roots] at hr
  obtain ⟨t, ht, rfl⟩ := List.mem_map.1 hr
  obtain ⟨o, ho⟩ := Search.first_tree_suffices_ordinary h.wf hk hM S (fun t ht => (hroot t ht).descends)
    (fun t ht => (hroot t ht).nodes_different h.wf.layout (liveOf_nodup _ _) (fun i hi => by
      obtain ⟨N0, B, _⟩ := h.built
      rw [B.nItems]; exact (mem_liveOf.1 hi).1)) (h.roots_nodup hs) C hq (hord.at hq S) ht
    (fun u hu => hmin _ (by rw [← S.roots]; exact List.mem_map_of_mem hu)) h0 hrun (Nat.lt_succ_self _)
  exact ⟨_, o, ho⟩

/-- **C87** for loaded indexes, when no margin is NaN. -/
theorem C87_ordinary_loaded (h : Session c numCPU pol adds trees workers s s')
    (hn : 2 ≤ slotCount adds) (hroots : s'.roots ≠ []) (hk : c.L.CountKept (slotCount adds))
    (hs : SplitsKept c numCPU pol (slotCount adds) trees workers) (hck : c.L.CopiesKept (slotCount adds)) (hkl : c.N.KeyLaws)
    (hM : MinKeys c) {w : World} {path : String} (hf : FileOf s' w path) {bk : Backend} {u t : Idx c}
    (hl : u.load bk w path = .ok (.nil, t)) {query : List c.N.V} (hq : GoodQuery c query) (hord : OrdinaryMargins t w query)
    {r : Nat} (hr : r ∈ t.roots) (hmin : ∀ r' ∈ t.roots, r ≤ r')
    {k b : Int} {fuel : Nat} (h0 : 0 ≤ (if b = -1 then k * t.roots.length else b)) {ctx ctx' : Ctx c} {ids : List Nat} {ds : List c.N.V}
    (hrun : t.getNnsByVector fuel w query k b ctx = .ok (ids, ds, ctx')) :
    ∃ fuel' ctx'', { t with roots := [r] }.getNnsByVector fuel' w query k (if b = -1 then k * t.roots.length else b) ctx =
      .ok (ids, ds, ctx'') := by
  obtain ⟨h1, e, ts, S, C, U, Z⟩ := h.reload_complete hn hroots hk hs hck hf hl
  obtain ⟨t', h2, N0, B, hN, R⟩ := h.reload hn hroots hk hf bk u
  rw [hl] at h2
  cases h2
  rw [← S.roots] at hr
  obtain ⟨v, hv, rfl⟩ := List.mem_map.1 hr
  obtain ⟨o, ho⟩ := Search.first_tree_suffices_ordinary h.wf hkl hM S (fun v hv => (Z v hv).descends)
    (fun v hv => (Z v hv).nodes_different h.wf.layout (liveOf_nodup _ _) (fun i hi => (mem_liveOf.1 hi).1)) R.roots_nodup C hq (hord.at hq S) hv
    (fun u hu => hmin _ (by rw [← S.roots]; exact List.mem_map_of_mem hu)) h0 hrun (Nat.lt_succ_self _)
  exact ⟨_, o, ho⟩

/-- **C88**: one worker builds the same items with the same generator, once with `trees` trees and once with `trees'`.  For every query
without NaN among the margins, every `numReturn`, budget and context, the second index gives the answer of the first when it is asked with
the same budget.  (Given that inner nodes survive being written.) -/
theorem C88_ordinary {numCPU' : Nat} {trees' workers' : Int} {s'' : Idx c}
    (h : Session c numCPU .single adds trees workers s s') (h' : Session c numCPU' .single adds trees' workers' s s'')
    (hs : SplitsKept c numCPU .single (slotCount adds) trees workers)
    (hs' : SplitsKept c numCPU' .single (slotCount adds) trees' workers') (hk : c.N.KeyLaws) (hM : MinKeys c) (hne : s'.roots ≠ [])
    (hne' : s''.roots ≠ []) {w w' : World} {query : List c.N.V} (hq : GoodQuery c query) (hord : OrdinaryMargins s' w query)
    (hord' : OrdinaryMargins s'' w' query) {k b b' : Int}
    {fuel fuel' : Nat} (h0 : 0 ≤ (if b = -1 then k * s'.roots.length else b))
    (hbb : (if b' = -1 then k * (s''.roots.length : Int) else b') = (if b = -1 then k * (s'.roots.length : Int) else b))
    {ctx ctx' o o' : Ctx c} {ids ids' : List Nat}
    {ds ds' : List c.N.V} (hrun : s'.getNnsByVector fuel w query k b ctx = .ok (ids, ds, o))
    (hrun' : s''.getNnsByVector fuel' w' query k b' ctx' = .ok (ids', ds', o')) : ids' = ids ∧ ds' = ds := by
  refine h.same_of_first h' hs hk.lawful hne hne' hq (w := w) (w' := w') (ctx' := ctx') (budget := if b = -1 then k * (s'.roots.length : Int) else b)
    (fun r hr hm => h.C87_ordinary hs hk hM w hq hord hr hm h0 hrun) fun r hr hm => ?_
  rw [← hbb]
  exact h'.C87_ordinary hs' hk hM w' hq hord' hr hm (by rw [hbb]; exact h0) hrun'

/-- **C92**: a fresh context (or a larger one) has room for every search whose budget is at most the number of items, provided there are three
items, or no more slots than fit into a bucket, and no margin is NaN. -/
theorem C92_ordinary (h : Session c numCPU pol adds trees workers s s')
    (hs : SplitsKept c numCPU pol (slotCount adds) trees workers) (hk : c.N.KeyLaws) (hM : MinKeys c) (w : World) {query : List c.N.V}
    (hq : GoodQuery c query) (hord : OrdinaryMargins s' w query) (hroots : s'.roots ≠ [])
    (h3 : 3 ≤ (addedIds adds).length ∨ slotCount adds ≤ c.L.K ∧ adds ≠ []) {k b : Int}
    (hb : (if b = -1 then k * s'.roots.length else b) ≤ (addedIds adds).length) {fuel : Nat} (hf : 2 * (s'.nNodes - s'.nItems) < fuel)
    {ctx : Ctx c} (hctx : s'.createContext.nns.length ≤ ctx.nns.length) :
    ∃ x, s'.getNnsByVector fuel w query k b ctx = .ok x := by
  have hfit := h.first_fits hs hroots h3
  obtain ⟨ts, S, Z, R, -⟩ := h.context_size hs w
  obtain ⟨N0, B, _⟩ := h.built
  have R' := R
  rw [B.nItems] at R
  have hle : (addedIds adds).length ≤ slotCount adds := liveOf_length_le _ _
  have h3' : 3 ≤ (addedIds adds).length ∨ slotCount adds ≤ c.L.K ∧ 0 < slotCount adds := h3.imp id fun x =>
    ⟨x.1, by have := List.length_pos_of_ne_nil (addedIds_ne_nil x.2); omega⟩
  obtain ⟨t, ht, hfirst⟩ := Tree.exists_first (ts := ts) (by rintro rfl; exact hroots (by rw [← S.roots]; rfl))
  have h7 := (R t ht).items_length_eq hle h3'
  refine Search.first_tree_room_ordinary h.wf hk hM S (fun t ht => (R' t ht).descends)
    (fun t ht => (R' t ht).nodes_different h.wf.layout (liveOf_nodup _ _) (fun i hi => by
      rw [B.nItems]; exact (mem_liveOf.1 hi).1)) (h.roots_nodup hs) hq (hord.at hq S) ht hfirst (hb.trans ?_) (by omega) (by omega)
  rw [h7]
  split
  · exact_mod_cast hle
  · exact le_rfl

/-- **C92** for loaded indexes, when no margin is NaN. -/
theorem C92_ordinary_loaded (h : Session c numCPU pol adds trees workers s s')
    (hn : 2 ≤ slotCount adds) (hroots : s'.roots ≠ []) (hk : c.L.CountKept (slotCount adds))
    (hs : SplitsKept c numCPU pol (slotCount adds) trees workers) (hck : c.L.CopiesKept (slotCount adds)) (hkl : c.N.KeyLaws)
    (hM : MinKeys c) {w : World} {path : String} (hf : FileOf s' w path) {bk : Backend} {u t : Idx c}
    (hl : u.load bk w path = .ok (.nil, t)) (h3 : 3 ≤ (addedIds adds).length ∨ slotCount adds ≤ c.L.K) :
    ∃ F : Nat, ∀ {query : List c.N.V} (_ : GoodQuery c query) (_ : OrdinaryMargins t w query)
    {k b : Int} {fuel : Nat} (_ : (if b = -1 then k * t.roots.length else b) ≤ (addedIds adds).length) (_ : F ≤ fuel)
    {ctx : Ctx c} (_ : t.createContext.nns.length ≤ ctx.nns.length), ∃ x, t.getNnsByVector fuel w query k b ctx = .ok x := by
  have hadds : adds ≠ [] := by rintro rfl; simp [slotCount] at hn
  have hfit := h.first_fits hs hroots (h3.imp id fun x => ⟨x, hadds⟩)
  obtain ⟨h1, e, ts, S, C, U, R⟩ := h.reload_complete hn hroots hk hs hck hf hl
  obtain ⟨t', h2, N0, B, hN, L⟩ := h.reload hn hroots hk hf bk u
  rw [hl] at h2
  cases h2
  have hctx : t.createContext.nns.length = s'.createContext.nns.length := by
    simp only [Idx.createContext, L.nns, L.nNodes]
  have hle : (addedIds adds).length ≤ slotCount adds := liveOf_length_le _ _
  have h3' : 3 ≤ (addedIds adds).length ∨ slotCount adds ≤ c.L.K ∧ 0 < slotCount adds := h3.imp id fun x => ⟨x, by omega⟩
  obtain ⟨v, hv, hfirst⟩ := Tree.exists_first (ts := ts) (by rintro rfl; exact h1 (by rw [← S.roots]; rfl))
  have h7 := (R v hv).items_length_eq hle h3'
  refine ⟨Tree.sizes ts + 1, fun {query} hq hord {k b fuel} hb hF {ctx} hc => ?_⟩
  refine Search.first_tree_room_ordinary h.wf hkl hM S (fun v hv => (R v hv).descends)
    (fun v hv => (R v hv).nodes_different h.wf.layout (liveOf_nodup _ _) (fun i hi => (mem_liveOf.1 hi).1)) L.roots_nodup hq (hord.at hq S) hv
    hfirst (hb.trans ?_) (by omega) (by omega)
  rw [h7]
  split
  · exact_mod_cast hle
  · exact le_rfl

end Session

/-! ### concrete case -/

/-- A vector that points east and is infinitely long. -/
def endlessVec : List ieee32.V := x32 0x7f800000 :: List.replicate 15 (x32 0)

/-- The margins at the inner nodes are not NaN, one is infinite, the roots are `roots`, and the answers for one neighbour with the given budgets. -/
def endless {c : Cfg} (q : List c.N.V) (roots : List Nat) (answers : List (Int × Nat)) (s' : Idx c) : Bool :=
  decide (s'.roots = roots) && ((List.range' s'.nItems (s'.nNodes - s'.nItems)).all fun i =>
      !(decide (c.L.K < ndAt c.L s'.alloc.data i)) || okAnd (fun y => c.N.eq y y) (c.D.margin s'.alloc.data (i * c.L.nodeSize) q)) &&
    ((List.range' s'.nItems (s'.nNodes - s'.nItems)).any fun i =>
      decide (c.L.K < ndAt c.L s'.alloc.data i) &&
      okAnd (fun y => c.N.eq y c.N.inf || c.N.eq (c.N.neg y) c.N.inf) (c.D.margin s'.alloc.data (i * c.L.nodeSize) q)) &&
    answers.all fun a => decide (answerIds (Search.run c 100 s'.bmem s'.nItems s'.roots q 1 a.1 s'.createContext) = some [a.2])

def endlessWith (add mul div : BitVec 32 → BitVec 32 → BitVec 32) : Bool :=
  okAnd (endless (c := alt32With add mul div 16) endlessVec [20, 22] [(-1, 0), (2, 0), (3, 0)]) (made (alt32With add mul div 16) false groupAdds 2) &&
  okAnd (endless (c := alt32With add mul div 16) endlessVec [20] [(-1, 0), (2, 0), (3, 0)]) (made (alt32With add mul div 16) false groupAdds 1)

theorem endless_checked : endlessWith add32S mul32S div32S = true := by decide +kernel

theorem endless_ordinary {c : Cfg} {numCPU : Nat} {pol : BuildPolicy} {adds : List (Nat × List c.N.V)} {trees workers : Int} {s s' : Idx c}
    (h : Session c numCPU pol adds trees workers s s') (hs : SplitsKept c numCPU pol (slotCount adds) trees workers)
    (h0 : 0 < s'.nNodes) {q : List c.N.V} {roots : List Nat} {answers : List (Int × Nat)}
    (hp : endless q roots answers s' = true) : s'.roots = roots ∧ (∀ w, OrdinaryMargins s' w q) ∧
      (∃ i y, c.L.K < ndAt c.L s'.alloc.data i ∧ c.D.margin s'.alloc.data (i * c.L.nodeSize) q = .ok y ∧
        (c.N.eq y c.N.inf || c.N.eq (c.N.neg y) c.N.inf) = true) ∧
      ∀ a ∈ answers, ∀ w, ∃ ds o, s'.getNnsByVector 100 w q 1 a.1 s'.createContext = .ok ([a.2], ds, o) := by
  unfold endless at hp
  rw [Bool.and_eq_true, Bool.and_eq_true, Bool.and_eq_true] at hp
  obtain ⟨⟨⟨h1, h2⟩, h3⟩, h4⟩ := hp
  obtain ⟨N0, B, _⟩ := h.built
  refine ⟨of_decide_eq_true h1, fun w => ?_, ?_, fun a ha w => ?_⟩
  · obtain ⟨hm, -⟩ := B.mem_eq w h0
    obtain ⟨ts, S, -, -, -, hroot, hinner⟩ := h.searchable_inner hs w
    intro t ht hh i hi y hy
    rw [← S.roots] at ht
    obtain ⟨u, hu, e⟩ := List.mem_map.1 ht
    rw [hh.splitNodes_unique h.wf.layout (S.walk u hu).holds e.symm] at hi
    have hfin : ∀ i, s'.nItems ≤ i → i + s'.roots.length < s'.nNodes → c.L.K < ndAt c.L (s'.mem w).get i →
        ∃ y, c.D.margin (s'.mem w).get (i * c.L.nodeSize) q = .ok y ∧ c.N.Ordinary y := by
      intro i i1 i2 i3
      rw [hm] at i3 ⊢
      have := List.all_eq_true.1 h2 i (by rw [List.mem_range'_1]; omega)
      rw [Bool.or_eq_true] at this
      rcases this with h | h
      · have h : ndAt c.L s'.alloc.data i ≤ c.L.K := by simpa using h
        exact absurd (show c.L.K < ndAt c.L s'.alloc.data i from i3) (Nat.not_lt.2 h)
      · unfold okAnd at h
        split at h
        · next y hy => exact ⟨y, hy, h⟩
        · cases h
    have := inner_margins S hinner hfin u hu i hi
    unfold marginOf at this
    rw [hy] at this
    exact this
  · obtain ⟨i, -, hi⟩ := List.any_eq_true.1 h3
    rw [Bool.and_eq_true] at hi
    obtain ⟨i1, i2⟩ := hi
    unfold okAnd at i2
    split at i2
    · next y hy => exact ⟨i, y, of_decide_eq_true i1, hy, i2⟩
    · cases i2
  · obtain ⟨d1, o1, e1⟩ := answerIds_some (of_decide_eq_true (List.all_eq_true.1 h4 a ha))
    exact ⟨d1, o1, (B.search w h0 _ _ _ _ _).trans e1⟩

/-- The hypotheses of the theorems above, with a margin that is infinite: three items, with one tree and with two, and an infinitely long query. -/
theorem C86_C92_case : ∃ s s' s'', Session (alt32 16) 1 .single groupAdds 2 1 s s' ∧ Session (alt32 16) 1 .single groupAdds 1 1 s s'' ∧
    SplitsKept (alt32 16) 1 .single (slotCount groupAdds) 2 1 ∧ SplitsKept (alt32 16) 1 .single (slotCount groupAdds) 1 1 ∧
    (alt32 16).N.KeyLaws ∧ MinKeys (alt32 16) ∧ GoodQuery (alt32 16) endlessVec ∧ s'.roots = [20, 22] ∧ s''.roots = [20] ∧
    (addedIds groupAdds).length = 3 ∧ (∀ w, OrdinaryMargins s' w endlessVec ∧ OrdinaryMargins s'' w endlessVec) ∧
    (∃ i y, (alt32 16).L.K < ndAt (alt32 16).L s'.alloc.data i ∧
      (alt32 16).D.margin s'.alloc.data (i * (alt32 16).L.nodeSize) endlessVec = .ok y ∧
      ((alt32 16).N.eq y (alt32 16).N.inf || (alt32 16).N.eq ((alt32 16).N.neg y) (alt32 16).N.inf) = true) ∧
    ∀ w, ∀ a ∈ [((-1 : Int), 0), (2, 0), (3, 0)],
      (∃ ds o, s'.getNnsByVector 100 w endlessVec 1 a.1 s'.createContext = .ok ([a.2], ds, o)) ∧
      ∃ ds o, s''.getNnsByVector 100 w endlessVec 1 a.1 s''.createContext = .ok ([a.2], ds, o) := by
  have key : endlessWith ieee32.add ieee32.mul ieee32.div = true := fast32 endlessWith endless_checked
  unfold endlessWith at key
  rw [Bool.and_eq_true] at key
  obtain ⟨k1, k2⟩ := key
  have hok : ∀ {t : Int} {p : Idx (alt32 16) → Bool}, okAnd p (made (alt32 16) false groupAdds t) = true →
      ∃ u, made (alt32 16) false groupAdds t = .ok u ∧ p u = true := by
    intro t p h
    unfold okAnd at h
    split at h
    · next u hu => exact ⟨u, hu, h⟩
    · cases h
  obtain ⟨s', m1, p1⟩ := hok k1
  obtain ⟨s'', m2, p2⟩ := hok k2
  obtain ⟨s, h, h'⟩ := made_pair (alt32_wf (by decide)) (legalAdds_of (by decide +kernel)) (by decide +kernel) (by decide +kernel) m1 m2
  have hs := splitsKept_of_length h.wf (by decide) h.fits
  have hs' := splitsKept_of_length h'.wf (by decide) h'.fits
  have hpos : ∀ {t : Int} {u : Idx (alt32 16)}, Session (alt32 16) 1 .single groupAdds t 1 s u → 0 < u.nNodes := by
    intro t u hu
    obtain ⟨N0, B, _⟩ := hu.built
    have h1 := B.n_le_nNodes
    have h2 : 0 < slotCount groupAdds := by decide +kernel
    exact lt_of_lt_of_le h2 h1
  obtain ⟨a1, a2, a4, a3⟩ := endless_ordinary h hs (hpos h) p1
  obtain ⟨b1, b2, -, b3⟩ := endless_ordinary h' hs' (hpos h') p2
  exact ⟨s, s', s'', h, h', hs, hs', ieee32_keyLaws, angular_minKeys, ⟨rfl, angular_marginOk rfl (by decide)⟩, a1, b1, by decide +kernel,
    fun w => ⟨a2 w, b2 w⟩, a4, fun w a ha => ⟨a3 a ha w, b3 a ha w⟩⟩

end Annoy
