import Verif.Props.OwnVector
import Verif.Props.SaveLoad
/-!
# C118: asking for more neighbours

`GetNnsByVector(v, k, budget)` looks at the same items for every `k` (annoyindex_search.go:93-130), sorts them and cuts the list off
(annoyindex_search.go:177-196).  Without a budget `k` also decides what is looked at.
-/
namespace Annoy

namespace TopK
variable {N : Num} {norm : N.V → N.V} {δ : Nat → N.V} {S : List Nat} {k k' : Nat} {ids : List Nat} {ds : List N.V}

/-- The beginning of a right answer is a right answer. -/
theorem take (h : TopK N norm δ S k' ids ds) (hk : k ≤ k') :
    TopK N norm δ S k (ids.take k) (ds.take k) := by
  refine ⟨?_, h.nodup.sublist (List.take_sublist _ _), fun i hi => h.sub i (List.mem_of_mem_take hi), ?_, fun ho => ?_, fun ho i hi j hj hn => ?_⟩
  · rw [List.length_take, h.length]; omega
  · rw [h.dists, List.map_take]
  · rw [List.map_take]
    exact (h.sorted ho).sublist (List.take_sublist _ _)
  · by_cases hj' : j ∈ ids
    · obtain ⟨a, ha, rfl⟩ := List.mem_iff_getElem.1 hi
      obtain ⟨b, hb, rfl⟩ := List.mem_iff_getElem.1 hj'
      rw [List.getElem_take]
      rw [List.length_take] at ha
      refine h.pair_lt ho ?_ hb
      by_contra hcon
      exact hn (List.mem_iff_getElem.2 ⟨b, by rw [List.length_take]; omega, List.getElem_take⟩)
    · exact h.least ho i (List.mem_of_mem_take hi) j hj hj'

end TopK

namespace Search
variable {c : Cfg} {mem : Block} {n : Nat} {roots : List Nat} {m : Nat → Option (List c.N.V)} {ts : List Tree}

/-- Two searches with the same budget: the shorter answer is the beginning of the longer one. -/
theorem answer_prefix (hc : c.WF) (hN : c.N.Lawful) (S : Searchable c mem n roots m ts) {query : List c.N.V} (hq : GoodQuery c query)
    {k k' b : Int} (hk : k ≤ k') (hb : b ≠ -1) (ho : ∀ i, (m i).isSome → c.N.Ordinary (itemDist c m query i)) {fuel fuel' : Nat}
    {ctx ctx' o o' : Ctx c} {ids ids' : List Nat} {ds ds' : List c.N.V}
    (hr : run c fuel mem n roots query k b ctx = .ok (ids, ds, o))
    (hr' : run c fuel' mem n roots query k' b ctx' = .ok (ids', ds', o')) :
    ids = ids'.take k.toNat ∧ ds = ds'.take k.toNat := by
  obtain ⟨done, rest, -, -, d3, d4⟩ := answer hc hN S hq hr
  obtain ⟨done', rest', -, -, e3, e4⟩ := answer hc hN S hq hr'
  rw [if_neg hb] at d3 e3
  have d3' := collect_mono _ d3 (le_max_left fuel fuel')
  have e3' := collect_mono _ e3 (le_max_right fuel fuel')
  have e : done.flatMap Tree.items = done'.flatMap Tree.items := by
    rw [d3'] at e3'
    exact Except.ok.inj e3'
  rw [← e] at e4
  have ho' : ∀ i ∈ itemsAmong m n (done.flatMap Tree.items), c.N.Ordinary (itemDist c m query i) :=
    fun i hi => ho i (mem_itemsAmong.1 hi).2.2
  exact d4.unique hN (e4.take (by omega)) (List.Perm.refl _) ho'

/-- Two searches without a budget: asking for more does not make the first entries worse. -/
theorem answer_more (hc : c.WF) (hN : c.N.Lawful) (S : Searchable c mem n roots m ts) {query : List c.N.V} (hq : GoodQuery c query)
    {k k' : Int} (hk : k ≤ k') (ho : ∀ i, (m i).isSome → c.N.Ordinary (itemDist c m query i)) {fuel fuel' : Nat}
    {ctx ctx' o o' : Ctx c} {ids ids' : List Nat} {ds ds' : List c.N.V}
    (hr : run c fuel mem n roots query k (-1) ctx = .ok (ids, ds, o))
    (hr' : run c fuel' mem n roots query k' (-1) ctx' = .ok (ids', ds', o')) :
    ids.length ≤ ids'.length ∧ ∀ (a : Nat) (ha : a < ids.length) (ha' : a < ids'.length),
      ¬ PairLt c.N (itemDist c m query ids[a], ids[a]) (itemDist c m query ids'[a], ids'[a]) := by
  obtain ⟨done, rest, -, -, d3, d4⟩ := answer hc hN S hq hr
  obtain ⟨done', rest', -, -, e3, e4⟩ := answer hc hN S hq hr'
  rw [if_pos rfl] at d3 e3
  have d3' := collect_mono _ d3 (le_max_left fuel fuel')
  have e3' := collect_mono _ e3 (le_max_right fuel fuel')
  have hpre := collect_budget (Int.mul_le_mul_of_nonneg_right hk (Int.natCast_nonneg _)) _ d3' e3'
  have hsub : ∀ i ∈ itemsAmong m n (done.flatMap Tree.items), i ∈ itemsAmong m n (done'.flatMap Tree.items) := by
    intro i hi
    obtain ⟨x1, x2, x3⟩ := mem_itemsAmong.1 hi
    exact mem_itemsAmong.2 ⟨x1, hpre.subset x2, x3⟩
  have hlen := (List.subperm_of_subset (itemsAmong_nodup _ _ _) hsub).length_le
  refine ⟨by rw [d4.length, e4.length]; omega, fun a ha ha' => ?_⟩
  exact d4.mono hN e4 hsub (fun i hi => ho i (mem_itemsAmong.1 hi).2.2) ha ha'

end Search

/-- A larger budget, for any index whose roots lead to trees. -/
theorem Search.answer_budget {c : Cfg} {mem : Block} {n : Nat} {roots : List Nat} {m : Nat → Option (List c.N.V)} {ts : List Tree} (hc : c.WF)
    (hN : c.N.Lawful) (S : Searchable c mem n roots m ts) {query : List c.N.V} (hq : GoodQuery c query) {k b b' : Int} (hb : b ≤ b') (h1 : b ≠ -1)
    (h2 : b' ≠ -1) {fuel fuel' : Nat} {ctx ctx' o o' : Ctx c} {ids ids' : List Nat} {ds ds' : List c.N.V}
    (ho : ∀ i, (m i).isSome → c.N.Ordinary (itemDist c m query i))
    (hr : run c fuel mem n roots query k b ctx = .ok (ids, ds, o))
    (hr' : run c fuel' mem n roots query k b' ctx' = .ok (ids', ds', o')) :
    ids.length ≤ ids'.length ∧ ∀ (a : Nat) (ha : a < ids.length) (ha' : a < ids'.length),
      ¬ PairLt c.N (itemDist c m query ids[a], ids[a]) (itemDist c m query ids'[a], ids'[a]) ∧
      c.N.lt (itemDist c m query ids[a]) (itemDist c m query ids'[a]) = false := by
  obtain ⟨done, rest, d1, d2, d3, d4⟩ := answer hc hN S hq hr
  obtain ⟨done', rest', e1, e2, e3, e4⟩ := answer hc hN S hq hr'
  rw [if_neg h1] at d3
  rw [if_neg h2] at e3
  have d3' := collect_mono _ d3 (le_max_left fuel fuel')
  have e3' := collect_mono _ e3 (le_max_right fuel fuel')
  have hpre := collect_budget hb _ d3' e3'
  have hsub : ∀ i ∈ itemsAmong m n (done.flatMap Tree.items),
      i ∈ itemsAmong m n (done'.flatMap Tree.items) := by
    intro i hi
    obtain ⟨x1, x2, x3⟩ := mem_itemsAmong.1 hi
    exact mem_itemsAmong.2 ⟨x1, hpre.subset x2, x3⟩
  have hlen := (List.subperm_of_subset (itemsAmong_nodup _ _ _) hsub).length_le
  have ho' : ∀ i ∈ itemsAmong m n (done'.flatMap Tree.items),
      c.N.Ordinary (itemDist c m query i) :=
    fun i hi => ho i ((mem_itemsAmong.1 hi).2.2)
  refine ⟨by rw [d4.length, e4.length]; omega, fun a ha ha' => ?_⟩
  have := d4.mono hN e4 hsub ho' ha ha'
  refine ⟨this, ?_⟩
  by_contra hcon
  rw [Bool.not_eq_false] at hcon
  exact this (Or.inl hcon)

namespace Session
variable {c : Cfg} {numCPU : Nat} {pol : BuildPolicy} {adds : List (Nat × List c.N.V)} {trees workers : Int} {s s' : Idx c}

/-- **C118.**  Of two searches of a built index for the same query with the same budget, the answer of the one that asks for fewer neighbours is the beginning of
the answer of the other, ids and distances; whatever contexts they use.  Distances are assumed not to be NaN. -/
theorem C118_prefix (h : Session c numCPU pol adds trees workers s s') (hN : c.N.Lawful) (w : World) {query : List c.N.V}
    (hq : GoodQuery c query) {k k' b : Int} (hk : k ≤ k') (hb : b ≠ -1) {fuel fuel' : Nat} {ctx ctx' o o' : Ctx c}
    {ids ids' : List Nat} {ds ds' : List c.N.V} (ho : ∀ i ∈ addedIds adds, c.N.Ordinary (itemDist c (lastAdded adds) query i))
    (hr : s'.getNnsByVector fuel w query k b ctx = .ok (ids, ds, o))
    (hr' : s'.getNnsByVector fuel' w query k' b ctx' = .ok (ids', ds', o')) :
    ids = ids'.take k.toNat ∧ ds = ds'.take k.toNat := by
  obtain ⟨ts, S, _⟩ := h.searchable w
  exact Search.answer_prefix h.wf hN S hq hk hb (fun i hi => ho i (mem_addedIds.2 hi)) hr hr'

/-- **C118** for loaded indexes. -/
theorem C118_prefix_loaded (h : Session c numCPU pol adds trees workers s s') (hN : c.N.Lawful) (hn : 2 ≤ slotCount adds)
    (hroots : s'.roots ≠ []) (hk : c.L.CountKept (slotCount adds)) {w : World} {path : String} (hf : FileOf s' w path)
    {bk : Backend} {u t : Idx c} (hl : u.load bk w path = .ok (.nil, t)) {query : List c.N.V}
    (hq : GoodQuery c query) {k k' b : Int} (hk' : k ≤ k') (hb : b ≠ -1) {fuel fuel' : Nat} {ctx ctx' o o' : Ctx c}
    {ids ids' : List Nat} {ds ds' : List c.N.V} (ho : ∀ i ∈ addedIds adds, c.N.Ordinary (itemDist c (lastAdded adds) query i))
    (hr : t.getNnsByVector fuel w query k b ctx = .ok (ids, ds, o))
    (hr' : t.getNnsByVector fuel' w query k' b ctx' = .ok (ids', ds', o')) :
    ids = ids'.take k.toNat ∧ ds = ds'.take k.toNat := by
  obtain ⟨t', h1, N0, B, _, R⟩ := h.reload hn hroots hk hf bk u
  rw [hl] at h1
  cases h1
  obtain ⟨ts, S, _⟩ := R.searchable h.wf B hk
  exact Search.answer_prefix h.wf hN S hq hk' hb (fun i hi => ho i (mem_addedIds.2 hi)) hr hr'

/-- **C118**, without a budget: the answer of the search that asks for more is at least as long, and position by position its entry does not
come later in the order of (distance, index). -/
theorem C118_default (h : Session c numCPU pol adds trees workers s s') (hN : c.N.Lawful) (w : World) {query : List c.N.V}
    (hq : GoodQuery c query) {k k' : Int} (hk : k ≤ k') {fuel fuel' : Nat} {ctx ctx' o o' : Ctx c}
    {ids ids' : List Nat} {ds ds' : List c.N.V} (ho : ∀ i ∈ addedIds adds, c.N.Ordinary (itemDist c (lastAdded adds) query i))
    (hr : s'.getNnsByVector fuel w query k (-1) ctx = .ok (ids, ds, o))
    (hr' : s'.getNnsByVector fuel' w query k' (-1) ctx' = .ok (ids', ds', o')) :
    ids.length ≤ ids'.length ∧ ∀ (a : Nat) (ha : a < ids.length) (ha' : a < ids'.length),
      ¬ PairLt c.N (itemDist c (lastAdded adds) query ids[a], ids[a]) (itemDist c (lastAdded adds) query ids'[a], ids'[a]) := by
  obtain ⟨ts, S, _⟩ := h.searchable w
  exact Search.answer_more h.wf hN S hq hk (fun i hi => ho i (mem_addedIds.2 hi)) hr hr'

/-- **C118**, without a budget, for a loaded index. -/
theorem C118_default_loaded (h : Session c numCPU pol adds trees workers s s') (hN : c.N.Lawful) (hn : 2 ≤ slotCount adds)
    (hroots : s'.roots ≠ []) (hk : c.L.CountKept (slotCount adds)) {w : World} {path : String} (hf : FileOf s' w path)
    {bk : Backend} {u t : Idx c} (hl : u.load bk w path = .ok (.nil, t)) {query : List c.N.V}
    (hq : GoodQuery c query) {k k' : Int} (hk' : k ≤ k') {fuel fuel' : Nat} {ctx ctx' o o' : Ctx c}
    {ids ids' : List Nat} {ds ds' : List c.N.V} (ho : ∀ i ∈ addedIds adds, c.N.Ordinary (itemDist c (lastAdded adds) query i))
    (hr : t.getNnsByVector fuel w query k (-1) ctx = .ok (ids, ds, o))
    (hr' : t.getNnsByVector fuel' w query k' (-1) ctx' = .ok (ids', ds', o')) :
    ids.length ≤ ids'.length ∧ ∀ (a : Nat) (ha : a < ids.length) (ha' : a < ids'.length),
      ¬ PairLt c.N (itemDist c (lastAdded adds) query ids[a], ids[a]) (itemDist c (lastAdded adds) query ids'[a], ids'[a]) := by
  obtain ⟨t', h1, N0, B, _, R⟩ := h.reload hn hroots hk hf bk u
  rw [hl] at h1
  cases h1
  obtain ⟨ts, S, _⟩ := R.searchable h.wf B hk
  exact Search.answer_more h.wf hN S hq hk' (fun i hi => ho i (mem_addedIds.2 hi)) hr hr'

/-- **C19** for a loaded index. -/
theorem C19_budget_loaded (h : Session c numCPU pol adds trees workers s s') (hN : c.N.Lawful) (hn : 2 ≤ slotCount adds)
    (hroots : s'.roots ≠ []) (hk : c.L.CountKept (slotCount adds)) {w : World} {path : String} (hf : FileOf s' w path)
    {bk : Backend} {u t : Idx c} (hl : u.load bk w path = .ok (.nil, t)) {query : List c.N.V}
    (hq : GoodQuery c query) {k b b' : Int} (hb : b ≤ b') (h1 : b ≠ -1) (h2 : b' ≠ -1) {fuel fuel' : Nat} {ctx ctx' o o' : Ctx c}
    {ids ids' : List Nat} {ds ds' : List c.N.V} (ho : ∀ i ∈ addedIds adds, c.N.Ordinary (itemDist c (lastAdded adds) query i))
    (hr : t.getNnsByVector fuel w query k b ctx = .ok (ids, ds, o))
    (hr' : t.getNnsByVector fuel' w query k b' ctx' = .ok (ids', ds', o')) :
    ids.length ≤ ids'.length ∧ ∀ (a : Nat) (ha : a < ids.length) (ha' : a < ids'.length),
      ¬ PairLt c.N (itemDist c (lastAdded adds) query ids[a], ids[a]) (itemDist c (lastAdded adds) query ids'[a], ids'[a]) ∧
      c.N.lt (itemDist c (lastAdded adds) query ids[a]) (itemDist c (lastAdded adds) query ids'[a]) = false := by
  obtain ⟨t', g1, N0, B, _, R⟩ := h.reload hn hroots hk hf bk u
  rw [hl] at g1
  cases g1
  obtain ⟨ts, S, _⟩ := R.searchable h.wf B hk
  exact Search.answer_budget h.wf hN S hq hb h1 h2 (fun i hi => ho i (mem_addedIds.2 hi)) hr hr'

end Session

/-- Without a budget the shorter answer is not the beginning of the longer one: in the index of `C70_refuted` the nearest
neighbour of item 8 is item 11 if one neighbour is asked for, and item 8 if twenty are.  The hypotheses of the theorems above hold in
this index, for budgets and answers as shown. -/
theorem C118_default_no_prefix : ∃ s s', Session (angular32 4 12) 1 .single (longAdds 20) 1 1 s s' ∧
    GoodQuery (angular32 4 12) (longVec 8) ∧
    (∀ i ∈ addedIds (longAdds 20), ieee32.Ordinary (itemDist (angular32 4 12) (lastAdded (longAdds 20)) (longVec 8) i)) ∧ ∀ w,
    (∃ ds o, s'.getNnsByVector 100 w (longVec 8) 1 (-1) (wideCtx _) = .ok ([11], ds, o)) ∧
    (∃ ds o, s'.getNnsByVector 100 w (longVec 8) 20 (-1) (wideCtx _) =
      .ok ([8, 7, 9, 6, 10, 5, 11, 4, 12, 3, 13, 14, 15, 2, 16, 17, 1, 18, 19, 0], ds, o)) ∧
    (∃ ds o, s'.getNnsByVector 100 w (longVec 8) 3 20 (wideCtx _) = .ok ([8, 7, 9], ds, o)) ∧
    (∃ ds o, s'.getNnsByVector 100 w (longVec 8) 5 20 (wideCtx _) = .ok ([8, 7, 9, 6, 10], ds, o)) := by
  obtain ⟨s, s', h, hp⟩ := made_with (c := angular32 4 12) (r := Kiss32.new 0) (adds := longAdds 20) (trees := 1)
    (fun s' => decide (s'.roots ≠ [] ∧
      answerIds (Search.run (angular32 4 12) 100 s'.bmem s'.nItems s'.roots (longVec 8) 1 (-1) (wideCtx _)) = some [11] ∧
      answerIds (Search.run (angular32 4 12) 100 s'.bmem s'.nItems s'.roots (longVec 8) 20 (-1) (wideCtx _)) =
        some [8, 7, 9, 6, 10, 5, 11, 4, 12, 3, 13, 14, 15, 2, 16, 17, 1, 18, 19, 0] ∧
      answerIds (Search.run (angular32 4 12) 100 s'.bmem s'.nItems s'.roots (longVec 8) 3 20 (wideCtx _)) = some [8, 7, 9] ∧
      answerIds (Search.run (angular32 4 12) 100 s'.bmem s'.nItems s'.roots (longVec 8) 5 20 (wideCtx _)) = some [8, 7, 9, 6, 10]))
    (angular32_wf (Or.inl rfl) (by decide)) (legalAdds_of (by decide +kernel)) (by decide +kernel) (by decide +kernel)
  obtain ⟨h1, h2, h3, h4, h5⟩ := of_decide_eq_true hp
  have key : (addedIds (longAdds 20)).all (fun i => ieee32.eq (itemDist (angular32 4 12) (lastAdded (longAdds 20)) (longVec 8) i)
      (itemDist (angular32 4 12) (lastAdded (longAdds 20)) (longVec 8) i)) = true := by decide +kernel
  refine ⟨s, s', h, ⟨rfl, angular_marginOk rfl (by decide)⟩,
    fun i hi => List.all_eq_true.1 key i hi, fun w => ?_⟩
  obtain ⟨N0, B, _⟩ := h.built
  have h0 : 0 < s'.nNodes := by
    have hN := B.nNodes
    have := List.length_pos_iff.2 h1
    omega
  obtain ⟨d1, o1, e1⟩ := answerIds_some h2
  obtain ⟨d2, o2, e2⟩ := answerIds_some h3
  obtain ⟨d3, o3, e3⟩ := answerIds_some h4
  obtain ⟨d4, o4, e4⟩ := answerIds_some h5
  exact ⟨⟨d1, o1, (B.search w h0 _ _ _ _ _).trans e1⟩, ⟨d2, o2, (B.search w h0 _ _ _ _ _).trans e2⟩,
    ⟨d3, o3, (B.search w h0 _ _ _ _ _).trans e3⟩, ⟨d4, o4, (B.search w h0 _ _ _ _ _).trans e4⟩⟩

end Annoy
