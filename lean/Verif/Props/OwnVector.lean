import Verif.Props.QueryBlind
import Verif.Props.SearchWitness
/-!
# C70: does a search by an item find the item?  Examples for C69.
-/
namespace Annoy

theorem angular32_prefix (f : Nat) : PrefixMargins (angular32 4 f) canon32 := angular_prefix canon32 (by decide)
theorem dot32_prefix (f : Nat) : PrefixMargins (dot32 4 f) canon32 := dot_prefix canon32 (by decide)
theorem angular64_prefix (f : Nat) : PrefixMargins (angular64 4 f) canon64 := angular_prefix canon64 (by decide)
theorem dot64_prefix (f : Nat) : PrefixMargins (dot64 4 f) canon64 := dot_prefix canon64 (by decide)

/-- The vector of item `i` of `longAdds`. -/
def longVec (i : Nat) : List ieee32.V := x32 0x3f800000 :: x32 (0x3f800000 + i * 0x100000) :: List.replicate 10 (x32 0)

instance (x : ieee32.V) : Decidable (canon32.fin x) := inferInstanceAs (Decidable (_ < _))

/-- **C70 as stated is false**: twenty items with vectors of length 12, `uint32`, `float32`, one tree.  The search by item 8
for its nearest neighbour returns item 11, and item 8 is not even among what is returned if all that was looked at
is returned. -/
theorem C70_refuted : ∃ s s', Session (angular32 4 12) 1 .single (longAdds 20) 1 1 s s' ∧
    SplitsKept (angular32 4 12) 1 .single (slotCount (longAdds 20)) 1 1 ∧ ∀ w,
    (∃ ds o, s'.getNnsByItem 100 w 8 1 (-1) (wideCtx _) = .ok ([11], ds, o)) ∧
    (∃ ds o, s'.getNnsByItem 100 w 8 20 1 (wideCtx _) = .ok ([11, 4, 3, 15, 2, 16, 1, 19, 0], ds, o)) ∧
    -- the same items for the vector of item 0, in another order
    (∃ ds o, s'.getNnsByVector 100 w (longVec 0) 20 1 (wideCtx _) = .ok ([0, 1, 2, 3, 4, 11, 15, 16, 19], ds, o)) := by
  obtain ⟨s, s', h, hp⟩ := made_with (c := angular32 4 12) (r := Kiss32.new 0) (adds := longAdds 20) (trees := 1)
    (fun s' => decide (s'.roots ≠ [] ∧
      answerIds (Search.run (angular32 4 12) 100 s'.bmem s'.nItems s'.roots (longVec 8) 1 (-1) (wideCtx _)) = some [11] ∧
      answerIds (Search.run (angular32 4 12) 100 s'.bmem s'.nItems s'.roots (longVec 8) 20 1 (wideCtx _)) =
        some [11, 4, 3, 15, 2, 16, 1, 19, 0] ∧
      answerIds (Search.run (angular32 4 12) 100 s'.bmem s'.nItems s'.roots (longVec 0) 20 1 (wideCtx _)) =
        some [0, 1, 2, 3, 4, 11, 15, 16, 19]))
    (angular32_wf (Or.inl rfl) (by decide)) (legalAdds_of (by decide +kernel)) (by decide +kernel) (by decide +kernel)
  obtain ⟨h1, h2, h3, h4⟩ := of_decide_eq_true hp
  refine ⟨s, s', h, splitsKept_of_length h.wf (by decide) h.fits, fun w => ?_⟩
  obtain ⟨N0, B, _⟩ := h.built
  have h0 : 0 < s'.nNodes := by
    have hN := B.nNodes
    have := List.length_pos_iff.2 h1
    omega
  obtain ⟨d1, o1, e1⟩ := answerIds_some h2
  obtain ⟨d2, o2, e2⟩ := answerIds_some h3
  obtain ⟨d3, o3, e3⟩ := answerIds_some h4
  have hv : lastAdded (longAdds 20) 8 = some (longVec 8) := by decide +kernel
  have hg := B.getItem w hv
  refine ⟨⟨d1, o1, ?_⟩, ⟨d2, o2, ?_⟩, ⟨d3, o3, (B.search w h0 _ _ _ _ _).trans e3⟩⟩
  · rw [C24_by_item, hg]
    exact (B.search w h0 _ _ _ _ _).trans e1
  · rw [C24_by_item, hg]
    exact (B.search w h0 _ _ _ _ _).trans e2

/-- C69: an index with inner nodes for which the hypotheses of `C69_blind` and `C69_same_items` hold, with two finite queries
that return the same items. -/
example : ∃ s s', Session (angular32 4 12) 1 .single (longAdds 20) 1 1 s s' ∧ (angular32 4 12).N.Lawful ∧
    PrefixMargins (angular32 4 12) canon32 ∧ (angular32 4 12).L.f ≤ (angular32 4 12).L.offV ∧
    ((addedIds (longAdds 20)).length : Int) ≤ 20 ∧
    GoodQuery (angular32 4 12) (longVec 0) ∧ GoodQuery (angular32 4 12) (longVec 8) ∧
    (∀ x ∈ longVec 0, canon32.fin x) ∧ (∀ x ∈ longVec 8, canon32.fin x) := by
  obtain ⟨s, s', h, _⟩ := C70_refuted
  exact ⟨s, s', h, ieee32_lawful, angular32_prefix 12, by decide, by decide +kernel,
    ⟨rfl, angular_marginOk rfl (by decide)⟩, ⟨rfl, angular_marginOk rfl (by decide)⟩, by decide +kernel, by decide +kernel⟩

/-- C69: vectors of length 20 in an index with `uint32`, `float32`: two components count. -/
example : (angular32 4 20).L.f ≤ (angular32 4 20).L.offV + 2 * (angular32 4 20).C.sz ∧
    ¬ (angular32 4 20).L.f ≤ (angular32 4 20).L.offV + 1 * (angular32 4 20).C.sz := by decide

/-- C69: of vectors of length 1536 (a usual embedding) 381 components count. -/
example : (angular32 4 1536).L.f ≤ (angular32 4 1536).L.offV + 381 * (angular32 4 1536).C.sz ∧
    ¬ (angular32 4 1536).L.f ≤ (angular32 4 1536).L.offV + 380 * (angular32 4 1536).C.sz := by decide

/-- An exact answer begins with the element that comes before all others. -/
theorem TopK.head_of_nearest {N : Num} {norm : N.V → N.V} {δ : Nat → N.V} {S : List Nat} {k : Nat} {ids : List Nat} {ds : List N.V}
    (T : TopK N norm δ S k ids ds) (hN : N.Lawful) (hk1 : 1 ≤ k) {i : Nat} (hi : i ∈ S) (hord : ∀ j ∈ S, N.Ordinary (δ j))
    (hnear : ∀ j ∈ S, j ≠ i → PairLt N (δ i, i) (δ j, j)) : ids.head? = some i := by
  have hpos : 0 < S.length := List.length_pos_of_mem hi
  have hasym : ∀ j ∈ S, PairLt N (δ j, j) (δ i, i) → j ≠ i → False := by
    intro j hj h1 h2
    exact pair_irrefl hN _ (pair_trans hN _ _ _ (hnear j hj h2) h1)
  cases ids with
  | nil =>
    have := T.length
    simp at this
    omega
  | cons x xs =>
    by_cases hx : x = i
    · rw [hx]; rfl
    · exfalso
      have hxS := T.sub x (by simp)
      by_cases hin : i ∈ x :: xs
      · have hin' : i ∈ xs := by
          rcases List.mem_cons.1 hin with e | e
          · exact absurd e.symm hx
          · exact e
        have hs := T.sorted hord
        rw [List.map_cons, List.pairwise_cons] at hs
        exact hasym x hxS (hs.1 _ (List.mem_map.2 ⟨i, hin', rfl⟩)) hx
      · exact hasym x hxS (T.least hord x (by simp) i hi hin) hx

namespace Session
variable {c : Cfg} {numCPU : Nat} {pol : BuildPolicy} {adds : List (Nat × List c.N.V)} {trees workers : Int} {s s' : Idx c}

/-- **C70**, given that inner nodes survive (`SplitsKept`) and that the budget covers everything: an item that is nearer to itself than every other item (or as near, with a
smaller index) is the first result of the search by this item. -/
theorem C70_own_vector_partial (h : Session c numCPU pol adds trees workers s s')
    (hk : SplitsKept c numCPU pol (slotCount adds) trees workers) (hN : c.N.Lawful) (w : World) {i : Nat} {v : List c.N.V}
    (hv : lastAdded adds i = some v) (hm : MarginOk c v) {k b : Int} {fuel : Nat} {ctx ctx' : Ctx c} {ids : List Nat}
    {ds : List c.N.V} (hk1 : 1 ≤ k) (hroots : s'.roots ≠ [])
    (hb : ((s'.roots.length * ((addedIds adds).length - 1) + 1 : Nat) : Int) ≤ b)
    (hord : ∀ j ∈ addedIds adds, c.N.Ordinary (itemDist c (lastAdded adds) v j))
    (hnear : ∀ j ∈ addedIds adds, j ≠ i → PairLt c.N (itemDist c (lastAdded adds) v i, i) (itemDist c (lastAdded adds) v j, j))
    (hr : s'.getNnsByItem fuel w i k b ctx = .ok (ids, ds, ctx')) : ids.head? = some i := by
  obtain ⟨N0, B, _⟩ := h.built
  rw [C24_by_item, B.getItem w hv] at hr
  have hlen : v.length = c.L.f := (B.items i v hv).vec ▸ by simp [Node.vec]
  obtain ⟨T, _⟩ := C17_exhaustive_partial h hk hN w ⟨hlen, hm⟩ hroots hb hr
  have hi : i ∈ addedIds adds := mem_liveOf.2 ⟨B.bound i v hv, by rw [hv]; rfl⟩
  exact T.head_of_nearest hN (by omega) hi hord hnear

end Session

instance (N : Num) (x y : N.V × Nat) : Decidable (PairLt N x y) :=
  inferInstanceAs (Decidable (N.lt x.1 y.1 = true ∨ (N.eq x.1 y.1 = true ∧ x.2 < y.2)))

/-- C70: the hypotheses of `C70_own_vector_partial` hold for item 0 of the index with items 0 and 20. -/
example : ∃ s s', Session (angular32 4 12) 1 .single farAdds 1 1 s s' ∧
    SplitsKept (angular32 4 12) 1 .single (slotCount farAdds) 1 1 ∧ lastAdded farAdds 0 = some (longVec 0) ∧
    MarginOk (angular32 4 12) (longVec 0) ∧ s'.roots ≠ [] ∧
    ((s'.roots.length * ((addedIds farAdds).length - 1) + 1 : Nat) : Int) ≤ 2 ∧
    (∀ j ∈ addedIds farAdds, (angular32 4 12).N.Ordinary (itemDist (angular32 4 12) (lastAdded farAdds) (longVec 0) j)) ∧
    (∀ j ∈ addedIds farAdds, j ≠ 0 → PairLt (angular32 4 12).N
      (itemDist (angular32 4 12) (lastAdded farAdds) (longVec 0) 0, 0)
      (itemDist (angular32 4 12) (lastAdded farAdds) (longVec 0) j, j)) ∧ ∀ w,
    ∃ ds o, s'.getNnsByItem 100 w 0 1 2 (wideCtx _) = .ok ([0], ds, o) := by
  obtain ⟨s, s', h, hp⟩ := made_with (c := angular32 4 12) (r := Kiss32.new 0) (adds := farAdds) (trees := 1)
    (fun s' => decide (s'.roots = [21] ∧
      answerIds (Search.run (angular32 4 12) 100 s'.bmem s'.nItems s'.roots (longVec 0) 1 2 (wideCtx _)) = some [0]))
    (angular32_wf (Or.inl rfl) (by decide)) (legalAdds_of (by decide +kernel)) (by decide +kernel) (by decide +kernel)
  obtain ⟨h1, h2⟩ := of_decide_eq_true hp
  obtain ⟨N0, B, _⟩ := h.built
  have h0 : 0 < s'.nNodes := by have := B.nNodes; rw [h1] at this; simp at this; omega
  obtain ⟨d1, o1, e1⟩ := answerIds_some h2
  have hv : lastAdded farAdds 0 = some (longVec 0) := by decide +kernel
  refine ⟨s, s', h, splitsKept_of_length h.wf (by decide) h.fits, hv, angular_marginOk rfl (by decide),
    by rw [h1]; simp, by rw [h1]; decide +kernel, by decide +kernel, by decide +kernel, fun w => ⟨d1, o1, ?_⟩⟩
  rw [C24_by_item, B.getItem w hv]
  exact (B.search w h0 _ _ _ _ _).trans e1

end Annoy
