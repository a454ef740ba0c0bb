import Verif.Props.SaveLoadWitness
/-!
# Indexes without trees (C81), and searches of loaded indexes that return wrong numbers (C16)

`Build` with zero trees, or with zero workers of the multi worker policy (C54), leaves an index without trees.  In its file there is nothing
but item slots, and `Load`, which takes the nodes at the end for roots, takes items for roots.
-/
namespace Annoy

section
variable {c : Cfg} {numCPU : Nat} {pol : BuildPolicy} {adds : List (Nat × List c.N.V)} {trees workers : Int}
  {s s' : Idx c}

/-- `Load` of the file of a built index, spelled out. -/
theorem Session.load_run (h : Session c numCPU pol adds trees workers s s') (h0 : 0 < s'.nNodes) {w : World} {path : String}
    (hf : FileOf s' w path) (bk : Backend) (u : Idx c) :
    ∃ hd : Handle, hd.block w = ⟨s'.nNodes * c.L.nodeSize, s'.alloc.data⟩ ∧
      u.load bk w path = (do
        let (roots, md) ← Idx.scanRoots c ⟨s'.nNodes * c.L.nodeSize, s'.alloc.data⟩ (s'.nNodes + 2) (s'.nNodes - 1) none
        let roots ← Idx.dropDup c ⟨s'.nNodes * c.L.nodeSize, s'.alloc.data⟩ roots
        let k ← Idx.countNNS c ⟨s'.nNodes * c.L.nodeSize, s'.alloc.data⟩ (md.getD 0) s'.nNodes
        .ok (.nil, { u.close with
          indexMemory := some hd
          nodes := .file hd
          nNodes := s'.nNodes
          roots := roots
          built := true
          loaded := true
          nItems := md.getD 0
          batchMaxNNS := k })) := by
  obtain ⟨N0, B, _⟩ := h.built
  have hp := h.wf.layout.nodeSize_pos
  have hlen : (s'.alloc.block.prefix (s'.nNodes * c.L.nodeSize)).length = s'.nNodes * c.L.nodeSize := by simp [Block.prefix]
  have hpos : 0 < s'.nNodes * c.L.nodeSize := Nat.mul_pos h0 hp
  obtain ⟨hd, h1, h2, h3⟩ := Idx.load_read (bk := bk) (h.fileOf.1 hf) (by
    intro h0
    rw [h0] at hlen
    simp at hlen
    omega) u
  refine ⟨hd, by rw [h2, B.file_block], ?_⟩
  rw [h3, hlen, Nat.mul_mod_left, if_neg (by simp), c.L.wrap_eq B.size_lt, Nat.mul_div_cancel _ hp, B.file_block]
  dsimp only
  rw [if_neg (by omega : ¬ s'.nNodes = 0)]

/-- **C81**, the part that holds: before it is saved, an index without trees answers every search with nothing. -/
theorem C81_in_memory_partial (h : Session c numCPU pol adds trees workers s s') (hr : s'.roots = []) (w : World) {query : List c.N.V}
    (hq : query.length ≤ c.L.f) (k b : Int) (fuel : Nat) (ctx : Ctx c) :
    ∃ o, s'.getNnsByVector (fuel + 1) w query k b ctx = .ok ([], [], o) :=
  C26_empty h.wf s' fuel w hq (Or.inl hr) ctx

/-- **C81 is false** for every index without trees and without gaps: all nodes of its file have the count 1, and `Load`, looking for the
first root, runs out of the file. -/
theorem C81_dense_refuted (h : Session c numCPU pol adds trees workers s s') (hr : s'.roots = []) (hd : Dense adds)
    (hn : 0 < slotCount adds) {w : World} {path : String} (hf : FileOf s' w path) (bk : Backend) (u : Idx c) :
    u.load bk w path = .error .oob := by
  obtain ⟨N0, B, _⟩ := h.built
  have hN := B.nNodes
  have h0 := B.noRoots hr
  rw [hr, List.length_nil] at hN
  obtain ⟨hd', _, h2⟩ := h.load_run (by omega) hf bk u
  rw [h2]
  have hall : ∀ i, i < s'.nNodes → ndAt c.L s'.alloc.data i = 1 := by
    intro i hi
    obtain ⟨v, hv⟩ := Option.isSome_iff_exists.1 (hd i (by omega))
    exact (B.items i v hv).nDesc
  rw [Idx.scanRoots_fault h.wf.layout B.size_lt hall (s'.nNodes - 1) (s'.nNodes + 2) none (by omega) (by omega) (Or.inl rfl)]
  rfl

/-- **C81 is false** for the other ones, too: if `Load` returns, the loaded index has one slot. -/
theorem C81_count_refuted (h : Session c numCPU pol adds trees workers s s') (hr : s'.roots = []) (hn : 0 < slotCount adds)
    {w : World} {path : String} (hf : FileOf s' w path) {bk : Backend} {u t : Idx c}
    (hl : u.load bk w path = .ok (.nil, t)) : t.nItems = 1 ∧ t.roots ≠ [] := by
  obtain ⟨N0, B, _⟩ := h.built
  have hN := B.nNodes
  have h0 := B.noRoots hr
  rw [hr, List.length_nil] at hN
  obtain ⟨hd', _, h2⟩ := h.load_run (by omega) hf bk u
  rw [h2] at hl
  have hlast : Node.nDesc c.L s'.alloc.data ((s'.nNodes - 1) * c.L.nodeSize) = 1 := by
    obtain ⟨v, hv⟩ := Option.isSome_iff_exists.1 (B.top hn)
    have := (B.items _ v hv).nDesc
    rwa [show s'.nNodes - 1 = slotCount adds - 1 by omega]
  have hmd : ∀ (fuel i v : Nat) rs md, Idx.scanRoots c ⟨s'.nNodes * c.L.nodeSize, s'.alloc.data⟩ fuel i (some v) = .ok (rs, md) →
      md = some v := by
    intro fuel
    induction fuel with
    | zero => intro i v rs md hs; cases hs
    | succ fuel ih =>
      intro i v rs md hs
      unfold Idx.scanRoots at hs
      simp only [bind, Except.bind] at hs
      split at hs
      · cases hs
      · split at hs
        · next hv =>
          split at hs
          · cases hs
          · next x hx =>
            cases hs
            rcases hv with hv | hv
            · cases hv
            · rw [hv]; exact ih _ _ _ _ hx
        · cases hs; rfl
  unfold Idx.scanRoots at hl
  rw [Idx.getNode_block B.size_lt (by omega : s'.nNodes - 1 < s'.nNodes)] at hl
  simp only [bind, Except.bind] at hl
  rw [if_pos (Or.inl trivial)] at hl
  split at hl
  · cases hl
  · next x hx =>
    split at hx
    · cases hx
    · next y hy =>
      obtain ⟨rs, md⟩ := y
      have := hmd _ _ _ _ _ hy
      subst this
      cases hx
      dsimp only at hl
      split at hl
      · cases hl
      · next rs' hrs =>
        split at hl
        · cases hl
        · cases hl
          refine ⟨hlast, ?_⟩
          show rs' ≠ []
          cases rs with
          | nil => unfold Idx.dropDup at hrs; cases hrs; simp
          | cons r1 rs =>
            unfold Idx.dropDup at hrs
            simp only [bind, Except.bind] at hrs
            split at hrs
            · cases hrs
            · split at hrs
              · cases hrs
              · split at hrs
                · cases hrs
                · split at hrs <;> cases hrs <;> simp

end

/-- Indexes without trees: the hypotheses of the theorems above are met. -/
example : ∃ s s', Session (alt32 12) 1 .single (longAdds 20) 0 1 s s' ∧ s'.roots = [] ∧ Dense (longAdds 20) ∧
    slotCount (longAdds 20) = 20 ∧ ∃ w, FileOf s' w "x" := by
  obtain ⟨s, s', _, h, h1, _⟩ := C10_single (alt32_wf (f := 12) (by decide))
    (Conc.angular_total altRng_inRange (by decide)) (alt32_balanced 12) 1 (longAdds 20)
    (legalAdds_of (by decide +kernel)) false 0 0 1 (by decide +kernel)
  exact ⟨s, s', h, List.length_eq_zero_iff.1 (h1 (by decide)), by unfold Dense; decide +kernel, by decide +kernel, h.file "x"⟩

/-- Two items, in slots 0 and 2, with vectors of length 2. -/
def apartAdds : List (Nat × List ieee32.V) := [(0, [x32 0x3f800000, x32 0]), (2, [x32 0x3f800000, x32 0x3f800000])]

/-- **C16 as stated is false**, and so is C81: an index with the items 0 and 2 (vectors `(1, 0)` and `(1, 1)`, `float32`, `uint32`)
and no trees, saved and loaded, answers the search for `(1, 1)` with the item number 1073741824, which nobody added.  Item 2 is taken for
the root, its norm 2.0 for the number of a child, and the address of node 1073741824, computed modulo `2 ^ 32`, is that of item 0. -/
theorem C16_loaded_refuted : ∃ s s', Session (angular32 4 2) 1 .single apartAdds 0 1 s s' ∧
    ∀ w path, FileOf s' w path → ∀ bk (u : Idx (angular32 4 2)), ∃ t, u.load bk w path = .ok (.nil, t) ∧
      lastAdded apartAdds 1073741824 = none ∧
      (∃ ds o, t.getNnsByVector 100 w query2 2 (-1) t.createContext = .ok ([1073741824], ds, o)) := by
  obtain ⟨s, s', h, hp⟩ := made_with (c := angular32 4 2) (r := Kiss32.new 0) (adds := apartAdds) (trees := 0)
    (fun s' => decide (s'.nNodes = 3 ∧
      (Idx.scanRoots (angular32 4 2) ⟨3 * (angular32 4 2).L.nodeSize, s'.alloc.data⟩ 5 2 none).toOption = some ([2], some 1) ∧
      (Idx.countNNS (angular32 4 2) ⟨3 * (angular32 4 2).L.nodeSize, s'.alloc.data⟩ 1 3).toOption = some 1 ∧
      answerIds (Search.run (angular32 4 2) 100 ⟨3 * (angular32 4 2).L.nodeSize, s'.alloc.data⟩ 1 [2] query2 2 (-1)
        ⟨List.replicate 1 0, List.replicate 1 (x32 0, 0)⟩) = some [1073741824]))
    (angular32_wf (Or.inl rfl) (by decide)) (legalAdds_of (by decide +kernel)) (by decide +kernel) (by decide +kernel)
  obtain ⟨h1, h2, h3, h4⟩ := of_decide_eq_true hp
  refine ⟨s, s', h, fun w path hf bk u => ?_⟩
  obtain ⟨hd, l1, l2⟩ := h.load_run (by omega) hf bk u
  rw [h1] at l1 l2
  have e2 : Idx.scanRoots (angular32 4 2) ⟨3 * (angular32 4 2).L.nodeSize, s'.alloc.data⟩ 5 2 none = .ok ([2], some 1) := by
    revert h2
    cases Idx.scanRoots (angular32 4 2) ⟨3 * (angular32 4 2).L.nodeSize, s'.alloc.data⟩ 5 2 none with
    | error e => intro h2; cases h2
    | ok x => intro h2; cases h2; rfl
  have e3 : Idx.countNNS (angular32 4 2) ⟨3 * (angular32 4 2).L.nodeSize, s'.alloc.data⟩ 1 3 = .ok 1 := by
    revert h3
    cases Idx.countNNS (angular32 4 2) ⟨3 * (angular32 4 2).L.nodeSize, s'.alloc.data⟩ 1 3 with
    | error e => intro h3; cases h3
    | ok x => intro h3; cases h3; rfl
  rw [e2] at l2
  simp only [bind, Except.bind, Idx.dropDup, Option.getD_some] at l2
  rw [e3] at l2
  refine ⟨_, l2, by decide +kernel, ?_⟩
  obtain ⟨ds, o, e⟩ := answerIds_some h4
  refine ⟨ds, o, ?_⟩
  rw [← e]
  unfold Idx.getNnsByVector Idx.mem
  dsimp only
  rw [l1]
  rfl

/-- Two items, in slots 0 and 256, with vectors of length 1.  The second one is so small that its squared norm is `257 * 2 ^ -149`. -/
def cutAdds : List (Nat × List ieee32.V) := [(0, [x32 0x3f800000]), (256, [x32 0x1c355f5f])]

theorem toOption_some {α : Type} {r : Except Err α} {x : α} (h : r.toOption = some x) : r = .ok x := by
  cases r with
  | error e => cases h
  | ok y => cases h; rfl

/-- **C16 as stated is false** also with trees, if the number of slots does not fit into `f` bytes: 257 slots, vectors of length 1 and
one tree.  In the file the count of the root is 1.  `Load` goes on past the root to item 256, takes it for a root, and its
norm for the number 257 of a child, which is the root of the tree; as the count of that node is 1, a search returns it. -/
theorem C16_cut_refuted : ∃ s s', Session (angular32 4 1) 1 .single cutAdds 1 1 s s' ∧ s'.roots ≠ [] ∧
    ∀ w path, FileOf s' w path → ∀ bk (u : Idx (angular32 4 1)), ∃ t, u.load bk w path = .ok (.nil, t) ∧
      lastAdded cutAdds 257 = none ∧
      (∃ ds o, t.getNnsByVector 100 w [x32 0x3f800000] 3 (-1) t.createContext = .ok ([0, 257], ds, o)) := by
  obtain ⟨s, s', h, hp⟩ := made_with (c := angular32 4 1) (r := Kiss32.new 0) (adds := cutAdds) (trees := 1)
    (fun s' => decide (s'.nNodes = 259 ∧ s'.roots = [257] ∧
      (Idx.scanRoots (angular32 4 1) ⟨259 * (angular32 4 1).L.nodeSize, s'.alloc.data⟩ 261 258 none).toOption =
        some ([258, 257, 256], some 1) ∧
      (Idx.dropDup (angular32 4 1) ⟨259 * (angular32 4 1).L.nodeSize, s'.alloc.data⟩ [258, 257, 256]).toOption =
        some [258, 257, 256] ∧
      (Idx.countNNS (angular32 4 1) ⟨259 * (angular32 4 1).L.nodeSize, s'.alloc.data⟩ 1 259).toOption = some 3 ∧
      answerIds (Search.run (angular32 4 1) 100 ⟨259 * (angular32 4 1).L.nodeSize, s'.alloc.data⟩ 1 [258, 257, 256]
        [x32 0x3f800000] 3 (-1) ⟨List.replicate 3 0, List.replicate 3 (x32 0, 0)⟩) = some [0, 257]))
    (angular32_wf (Or.inl rfl) (by decide)) (legalAdds_of (by decide +kernel)) (by decide +kernel) (by decide +kernel)
  obtain ⟨h1, h0, h2, h5, h3, h4⟩ := of_decide_eq_true hp
  refine ⟨s, s', h, by rw [h0]; simp, fun w path hf bk u => ?_⟩
  obtain ⟨hd, l1, l2⟩ := h.load_run (by omega) hf bk u
  rw [h1] at l1 l2
  rw [toOption_some h2] at l2
  simp only [bind, Except.bind, Option.getD_some] at l2
  rw [toOption_some h5] at l2
  simp only at l2
  rw [toOption_some h3] at l2
  refine ⟨_, l2, by decide +kernel, ?_⟩
  obtain ⟨ds, o, e⟩ := answerIds_some h4
  refine ⟨ds, o, ?_⟩
  rw [← e]
  unfold Idx.getNnsByVector Idx.mem
  dsimp only
  rw [l1]
  rfl

end Annoy
