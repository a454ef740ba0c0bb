import Verif.Proof.LoadSearch
import Verif.Props.SearchWitness
/-!
# Saving a built index and loading it (C16, C17, C18, C27, C28, C29, C31, C56, C65)

A world is a file system (Model/Alloc.lean).  `FileOf s' w path` says that the file at `path` holds what `Save` of `s'` writes;
after a `Save` that returns it does (`C27_save`), and no property of the index that calls `Load` matters.
-/
namespace Annoy

/-- The file at `path` holds the bytes that `Save` of `s` writes. -/
def FileOf {c : Cfg} (s : Idx c) (w : World) (path : String) : Prop :=
  ∃ bytes, s.saveBytes w = .ok (some bytes) ∧ w.read path = some bytes

/-- As far as items are concerned, `t` is like `s`: same number of slots, same vectors, same distances (bit for bit). -/
structure SameItems {c : Cfg} (w : World) (s : Idx c) (w' : World) (t : Idx c) : Prop where
  nItems : t.nItems = s.nItems
  getItem : ∀ i, i < s.nItems → t.getItem w' i = s.getItem w i
  getDistance : ∀ i j, i < s.nItems → j < s.nItems → t.getDistance w' i j = s.getDistance w i j

/-! ### files -/

theorem World.create_write {w : World} {path : String} (h : w.creatable path = true) :
    ∃ i w1, w.create path = some (i, w1) ∧ w1.read path = some [] ∧ ∀ bytes, (w1.write i bytes).read path = some bytes := by
  unfold World.create
  rw [if_pos h]
  cases hd : w.dir path with
  | some i =>
    refine ⟨i, _, rfl, ?_, fun bytes => ?_⟩
    · simp [World.read, hd]
    · simp [World.read, World.write, hd]
  | none =>
    refine ⟨w.next, _, rfl, ?_, fun bytes => ?_⟩
    · simp [World.read]
    · simp [World.read, World.write]

section
variable {c : Cfg} {numCPU : Nat} {pol : BuildPolicy} {adds : List (Nat × List c.N.V)} {trees workers : Int}
  {s s' : Idx c}

theorem Session.fileOf (h : Session c numCPU pol adds trees workers s s') {w : World} {path : String} :
    FileOf s' w path ↔ w.read path = some (s'.alloc.block.prefix (s'.nNodes * c.L.nodeSize)) := by
  obtain ⟨N0, B, _⟩ := h.built
  unfold FileOf
  rw [B.saveBytes h.wf]
  constructor
  · rintro ⟨bytes, h1, h2⟩
    cases h1
    exact h2
  · exact fun h => ⟨_, rfl, h⟩

/-- What `Load` makes of the file of a built index. -/
theorem Session.reload (h : Session c numCPU pol adds trees workers s s') (hn : 2 ≤ slotCount adds) (hr : s'.roots ≠ [])
    (hk : c.L.CountKept (slotCount adds)) {w : World} {path : String} (hf : FileOf s' w path) (bk : Backend) (u : Idx c) :
    ∃ t, u.load bk w path = .ok (.nil, t) ∧ ∃ N0, s'.Built (lastAdded adds) (slotCount adds) N0 ∧
      N0 ≤ treeRoom numCPU pol (slotCount adds) trees workers ∧ s'.Reloaded (slotCount adds) N0 w t := by
  obtain ⟨N0, B, hN, _⟩ := h.built
  obtain ⟨t, h1, h2⟩ := B.load h.wf hn hr hk (h.fileOf.1 hf) u (bk := bk)
  exact ⟨t, h1, N0, B, by have := B.nNodes; omega, h2⟩

/-! ### C56 -/

/-- **C56**: `Save` of a built index hands `(slots + tree nodes + roots) * nodeSize` bytes to the file system: first the item slots (a node
for each added item, zeros – except for unused bytes – for unused slots), then the tree nodes, then for each root, in the order of
the roots, a copy of the first `f` bytes of its node and zeros (see C52).  The tree nodes are the trees of the index, if inner nodes
survive being written. -/
theorem C56_file_layout (h : Session c numCPU pol adds trees workers s s') (w : World) :
    ∃ (bytes : List Byte) (inner : Nat), s'.saveBytes w = .ok (some bytes) ∧
      bytes.length = (slotCount adds + inner + s'.roots.length) * c.L.nodeSize ∧
      (∀ i v, lastAdded adds i = some v → Node.nDesc c.L (Block.ofList bytes).get (i * c.L.nodeSize) = 1 ∧
        Node.vec c.L c.C (Block.ofList bytes).get (i * c.L.nodeSize) = v) ∧
      (∀ i, i < slotCount adds → lastAdded adds i = none → ∀ j, j < c.L.nodeSize → (j < 3 * c.L.szIX ∨ c.L.offV ≤ j) →
        bytes.getD (i * c.L.nodeSize + j) 0 = 0) ∧
      (∀ r ∈ s'.roots, slotCount adds ≤ r ∧ r < slotCount adds + inner) ∧
      (∀ k (hk : k < s'.roots.length) j, j < c.L.nodeSize →
        bytes.getD ((slotCount adds + inner + k) * c.L.nodeSize + j) 0 =
          if j < c.L.f then bytes.getD (s'.roots[k] * c.L.nodeSize + j) 0 else 0) ∧
      (SplitsKept c numCPU pol (slotCount adds) trees workers → ∃ ts : List Tree, ts.map Tree.root = s'.roots ∧
        (∀ t ∈ ts, RootTree c.L (Block.ofList bytes).get (slotCount adds) (addedIds adds) t) ∧
        (ts.flatMap Tree.inner).Perm (List.range' (slotCount adds) inner)) := by
  obtain ⟨N0, B, hN, _⟩ := h.built
  have hle := B.n_le
  have hnn := B.nNodes
  have e0 : slotCount adds + (N0 - slotCount adds) = N0 := by omega
  have hblk := B.file_block
  have hget : (Block.ofList (s'.alloc.block.prefix (s'.nNodes * c.L.nodeSize))).get = s'.alloc.data := by rw [hblk]
  have hD : ∀ x, (s'.alloc.block.prefix (s'.nNodes * c.L.nodeSize)).getD x 0 = s'.alloc.data x := by
    intro x
    rw [← hget]
    rfl
  refine ⟨_, N0 - slotCount adds, B.saveBytes h.wf w, ?_, ?_, ?_, ?_, ?_, ?_⟩
  · rw [e0, ← hnn]
    simp [Block.prefix]
  · intro i v hi
    rw [hget]
    exact ⟨(B.items i v hi).nDesc, (B.items i v hi).vec⟩
  · intro i hi hm j hj hj'
    rw [hD]
    exact B.gaps i hi hm j hj hj'
  · intro r hr
    rw [e0]
    exact B.roots_lt r hr
  · intro k hk j hj
    rw [hD, hD, e0]
    exact B.copies k hk j hj
  · intro hs
    rw [hget]
    refine B.forest ?_
    rcases hs with hs | hs
    · exact Or.inr hs
    · exact Or.inl (hs.mono (by omega))

/-! ### C27 -/

theorem Idx.Reloaded.sameItems {n N0 : Nat} {m : Nat → Option (List c.N.V)} {w : World} {t : Idx c}
    (B : s'.Built m n N0) (R : s'.Reloaded n N0 w t) (w0 : World) : SameItems w0 s' w t := by
  have hnn := B.n_le_nNodes
  have hN := B.nItems
  have key : ∀ i, i < s'.nItems → Annoy.getNode c.L (t.mem w) i = .ok (i * c.L.nodeSize) ∧
      Annoy.getNode c.L (s'.mem w0) i = .ok (i * c.L.nodeSize) ∧ (t.mem w).get = (s'.mem w0).get := by
    intro i hi
    refine ⟨R.getNode B (by omega), B.getNode w0 (by omega), ?_⟩
    rw [R.mem, (B.mem_eq w0 (by omega)).1]
    rfl
  refine ⟨by rw [R.nItems, hN], fun i hi => ?_, fun i j hi hj => ?_⟩
  · obtain ⟨k1, k2, k3⟩ := key i hi
    simp only [Idx.getItem, k1, k2, k3]
  · obtain ⟨k1, k2, k3⟩ := key i hi
    obtain ⟨l1, l2, _⟩ := key j hj
    simp only [Idx.getDistance, k1, k2, k3, l1, l2]

/-- **C27**, given that the number of slots fits into `f` bytes (always so for `f ≥ szIX`): `Save` of a built index with at least two
slots and one tree succeeds if the file can be created, and afterwards – and after loading the file into whatever index, with
either back end – all items, all distances and the number of slots are as before.  (Missing: `C27_refuted`.) -/
theorem C27_save_load_partial (h : Session c numCPU pol adds trees workers s s') (hn : 2 ≤ slotCount adds) (hr : s'.roots ≠ [])
    (hk : c.L.CountKept (slotCount adds)) (bk : Backend) (w : World) (path : String) (hcr : w.creatable path = true) :
    ∃ t w', s'.save bk w path = .ok (.nil, t, w') ∧ FileOf s' w' path ∧ SameItems w s' w' t ∧
      ∀ (bk' : Backend) (u : Idx c), ∃ t', u.load bk' w' path = .ok (.nil, t') ∧ SameItems w s' w' t' := by
  obtain ⟨N0, B, _⟩ := h.built
  obtain ⟨i, w1, c1, c2, c3⟩ := World.create_write hcr
  have hsb := B.saveBytes h.wf w1
  set bytes := s'.alloc.block.prefix (s'.nNodes * c.L.nodeSize)
  have hf : FileOf s' (w1.write i bytes) path := h.fileOf.2 (c3 bytes)
  obtain ⟨t, l1, N1, B1, _, R1⟩ := h.reload hn hr hk hf bk s'
  refine ⟨t, w1.write i bytes, ?_, hf, R1.sameItems B1 w, fun bk' u => ?_⟩
  · unfold Idx.save
    rw [if_neg (by simp [B.built]), c1]
    simp only [hsb, bind, Except.bind]
    rw [l1]
  · obtain ⟨t', l2, N2, B2, _, R2⟩ := h.reload hn hr hk hf bk' u
    exact ⟨t', l2, R2.sameItems B2 w⟩

/-- **C27 as stated is false** when the number of slots does not fit into `f` bytes (say, 256 items with vectors of length 1): no `Load` of
the file gives an index with the right number of slots, whatever the trees. -/
theorem C27_refuted (h : Session c numCPU pol adds trees workers s s') (hr : s'.roots ≠ [])
    (hk : ¬ c.L.CountKept (slotCount adds)) {bk : Backend} {w : World} {path : String} (hf : FileOf s' w path) {u t : Idx c}
    (hl : u.load bk w path = .ok (.nil, t)) : t.nItems = slotCount adds % 2 ^ (8 * c.L.f) ∧ t.nItems < slotCount adds := by
  obtain ⟨N0, B, _⟩ := h.built
  have hp := h.wf.layout.nodeSize_pos
  have hfit := B.size_lt
  have hrl := List.length_pos_iff.2 hr
  have hN := B.nNodes
  have hread := h.fileOf.1 hf
  have hlen : (s'.alloc.block.prefix (s'.nNodes * c.L.nodeSize)).length = s'.nNodes * c.L.nodeSize := by simp [Block.prefix]
  have hpos : 0 < s'.nNodes * c.L.nodeSize := Nat.mul_pos (by omega) hp
  obtain ⟨hd, h1, h2, h3⟩ := Idx.load_read (bk := bk) hread (by
    intro h0
    rw [h0] at hlen
    simp at hlen
    omega) u
  rw [h3, hlen, Nat.mul_mod_left, if_neg (by simp), c.L.wrap_eq hfit, Nat.mul_div_cancel _ hp, B.file_block] at hl
  dsimp only at hl
  rw [if_neg (by omega : ¬ s'.nNodes = 0)] at hl
  -- the count of the last node is the number of slots found
  have hlast : ndAt c.L s'.alloc.data (s'.nNodes - 1) = slotCount adds % 2 ^ (8 * c.L.f) := by
    have := B.copy_count h.wf (k := s'.roots.length - 1) (by omega)
    rwa [show N0 + (s'.roots.length - 1) = s'.nNodes - 1 by omega] at this
  have hmd : ∀ (fuel i v : Nat) rs md, Idx.scanRoots c ⟨s'.nNodes * c.L.nodeSize, s'.alloc.data⟩ fuel i (some v) = .ok (rs, md) →
      md = some v := by
    intro fuel
    induction fuel with
    | zero => intro i v rs md hs; cases hs
    | succ fuel ih =>
      intro i v rs md hs
      unfold Idx.scanRoots at hs
      simp only [bind, Except.bind] at hs
      split at hs
      · cases hs
      · split at hs
        · next hv =>
          split at hs
          · cases hs
          · next x hx =>
            cases hs
            rcases hv with hv | hv
            · cases hv
            · rw [hv]; exact ih _ _ _ _ hx
        · cases hs; rfl
  unfold Idx.scanRoots at hl
  rw [Idx.getNode_block hfit (by omega : s'.nNodes - 1 < s'.nNodes)] at hl
  simp only [bind, Except.bind] at hl
  rw [if_pos (Or.inl trivial)] at hl
  split at hl
  · cases hl
  · next x hx =>
    split at hx
    · cases hx
    · next y hy =>
      obtain ⟨rs, md⟩ := y
      have := hmd _ _ _ _ _ hy
      subst this
      cases hx
      dsimp only at hl
      split at hl
      · cases hl
      · split at hl
        · cases hl
        · cases hl
          refine ⟨?_, ?_⟩
          · exact hlast
          · show Node.nDesc c.L s'.alloc.data ((s'.nNodes - 1) * c.L.nodeSize) < _
            rw [show Node.nDesc c.L s'.alloc.data ((s'.nNodes - 1) * c.L.nodeSize) = _ from hlast]
            exact lt_of_lt_of_le (Nat.mod_lt _ (by positivity)) (by unfold Layout.CountKept at hk; omega)

/-! ### C29 -/

/-- **C29**, given that the number of slots, inner nodes and the children of root copies survive being written (`CountKept`, `SplitsKept`,
`CopiesKept`; always so for `f ≥ 3 * szIX` and more than `K` slots): `Load` finds all root copies, in reverse order and without repetition
among other roots, and every root it finds is the root of a complete tree over the added items.  (Missing: `C29_refuted`.) -/
theorem C29_roots_partial (h : Session c numCPU pol adds trees workers s s') (hn : 2 ≤ slotCount adds) (hr : s'.roots ≠ [])
    (hk : c.L.CountKept (slotCount adds)) (hs : SplitsKept c numCPU pol (slotCount adds) trees workers)
    (hck : c.L.CopiesKept (slotCount adds)) {w : World} {path : String} (hf : FileOf s' w path) {bk : Backend} {u t : Idx c}
    (hl : u.load bk w path = .ok (.nil, t)) :
    (∀ x, s'.nNodes - s'.roots.length ≤ x → x < s'.nNodes → x ∈ t.roots) ∧ t.roots.Pairwise (· > ·) ∧
    ∀ x ∈ t.roots, ∃ tr : Tree, tr.root = x ∧ RootTree c.L (t.mem w).get t.nItems (addedIds adds) tr := by
  obtain ⟨t', h1, N0, B, hN, R⟩ := h.reload hn hr hk hf bk u
  rw [hl] at h1
  cases h1
  have hnn := B.nNodes
  refine ⟨fun x h1 h2 => ?_, ?_, ?_⟩
  · have := R.copies_found B (k := x - N0) (by omega)
    rwa [show N0 + (x - N0) = x by omega] at this
  · obtain ⟨j, _, _, _, _, h5⟩ := R.roots_or
    rcases h5 with h5 | ⟨h5, _⟩ <;> rw [h5] <;>
      exact List.pairwise_reverse.2 (List.pairwise_lt_range' (step := 1) (by omega))
  · rw [R.mem, R.nItems]
    refine R.forest h.wf B hk ?_ hck
    rcases hs with hs | hs
    · exact Or.inr hs
    · exact Or.inl (hs.mono hN)

/-! ### searches of loaded indexes -/

/-- **C16** for loaded indexes. -/
theorem C16_sound_loaded (h : Session c numCPU pol adds trees workers s s') (hN : c.N.Lawful) (hn : 2 ≤ slotCount adds)
    (hroots : s'.roots ≠ []) (hk : c.L.CountKept (slotCount adds)) {w : World} {path : String} (hf : FileOf s' w path)
    {bk : Backend} {u t : Idx c} (hl : u.load bk w path = .ok (.nil, t)) {query : List c.N.V}
    (hq : GoodQuery c query) {k b : Int} {fuel : Nat} {ctx ctx' : Ctx c} {ids : List Nat} {ds : List c.N.V}
    (hr : t.getNnsByVector fuel w query k b ctx = .ok (ids, ds, ctx')) :
    ∃ S : List Nat, S.Nodup ∧ (∀ i ∈ S, (lastAdded adds i).isSome) ∧
      TopK c.N c.D.normalizedDistance (itemDist c (lastAdded adds) query) S k.toNat ids ds := by
  obtain ⟨t', h1, N0, B, _, R⟩ := h.reload hn hroots hk hf bk u
  rw [hl] at h1
  cases h1
  obtain ⟨ts, S, _⟩ := R.searchable h.wf B hk
  obtain ⟨done, rest, _, _, _, r⟩ := Search.answer h.wf hN S hq hr
  exact ⟨_, itemsAmong_nodup _ _ _, Search.itemsAmong_live, r⟩

/-- **C65** for loaded indexes. -/
theorem C65_search_terminates_loaded (h : Session c numCPU pol adds trees workers s s') (hN : c.N.Lawful)
    (hn : 2 ≤ slotCount adds) (hroots : s'.roots ≠ []) (hk : c.L.CountKept (slotCount adds)) {w : World} {path : String}
    (hf : FileOf s' w path) {bk : Backend} {u t : Idx c} (hl : u.load bk w path = .ok (.nil, t)) :
    ∃ F : Nat, ∀ (query : List c.N.V), GoodQuery c query → ∀ (k b : Int) (ctx : Ctx c) (fuel : Nat), F ≤ fuel →
      (∃ x, t.getNnsByVector fuel w query k b ctx = .ok x) ∨
      ∃ msg, t.getNnsByVector fuel w query k b ctx = .error (.panic msg) := by
  obtain ⟨t', h1, N0, B, _, R⟩ := h.reload hn hroots hk hf bk u
  rw [hl] at h1
  cases h1
  obtain ⟨ts, S, _⟩ := R.searchable h.wf B hk
  refine ⟨Tree.sizes ts + 1, fun query hq k b ctx fuel hf => ?_⟩
  rcases Search.outcome h.wf hN S hq k b (by omega : Tree.sizes ts < fuel) ctx with h1 | ⟨_, h1⟩
  · exact Or.inl h1
  · exact Or.inr h1

/-- What the theorems about complete searches of loaded indexes rest on. -/
theorem Session.reload_complete (h : Session c numCPU pol adds trees workers s s') (hn : 2 ≤ slotCount adds)
    (hroots : s'.roots ≠ []) (hk : c.L.CountKept (slotCount adds))
    (hs : SplitsKept c numCPU pol (slotCount adds) trees workers) (hck : c.L.CopiesKept (slotCount adds))
    {w : World} {path : String} (hf : FileOf s' w path) {bk : Backend} {u t : Idx c} (hl : u.load bk w path = .ok (.nil, t)) :
    t.roots ≠ [] ∧ liveOf (lastAdded adds) t.nItems = addedIds adds ∧
    ∃ ts, Searchable c (t.mem w) t.nItems t.roots (lastAdded adds) ts ∧ Complete (lastAdded adds) ts ∧
      ((∀ t ∈ ts, t.items.Perm (addedIds adds)) ∨ ∀ t ∈ ts, t.leaves = [t]) ∧
      ∀ u ∈ ts, RootTree c.L (t.mem w).get (slotCount adds) (addedIds adds) u := by
  obtain ⟨t', h1, N0, B, hN, R⟩ := h.reload hn hroots hk hf bk u
  rw [hl] at h1
  cases h1
  have hd : c.L.Deep N0 ∨ slotCount adds ≤ c.L.K := by
    rcases hs with hs | hs
    · exact Or.inr hs
    · exact Or.inl (hs.mono hN)
  obtain ⟨ts, S, C, U, Z⟩ := R.searchable_complete h.wf B hk hd hck
  rw [R.nItems] at Z
  refine ⟨fun h0 => ?_, by rw [R.nItems], ts, S, C, U, Z⟩
  have := R.copies_found B (k := 0) (List.length_pos_iff.2 hroots)
  rw [h0] at this
  cases this

/-- **C20** for loaded indexes, without the number: with room for every entry of every tree that `Load` found there is an answer. -/
theorem C20_answers_loaded_partial (h : Session c numCPU pol adds trees workers s s') (hN : c.N.Lawful)
    (hn : 2 ≤ slotCount adds) (hroots : s'.roots ≠ []) (hk : c.L.CountKept (slotCount adds))
    (hs : SplitsKept c numCPU pol (slotCount adds) trees workers) (hck : c.L.CopiesKept (slotCount adds))
    {w : World} {path : String} (hf : FileOf s' w path) {bk : Backend} {u t : Idx c} (hl : u.load bk w path = .ok (.nil, t)) :
    ∃ F : Nat, ∀ (query : List c.N.V), GoodQuery c query → ∀ (k b : Int) (ctx : Ctx c) (fuel : Nat), F ≤ fuel →
      t.roots.length * slotCount adds ≤ ctx.nns.length → ∃ x, t.getNnsByVector fuel w query k b ctx = .ok x := by
  obtain ⟨h1, e, ts, S, C, U, Z⟩ := h.reload_complete hn hroots hk hs hck hf hl
  refine ⟨Tree.sizes ts + 1, fun query hq k b ctx fuel hf hl => ?_⟩
  have hT : ts.length = t.roots.length := by rw [← S.roots]; simp
  have hlen := Search.items_length_le (liveOf_length_le _ _) Z
  rcases Search.outcome h.wf hN S hq k b (by omega : Tree.sizes ts < fuel) ctx with h1 | ⟨h1, _⟩
  · exact h1
  · rw [hT] at hlen
    omega

/-- **C17** for loaded indexes: an exhaustive search is a linear scan. -/
theorem C17_exhaustive_loaded_partial (h : Session c numCPU pol adds trees workers s s') (hN : c.N.Lawful)
    (hn : 2 ≤ slotCount adds) (hroots : s'.roots ≠ []) (hk : c.L.CountKept (slotCount adds))
    (hs : SplitsKept c numCPU pol (slotCount adds) trees workers) (hck : c.L.CopiesKept (slotCount adds))
    {w : World} {path : String} (hf : FileOf s' w path) {bk : Backend} {u t : Idx c} (hl : u.load bk w path = .ok (.nil, t))
    {query : List c.N.V} (hq : GoodQuery c query) {k b : Int} {fuel : Nat} {ctx ctx' : Ctx c} {ids : List Nat} {ds : List c.N.V}
    (hb : ((t.roots.length * ((addedIds adds).length - 1) + 1 : Nat) : Int) ≤ b)
    (hr : t.getNnsByVector fuel w query k b ctx = .ok (ids, ds, ctx')) :
    TopK c.N c.D.normalizedDistance (itemDist c (lastAdded adds) query) (addedIds adds) k.toNat ids ds ∧
    ((∀ i ∈ addedIds adds, c.N.Ordinary (itemDist c (lastAdded adds) query i)) →
      ids = nearest c.N (itemDist c (lastAdded adds) query) (addedIds adds) k.toNat) := by
  obtain ⟨h1, e, ts, S, C, U, _⟩ := h.reload_complete hn hroots hk hs hck hf hl
  obtain ⟨d4, _⟩ := Search.exhaustive h.wf hN S C (by rw [e]; exact U) hq h1 (by rw [e]; exact hb) hr
  rw [e] at d4
  exact ⟨d4, fun ho => (d4.unique hN (nearest_topK hN _ (liveOf_nodup _ _) ho k.toNat) (List.Perm.refl _) ho).1⟩

/-- **C18** for loaded indexes: a default search returns as many results as asked for, or as there are items. -/
theorem C18_default_count_loaded_partial (h : Session c numCPU pol adds trees workers s s') (hN : c.N.Lawful)
    (hn : 2 ≤ slotCount adds) (hroots : s'.roots ≠ []) (hk : c.L.CountKept (slotCount adds))
    (hs : SplitsKept c numCPU pol (slotCount adds) trees workers) (hck : c.L.CopiesKept (slotCount adds))
    {w : World} {path : String} (hf : FileOf s' w path) {bk : Backend} {u t : Idx c} (hl : u.load bk w path = .ok (.nil, t))
    {query : List c.N.V} (hq : GoodQuery c query) {k fuel : Nat} {ctx ctx' : Ctx c} {ids : List Nat} {ds : List c.N.V}
    (hr : t.getNnsByVector fuel w query k (-1) ctx = .ok (ids, ds, ctx')) :
    ids.length = min k (addedIds adds).length ∧ ds.length = ids.length := by
  obtain ⟨h1, e, ts, S, C, U, _⟩ := h.reload_complete hn hroots hk hs hck hf hl
  rw [← e]
  exact Search.default_count h.wf hN S C (by rw [e]; exact U) hq h1 hr

/-! ### C28 -/

/-- **C28, exhaustive searches**, given that counts, inner nodes and the children of root copies survive being written: a search that may
inspect everything gives exactly the same answer before `Save` and after `Load`, bit for bit, also if distances are NaN.
(Missing: `C28_refuted`.) -/
theorem C28_exhaustive_partial (h : Session c numCPU pol adds trees workers s s') (hN : c.N.Lawful)
    (hn : 2 ≤ slotCount adds) (hroots : s'.roots ≠ []) (hk : c.L.CountKept (slotCount adds))
    (hs : SplitsKept c numCPU pol (slotCount adds) trees workers) (hck : c.L.CopiesKept (slotCount adds))
    {w : World} {path : String} (hf : FileOf s' w path) {bk : Backend} {u t : Idx c} (hl : u.load bk w path = .ok (.nil, t))
    {query : List c.N.V} (hq : GoodQuery c query) {k b b' : Int} {fuel fuel' : Nat} {w0 : World} {ctx ctx' o o' : Ctx c}
    {ids ids' : List Nat} {ds ds' : List c.N.V}
    (hb : ((s'.roots.length * ((addedIds adds).length - 1) + 1 : Nat) : Int) ≤ b)
    (hb' : ((t.roots.length * ((addedIds adds).length - 1) + 1 : Nat) : Int) ≤ b')
    (hr : s'.getNnsByVector fuel w0 query k b ctx = .ok (ids, ds, o))
    (hr' : t.getNnsByVector fuel' w query k b' ctx' = .ok (ids', ds', o')) : ids' = ids ∧ ds' = ds := by
  obtain ⟨h1, e, ts, S, C, U, _⟩ := h.reload_complete hn hroots hk hs hck hf hl
  obtain ⟨_, d1, d2⟩ := Search.exhaustive h.wf hN S C (by rw [e]; exact U) hq h1 (by rw [e]; exact hb') hr'
  obtain ⟨ts0, S0, C0, U0, _⟩ := h.searchable_complete hs w0
  obtain ⟨N0, B, _⟩ := h.built
  have e0 : liveOf (lastAdded adds) s'.nItems = addedIds adds := by rw [B.nItems]
  obtain ⟨_, d3, d4⟩ := Search.exhaustive h.wf hN S0 C0 (by rw [e0]; exact U0) hq hroots (by rw [e0]; exact hb) hr
  rw [e] at d1 d2
  rw [e0] at d3 d4
  exact ⟨d1.trans d3.symm, d2.trans d4.symm⟩

end
end Annoy
