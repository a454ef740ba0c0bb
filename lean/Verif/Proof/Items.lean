import Verif.Spec.Cfg
import Verif.Proof.Layout
/-!
Invariants of the item phase: what `AddItem` does to the memory.
-/
namespace Annoy

/-- The node an item `v` has in memory of its own (also: the query node of a search). -/
def canon (c : Cfg) (v : List c.N.V) : Bytes := c.D.initNode (Node.setVec c.L c.C zeros 0 v) 0

/-- Node at `a` is the item `v`. -/
structure ItemAt (c : Cfg) (b : Bytes) (a : Nat) (v : List c.N.V) : Prop where
  nDesc : Node.nDesc c.L b a = 1
  vec : Node.vec c.L c.C b a = v
  head : ∀ j, c.L.szIX ≤ j → j < 3 * c.L.szIX → b (a + j) = canon c v j

/-- Node at `a` was never written. -/
def EmptyAt (c : Cfg) (b : Bytes) (a : Nat) : Prop := ∀ j, j < c.L.nodeSize → b (a + j) = 0

namespace Idx
variable {c : Cfg}

/-- The memory of an index under construction is large enough for `nodesSize` nodes. -/
structure MemOK (s : Idx c) : Prop where
  fits : s.nodesSize * c.L.nodeSize < c.L.range
  size : s.nodesSize * c.L.nodeSize ≤ s.alloc.size
  nodes : 0 < s.nodesSize → s.nodes = .build

theorem getNode_ok {L : Layout} {m : Block} {i a : Nat} (h : getNode L m i = .ok a) :
    a = L.addr i ∧ L.addr i + L.nodeSize ≤ m.size := by
  unfold getNode at h
  split at h
  · next h1 => cases h; exact ⟨rfl, h1⟩
  · cases h

theorem getNode_eq {L : Layout} {m : Block} {i : Nat} (h : L.addr i + L.nodeSize ≤ m.size) :
    getNode L m i = .ok (L.addr i) := by unfold getNode; rw [if_pos h]

theorem MemOK.getNode {s : Idx c} (h : s.MemOK) {i : Nat} (hi : i < s.nodesSize) :
    Annoy.getNode c.L s.bmem i = .ok (i * c.L.nodeSize) ∧ c.L.addr i = i * c.L.nodeSize := by
  have h1 : (i + 1) * c.L.nodeSize ≤ s.nodesSize * c.L.nodeSize := Nat.mul_le_mul_right _ hi
  rw [Nat.add_mul] at h1
  have h2 := h.fits
  have h3 := h.size
  have ha : c.L.addr i = i * c.L.nodeSize := by
    by_cases h0 : c.L.nodeSize = 0
    · simp [Layout.addr, Layout.wrap, h0]
    · exact c.L.addr_eq (by omega)
  refine ⟨?_, ha⟩
  rw [getNode_eq]
  · rw [ha]
  · have : s.bmem = s.alloc.block := by unfold bmem; rw [h.nodes (by omega)]
    rw [this, ha]; simp only [Alloc.block]; omega

/-- `allocateSize` keeps the content and makes room. -/
theorem allocateSize_spec (hL : c.L.Ok c.C.sz) {s : Idx c} (hs : s.MemOK) {n : Nat} (hn : c.L.Fits n)
    {z : Nat} (hz : ∀ x, z ≤ x → s.alloc.data x = 0) (hzs : z ≤ s.nodesSize * c.L.nodeSize) :
    (s.allocateSize n).MemOK ∧ n ≤ (s.allocateSize n).nodesSize ∧
    s.nodesSize ≤ (s.allocateSize n).nodesSize ∧
    (s.allocateSize n).alloc.data = s.alloc.data ∧
    (∃ sz nd al, s.allocateSize n = { s with nodesSize := sz, nodes := nd, alloc := al }) := by
  unfold allocateSize
  by_cases h : n > s.nodesSize
  · rw [if_pos h]
    have hp := hL.nodeSize_pos
    have h1 : s.nodesSize + 1 < c.L.range := by
      have := hn.lt_range hp; omega
    rw [c.L.wrap_eq h1]
    have hg := hn.grow
    have h2 : (s.nodesSize + 1) * 3 / 2 ≤ 3 * n / 2 := Nat.div_le_div_right (by omega)
    have h3 : 3 * n / 2 < c.L.range := by
      have : 3 * n / 2 * 1 ≤ 3 * n / 2 * c.L.nodeSize := Nat.mul_le_mul_left _ hp
      omega
    rw [c.L.wrap_eq (by omega)]
    have h4 : n ≤ 3 * n / 2 := by omega
    have h5 : max n ((s.nodesSize + 1) * 3 / 2) ≤ 3 * n / 2 := by omega
    have h6 := Nat.mul_le_mul_right c.L.nodeSize h5
    have h7 : max n ((s.nodesSize + 1) * 3 / 2) * c.L.nodeSize < c.L.range := by omega
    dsimp only
    rw [c.L.wrap_eq h7]
    have hge : s.nodesSize ≤ max n ((s.nodesSize + 1) * 3 / 2) := by omega
    have hge' := Nat.mul_le_mul_right c.L.nodeSize hge
    have hdata : (s.alloc.reallocate (max n ((s.nodesSize + 1) * 3 / 2) * c.L.nodeSize)).data
        = s.alloc.data := by
      apply Bytes.ext'; intro x
      unfold Alloc.reallocate
      split
      · rfl
      · show (if x < s.alloc.size then s.alloc.data x else 0) = s.alloc.data x
        split
        · rfl
        · rw [hz x]; have := hs.size; omega
    refine ⟨⟨h7, ?_, fun _ => rfl⟩, le_max_left _ _, hge, hdata, _, _, _, rfl⟩
    simp only []
    unfold Alloc.reallocate
    split
    · next h8 => omega
    · simp
  · rw [if_neg h]
    refine ⟨hs, by omega, le_rfl, rfl, s.nodesSize, s.nodes, s.alloc, rfl⟩

/-- The invariant of the item phase: `m` maps added indexes to vectors, `n` is one more than the largest
added index. -/
structure ItemInv (s : Idx c) (m : Nat → Option (List c.N.V)) (n : Nat) : Prop where
  memOK : s.MemOK
  loaded : s.loaded = false
  nItems : s.nItems = n
  n_le : n ≤ s.nodesSize
  zero : ∀ x, n * c.L.nodeSize ≤ x → s.alloc.data x = 0
  bound : ∀ i v, m i = some v → i < n
  top : 0 < n → (m (n - 1)).isSome
  items : ∀ i v, m i = some v → ItemAt c s.alloc.data (i * c.L.nodeSize) v
  gaps : ∀ i, i < n → m i = none → EmptyAt c s.alloc.data (i * c.L.nodeSize)

theorem canon_zero (hc : c.WF) (v : List c.N.V) :
    ∃ w, w ≤ 2 * c.L.szIX ∧
    (∀ b a x, (x < a + c.L.szIX ∨ a + c.L.szIX + w ≤ x) → c.D.initNode b a x = b x) ∧
    (∀ b a b' a', Node.vec c.L c.C b a = Node.vec c.L c.C b' a' →
      ∀ j, j < w → c.D.initNode b a (a + c.L.szIX + j) = c.D.initNode b' a' (a' + c.L.szIX + j)) ∧
    (∀ j, c.L.szIX + w ≤ j → j < 3 * c.L.szIX → canon c v j = 0) := by
  obtain ⟨w, hw, h1, h2⟩ := hc.initNode
  refine ⟨w, hw, h1, h2, ?_⟩
  intro j hj hj3
  unfold canon
  rw [h1 _ _ _ (Or.inr (by omega)), Node.setVec_frame]
  · rfl
  · left; have := hc.layout.offV_ge; omega

/-- Writing an item over an empty slot or an older item. -/
theorem writeItem (hc : c.WF) (b : Bytes) (a : Nat) (v : List c.N.V) (hv : v.length = c.L.f)
    (hold : EmptyAt c b a ∨ ∃ v', ItemAt c b a v') :
    ItemAt c (c.D.initNode (Node.setVec c.L c.C (Node.setNDesc c.L b a 1) a v) a) a v ∧
    ∀ x, (x < a ∨ a + c.L.nodeSize ≤ x) →
      c.D.initNode (Node.setVec c.L c.C (Node.setNDesc c.L b a 1) a v) a x = b x := by
  have hL := hc.layout
  have hoff := hL.offV_ge
  have hsz := hL.size_eq
  have hix := hL.szIX_pos
  obtain ⟨w, hw, h1, h2, h3⟩ := canon_zero hc v
  set b1 := Node.setNDesc c.L b a 1 with hb1
  set b2 := Node.setVec c.L c.C b1 a v with hb2
  have hvec2 : Node.vec c.L c.C b2 a = v := Node.vec_setVec c.C b1 a v hv
  have hr : 1 < c.L.range := by
    unfold Layout.range
    exact Nat.one_lt_two_pow (by omega)
  constructor
  · constructor
    · rw [← Node.nDesc_setNDesc (L := c.L) b a 1 hr]
      apply Node.nDesc_congr
      intro j hj
      rw [h1 _ _ _ (Or.inl (by omega)), hb2, Node.setVec_frame _ _ _ _ _ (Or.inl (by omega))]
    · rw [← hvec2]
      apply Node.vec_congr
      intro j hj
      rw [h1 _ _ _ (Or.inr (by omega))]
    · intro j hj1 hj3
      by_cases hjw : j < c.L.szIX + w
      · have := h2 b2 a (Node.setVec c.L c.C zeros 0 v) 0
          (by rw [hvec2, Node.vec_setVec c.C _ _ _ hv]) (j - c.L.szIX) (by omega)
        have e1 : a + c.L.szIX + (j - c.L.szIX) = a + j := by omega
        have e2 : 0 + c.L.szIX + (j - c.L.szIX) = j := by omega
        rw [e1, e2] at this
        exact this
      · rw [h1 _ _ _ (Or.inr (by omega)), hb2, Node.setVec_frame _ _ _ _ _ (Or.inl (by omega)), hb1,
          Node.setNDesc_frame _ _ _ _ (Or.inr (by omega)), h3 j (by omega) hj3]
        rcases hold with h | ⟨v', h⟩
        · exact h j (by omega)
        · rw [h.head j hj1 hj3]
          obtain ⟨w', hw', h1', h2', h3'⟩ := canon_zero hc v'
          unfold canon
          rw [h1 _ _ _ (Or.inr (by omega)), Node.setVec_frame _ _ _ _ _ (Or.inl (by omega))]
          rfl
  · intro x hx
    rw [h1 _ _ _ (by omega), hb2, Node.setVec_frame _ _ _ _ _ (by rw [hv]; omega), hb1,
      Node.setNDesc_frame _ _ _ _ (by omega)]

/-- Frame: bytes of node `i` are not touched by a write inside node `j`. -/
theorem node_ne {n i j k : Nat} (h : i ≠ j) (hk : k < n) : i * n + k < j * n ∨ j * n + n ≤ i * n + k := by
  rcases Nat.lt_or_gt_of_ne h with h | h
  · left
    have := Nat.mul_le_mul_right n h
    rw [Nat.succ_mul] at this; omega
  · right
    have := Nat.mul_le_mul_right n h
    rw [Nat.succ_mul] at this; omega

theorem _root_.Annoy.ItemAt.congr (hL : c.L.Ok c.C.sz) {b b' : Bytes} {a : Nat} {v : List c.N.V} (h : ItemAt c b a v)
    (hb : ∀ j, j < c.L.nodeSize → b' (a + j) = b (a + j)) : ItemAt c b' a v := by
  have hoff := hL.offV_ge
  have hsz := hL.size_eq
  have hix := hL.szIX_pos
  constructor
  · rw [← h.nDesc]; exact Node.nDesc_congr fun j hj => hb j (by omega)
  · rw [← h.vec]; apply Node.vec_congr; intro j hj
    have := hb (c.L.offV + j) (by omega)
    simpa [Nat.add_assoc] using this
  · intro j h1 h3; rw [hb j (by omega)]; exact h.head j h1 h3

theorem ItemInv.new (c : Cfg) (hL : c.L.Ok c.C.sz) (r : c.R.σ) (hint : Nat) :
    (Idx.new c r hint).ItemInv (fun _ => none) 0 := by
  constructor
  · constructor
    · simpa [Idx.new] using hL.range_pos
    · simp [Idx.new]
    · simp [Idx.new]
  · rfl
  · rfl
  · simp
  · intro x _
    simp only [Idx.new]
    split
    · unfold Alloc.reallocate Alloc.empty; simp
    · rfl
  · intro i v h; cases h
  · intro h; omega
  · intro i v h; cases h
  · intro i h; omega

/-- `AddItem` succeeds and updates the map. -/
theorem ItemInv.addItem (hc : c.WF) {s : Idx c} {m : Nat → Option (List c.N.V)} {n : Nat}
    (h : s.ItemInv m n) (i : Nat) (v : List c.N.V) (hv : v.length = c.L.f) (hi : c.L.Fits (i + 1)) :
    ∃ s', s.addItem i v = .ok s' ∧
      s'.ItemInv (fun j => if j = i then some v else m j) (max n (i + 1)) ∧
      s'.roots = s.roots ∧ s'.built = s.built ∧ s'.nNodes = s.nNodes ∧ s'.rng = s.rng := by
  have hL := hc.layout
  have hp := hL.nodeSize_pos
  have hw : c.L.wrap (i + 1) = i + 1 := c.L.wrap_eq (hi.lt_range hp)
  have hzs : n * c.L.nodeSize ≤ s.nodesSize * c.L.nodeSize := Nat.mul_le_mul_right _ h.n_le
  obtain ⟨hm, hn1, hn2, hd, sz, nd, al, he⟩ := allocateSize_spec hL h.memOK hi h.zero hzs
  unfold Idx.addItem
  rw [h.loaded]
  simp only [Bool.false_eq_true, if_false, hv, ne_eq, not_true_eq_false, hw]
  generalize hs1 : s.allocateSize (i + 1) = s1 at *
  obtain ⟨hg, -⟩ := hm.getNode (i := i) (by omega)
  rw [hg]
  simp only [bind, Except.bind]
  have hnI : s1.nItems = n := by rw [he]; exact h.nItems
  have hnI' : (s1.write fun b => c.D.initNode (Node.setVec c.L c.C (Node.setNDesc c.L b
      (i * c.L.nodeSize) 1) (i * c.L.nodeSize) v) (i * c.L.nodeSize)).nItems = n := hnI
  have hold : EmptyAt c s1.alloc.data (i * c.L.nodeSize) ∨
      ∃ v', ItemAt c s1.alloc.data (i * c.L.nodeSize) v' := by
    rw [hd]
    by_cases hin : i < n
    · cases hmi : m i with
      | none => exact Or.inl (h.gaps i hin hmi)
      | some v' => exact Or.inr ⟨v', h.items i v' hmi⟩
    · left
      intro j hj
      apply h.zero
      have : n * c.L.nodeSize ≤ i * c.L.nodeSize := Nat.mul_le_mul_right _ (by omega)
      omega
  obtain ⟨hnew, hframe⟩ := writeItem hc s1.alloc.data (i * c.L.nodeSize) v hv hold
  have hother : ∀ j, j ≠ i → ∀ k, k < c.L.nodeSize →
      (c.D.initNode (Node.setVec c.L c.C (Node.setNDesc c.L s1.alloc.data (i * c.L.nodeSize) 1)
        (i * c.L.nodeSize) v) (i * c.L.nodeSize)) (j * c.L.nodeSize + k)
        = s.alloc.data (j * c.L.nodeSize + k) := by
    intro j hj k hk
    rw [hframe _ (node_ne hj hk), hd]
  refine ⟨_, rfl, ?_, ?_⟩
  · have key : ∀ s2 : Idx c, s2.nodes = s1.nodes → s2.nodesSize = s1.nodesSize →
        s2.alloc.size = s1.alloc.size → s2.loaded = s1.loaded → s2.nItems = max n (i + 1) →
        s2.alloc.data = c.D.initNode (Node.setVec c.L c.C (Node.setNDesc c.L s1.alloc.data
          (i * c.L.nodeSize) 1) (i * c.L.nodeSize) v) (i * c.L.nodeSize) →
        s2.ItemInv (fun j => if j = i then some v else m j) (max n (i + 1)) := by
      intro s2 e1 e2 e3 e4 e5 e6
      have hnle := h.n_le
      constructor
      · exact ⟨by rw [e2]; exact hm.fits, by rw [e2, e3]; exact hm.size,
          by rw [e1, e2]; exact hm.nodes⟩
      · rw [e4, he]; exact h.loaded
      · exact e5
      · rw [e2]; omega
      · intro x hx
        rw [e6, hframe, hd]
        · apply h.zero
          have : n * c.L.nodeSize ≤ (max n (i + 1)) * c.L.nodeSize :=
            Nat.mul_le_mul_right _ (le_max_left _ _)
          omega
        · right
          have : (i + 1) * c.L.nodeSize ≤ (max n (i + 1)) * c.L.nodeSize :=
            Nat.mul_le_mul_right _ (le_max_right _ _)
          rw [Nat.add_mul] at this
          omega
      · intro j u hj
        split at hj
        · omega
        · have := h.bound j u hj; omega
      · intro _
        by_cases hji : max n (i + 1) - 1 = i
        · simp [hji]
        · have e : max n (i + 1) = n := by omega
          rw [e] at hji ⊢
          simp only [if_neg hji]
          exact h.top (by omega)
      · intro j u hj
        rw [e6]
        split at hj
        · next hji => subst hji; cases hj; exact hnew
        · next hji => exact (h.items j u hj).congr hL (hother j hji)
      · intro j hjn hj
        rw [e6]
        split at hj
        · cases hj
        · next hji =>
          intro k hk
          rw [hother j hji k hk]
          by_cases hjn' : j < n
          · exact h.gaps j hjn' hj k hk
          · apply h.zero
            have : n * c.L.nodeSize ≤ j * c.L.nodeSize := Nat.mul_le_mul_right _ (by omega)
            omega
    split
    · next hge =>
      rw [hnI'] at hge
      exact key _ rfl rfl rfl rfl (by simp only []; omega) rfl
    · next hge =>
      rw [hnI'] at hge
      exact key _ rfl rfl rfl rfl (by rw [hnI']; omega) rfl
  · split <;> · rw [he]; exact ⟨rfl, rfl, rfl, rfl⟩

end Idx
end Annoy
