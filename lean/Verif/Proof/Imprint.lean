import Verif.Proof.Items
/-!
# The bytes of the item nodes

After any calls of `AddItem` every byte of the memory is given by the table of the last vector for each index.
-/
namespace Annoy
variable {c : Cfg}

/-- The bytes of the node of an item. -/
def itemImage (c : Cfg) (v : List c.N.V) : Bytes := c.D.initNode (Node.setVec c.L c.C (Node.setNDesc c.L zeros 0 1) 0 v) 0

theorem setVec_shift (b : Bytes) (a : Nat) (v : List c.N.V) {j : Nat} :
    Node.setVec c.L c.C b a v (a + j) = Node.setVec c.L c.C ⟨fun x => b (a + x)⟩ 0 v j := by
  unfold Node.setVec
  show (if a + c.L.offV ≤ a + j ∧ a + j < a + c.L.offV + _ then _ else b (a + j)) = if 0 + c.L.offV ≤ j ∧ j < 0 + c.L.offV + _ then _ else b (a + j)
  by_cases h : c.L.offV ≤ j ∧ j < c.L.offV + (v.flatMap c.C.enc).length
  · rw [if_pos (by omega), if_pos (by omega)]
    congr 1
    omega
  · rw [if_neg (by omega), if_neg (by omega)]

theorem setNDesc_shift (b : Bytes) (a n : Nat) {j : Nat} :
    Node.setNDesc c.L b a n (a + j) = Node.setNDesc c.L ⟨fun x => b (a + x)⟩ 0 n j := by
  unfold Node.setNDesc
  show (if a ≤ a + j ∧ a + j < a + _ then _ else b (a + j)) = if 0 ≤ j ∧ j < 0 + _ then _ else b (a + j)
  split
  · rw [if_pos (by omega)]
    congr 1
    omega
  · rw [if_neg (by omega)]

/-- Writing an item gives its image whatever item was there before. -/
theorem itemImage_write (hc : c.WF) (b : Bytes) (a : Nat) (v : List c.N.V) (hv : v.length = c.L.f)
    (hold : (∀ j, j < c.L.nodeSize → b (a + j) = 0) ∨ ∃ u : List c.N.V, u.length = c.L.f ∧ ∀ j, j < c.L.nodeSize → b (a + j) = itemImage c u j) {j : Nat}
    (hj : j < c.L.nodeSize) :
    c.D.initNode (Node.setVec c.L c.C (Node.setNDesc c.L b a 1) a v) a (a + j) = itemImage c v j := by
  have hL := hc.layout
  have hoff := hL.offV_ge
  have hsz := hL.size_eq
  obtain ⟨w, hw, h1, h2⟩ := hc.initNode
  have hpad : ∀ j, c.L.szIX + w ≤ j → j < c.L.offV → b (a + j) = 0 := by
    intro j hj1 hj2
    rcases hold with h | ⟨u, hu, h⟩
    · exact h j (by omega)
    · rw [h j (by omega)]
      unfold itemImage
      rw [h1 _ _ _ (Or.inr (by omega)), Node.setVec_frame _ _ _ _ _ (Or.inl (by omega)), Node.setNDesc_frame _ _ _ _ (Or.inr (by omega))]
      rfl
  by_cases hin : c.L.szIX ≤ j ∧ j < c.L.szIX + w
  · have := h2 (Node.setVec c.L c.C (Node.setNDesc c.L b a 1) a v) a (Node.setVec c.L c.C (Node.setNDesc c.L zeros 0 1) 0 v) 0
      (by rw [Node.vec_setVec c.C _ _ _ hv, Node.vec_setVec c.C _ _ _ hv]) (j - c.L.szIX) (by omega)
    rw [show a + c.L.szIX + (j - c.L.szIX) = a + j by omega, show 0 + c.L.szIX + (j - c.L.szIX) = j by omega] at this
    exact this
  · unfold itemImage
    rw [h1 _ _ _ (by omega), h1 _ _ _ (by omega), setVec_shift]
    by_cases hvv : c.L.offV ≤ j
    · unfold Node.setVec
      have hlen := Node.flatMap_enc_length c.C v
      show (if 0 + c.L.offV ≤ j ∧ j < 0 + c.L.offV + _ then _ else _) = if 0 + c.L.offV ≤ j ∧ j < 0 + c.L.offV + _ then _ else _
      rw [if_pos (by rw [hlen, hv]; omega), if_pos (by rw [hlen, hv]; omega)]
    · rw [Node.setVec_frame _ _ _ _ _ (Or.inl (by omega)), Node.setVec_frame _ _ _ _ _ (Or.inl (by omega))]
      show Node.setNDesc c.L b a 1 (a + j) = _
      rw [setNDesc_shift]
      unfold Node.setNDesc
      show (if 0 ≤ j ∧ j < 0 + _ then _ else b (a + j)) = if 0 ≤ j ∧ j < 0 + _ then _ else zeros j
      split
      · rfl
      · next h =>
        rw [hpad j ?_ (by omega)]
        · rfl
        · have hl : ∀ n k, (leBytes n k).length = n := fun n k => by simp
          rw [hl] at h
          omega

namespace Idx

/-- The memory shows the table. -/
def Imprint (s : Idx c) (m : Nat → Option (List c.N.V)) : Prop :=
  (∀ i v, m i = some v → v.length = c.L.f) ∧
  ∀ i j, j < c.L.nodeSize → s.alloc.data (i * c.L.nodeSize + j) = match m i with | some v => itemImage c v j | none => 0

/-- Two memories with the same table are the same. -/
theorem Imprint.data_eq (hL : c.L.Ok c.C.sz) {s t : Idx c} {m : Nat → Option (List c.N.V)} (hs : s.Imprint m) (ht : t.Imprint m) :
    s.alloc.data = t.alloc.data := by
  refine Bytes.ext' fun x => ?_
  have h := Nat.div_add_mod x c.L.nodeSize
  rw [Nat.mul_comm] at h
  have hlt := Nat.mod_lt x hL.nodeSize_pos
  rw [← h, hs.2 _ _ hlt, ht.2 _ _ hlt]

theorem Imprint.new (r : c.R.σ) (hint : Nat) : (Idx.new c r hint).Imprint fun _ => none := by
  refine ⟨fun i v h => (by cases h), fun i j _ => ?_⟩
  simp only [Idx.new]
  split
  · unfold Alloc.reallocate Alloc.empty; simp
  · rfl

theorem Imprint.addItem (hc : c.WF) {s s' : Idx c} {m : Nat → Option (List c.N.V)} {n : Nat} (hi : s.ItemInv m n) (h : s.Imprint m)
    {i : Nat} {v : List c.N.V} (hv : v.length = c.L.f) (hf : c.L.Fits (i + 1)) (hs : s.addItem i v = .ok s') :
    s'.Imprint fun j => if j = i then some v else m j := by
  have hL := hc.layout
  obtain ⟨hm, hn1, -, hd, -⟩ := allocateSize_spec hL hi.memOK hf hi.zero (Nat.mul_le_mul_right _ hi.n_le)
  have hw : c.L.wrap (i + 1) = i + 1 := c.L.wrap_eq (hf.lt_range hL.nodeSize_pos)
  have e : s'.alloc.data = c.D.initNode (Node.setVec c.L c.C (Node.setNDesc c.L s.alloc.data (i * c.L.nodeSize) 1) (i * c.L.nodeSize) v)
      (i * c.L.nodeSize) := by
    unfold Idx.addItem at hs
    rw [hi.loaded] at hs
    simp only [Bool.false_eq_true, if_false, hv, ne_eq, not_true_eq_false, hw] at hs
    rw [(hm.getNode (i := i) (by omega)).1] at hs
    simp only [bind, Except.bind] at hs
    rw [← hd]
    split at hs <;> · cases hs; rfl
  have hold : (∀ j, j < c.L.nodeSize → s.alloc.data (i * c.L.nodeSize + j) = 0) ∨
      ∃ u : List c.N.V, u.length = c.L.f ∧ ∀ j, j < c.L.nodeSize → s.alloc.data (i * c.L.nodeSize + j) = itemImage c u j := by
    cases hmi : m i with
    | none => exact Or.inl fun j hj => by rw [h.2 i j hj, hmi]
    | some u => exact Or.inr ⟨u, h.1 i u hmi, fun j hj => by rw [h.2 i j hj, hmi]⟩
  have hfr : ∀ x, (x < i * c.L.nodeSize ∨ i * c.L.nodeSize + c.L.nodeSize ≤ x) → s'.alloc.data x = s.alloc.data x := by
    intro x hx
    obtain ⟨w, hw, h1, -⟩ := hc.initNode
    have hoff := hL.offV_ge
    have hsz := hL.size_eq
    rw [e, h1 _ _ _ (by omega), Node.setVec_frame _ _ _ _ _ (by rw [hv]; omega), Node.setNDesc_frame _ _ _ _ (by omega)]
  refine ⟨fun j u hj => ?_, fun k j hj => ?_⟩
  · dsimp only at hj
    split at hj
    · cases hj; exact hv
    · exact h.1 j u hj
  · by_cases hk : k = i
    · subst hk
      dsimp only
      rw [e, if_pos rfl]
      exact itemImage_write hc _ _ _ hv hold hj
    · dsimp only
      rw [if_neg hk, hfr _ (node_ne hk hj)]
      exact h.2 k j hj

end Idx
end Annoy
