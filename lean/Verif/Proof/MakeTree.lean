import Verif.Proof.Build
/-!
`makeTree` builds well formed trees.
-/
namespace Annoy

namespace Node
variable {L : Layout}

theorem getD_ge (l : List Nat) (k : Nat) (h : l.length ≤ k) : l.getD k 0 = 0 := by
  simp [List.getD, List.getElem?_eq_none h]

theorem setChildren_nil (b : Bytes) (a : Nat) : setChildren L b a [] = b := by
  apply Bytes.ext'
  intro x
  exact setChildren_frame b a [] x (by simp; omega)

theorem child_zero (b : Bytes) (a k : Nat)
    (h : ∀ j, j < L.szIX → b (a + L.szIX + k * L.szIX + j) = 0) : child L b a k = 0 :=
  readLE_zero _ _ _ h

/-- What is read from a bucket written into zeroed memory. -/
theorem bucket_child {sz : Nat} (hL : L.Ok sz) (b : Bytes) (a nd : Nat) (ids : List Nat)
    (hz : ∀ j, j < L.nodeSize → b (a + j) = 0) (hr : ∀ x ∈ ids, x < L.range) (k : Nat)
    (hk : k < L.K) :
    child L (setChildren L (setNDesc L b a nd) a ids) a k = ids.getD k 0 := by
  by_cases h : k < ids.length
  · rw [child_setChildren _ _ _ _ h (hr _ (List.getElem_mem h))]
    simp [h]
  · rw [getD_ge _ _ (by omega)]
    apply child_zero
    intro j hj
    have h1 : ids.length * L.szIX ≤ k * L.szIX := Nat.mul_le_mul_right _ (by omega)
    have h2 : (k + 1) * L.szIX ≤ L.K * L.szIX := Nat.mul_le_mul_right _ hk
    rw [Nat.add_mul] at h2
    have h3 := hL.K_fits
    rw [setChildren_frame _ _ _ _ (Or.inr (by omega)), setNDesc_frame _ _ _ _ (Or.inr (by omega))]
    have := hz (L.szIX + k * L.szIX + j) (by omega)
    simpa [Nat.add_assoc] using this

theorem bucket_nDesc (b : Bytes) (a nd : Nat) (ids : List Nat) (hnd : nd < L.range) :
    nDesc L (setChildren L (setNDesc L b a nd) a ids) a = nd := by
  rw [← nDesc_setNDesc (L := L) b a nd hnd]
  apply nDesc_congr
  intro j hj
  rw [setChildren_frame _ _ _ _ (Or.inl (by omega)), nDesc_setNDesc b a nd hnd]

theorem bucket_children {sz : Nat} (hL : L.Ok sz) (b : Bytes) (a nd : Nat) (ids : List Nat)
    (hz : ∀ j, j < L.nodeSize → b (a + j) = 0) (hr : ∀ x ∈ ids, x < L.range)
    (hnd : nd < L.range) (h1 : ids.length ≤ nd) (h2 : nd ≤ L.K) :
    getChildren L (setChildren L (setNDesc L b a nd) a ids) a
      = ids ++ List.replicate (nd - ids.length) 0 := by
  unfold getChildren
  rw [bucket_nDesc _ _ _ _ hnd]
  apply List.ext_getElem
  · simp; omega
  · intro k hk1 hk2
    simp only [List.length_map, List.length_range] at hk1
    simp only [List.getElem_map, List.getElem_range]
    rw [bucket_child hL _ _ _ _ hz hr k (by omega), List.getElem_append]
    split
    · next h => simp [h]
    · next h => rw [getD_ge _ _ (by omega)]; simp

theorem bucket_frame {sz : Nat} (hL : L.Ok sz) (b : Bytes) (a nd : Nat) (ids : List Nat)
    (h : ids.length ≤ L.K) (x : Nat) (hx : x < a ∨ a + L.nodeSize ≤ x) :
    setChildren L (setNDesc L b a nd) a ids x = b x := by
  have h1 : ids.length * L.szIX ≤ L.K * L.szIX := Nat.mul_le_mul_right _ h
  have h3 := hL.K_fits
  rw [setChildren_frame _ _ _ _ (by omega), setNDesc_frame _ _ _ _ (by omega)]

/-- A bucket of at most one item is blank behind its first child. -/
theorem bucket_blank (b : Bytes) (v nd : Nat) (ids : List Nat) (h : ids.length ≤ 1)
    (hz : ∀ j, j < L.nodeSize → b (v * L.nodeSize + j) = 0) :
    BlankFrom L (setChildren L (setNDesc L b (v * L.nodeSize) nd) (v * L.nodeSize) ids) v (2 * L.szIX) := by
  intro j h1 h2
  have h3 : ids.length * L.szIX ≤ 1 * L.szIX := Nat.mul_le_mul_right _ h
  rw [setChildren_frame _ _ _ _ (Or.inr (by omega)), setNDesc_frame _ _ _ _ (Or.inr (by omega))]
  exact hz j h2

/-- What is left of a stored inner node. -/
theorem split_reads {sz : Nat} (hL : L.Ok sz) {b m : Bytes} {a nd cl cr B : Nat} (hD : L.Deep B)
    (hnd : nd < L.range) (hcl : cl < L.range) (hcr : cr < L.range) (hcB : cr < B)
    (hb : ∀ j, j < L.nodeSize →
      b (a + j) = if j < L.f then setChildren L (setNDesc L m 0 nd) 0 [cl, cr] j else 0) :
    nDesc L b a = nd ∧ child L b a 0 = cl ∧ child L b a 1 = cr := by
  have h3 := hL.three_le
  have hsame : ∀ j, j < 3 * L.szIX → b (a + j) = setChildren L (setNDesc L m 0 nd) 0 [cl, cr] (0 + j) := by
    intro j hj
    rw [hb j (by omega), Nat.zero_add]
    split
    · rfl
    · next hjf =>
      have hD1 := hD.1
      symm
      unfold setChildren
      have e : j = 0 + L.szIX + (j - L.szIX) := by omega
      have hlen : ([cl, cr].flatMap (leBytes L.szIX)).length = 2 * L.szIX := by
        rw [flatMap_leBytes_length]; simp
      rw [e, writeBytes_inside _ _ _ _ (by omega)]
      have e2 : [cl, cr].flatMap (leBytes L.szIX) = leBytes L.szIX cl ++ leBytes L.szIX cr := by simp
      have hl1 : (leBytes L.szIX cl).length = L.szIX := by simp
      have hl2 : (leBytes L.szIX cr).length = L.szIX := by simp
      simp only [e2]
      rw [List.getElem_append_right (by omega)]
      apply leBytes_high
      apply lt_of_lt_of_le (lt_of_lt_of_le hcB hD.2)
      apply Nat.pow_le_pow_right (by omega)
      omega
  refine ⟨?_, ?_, ?_⟩
  · rw [← bucket_nDesc m 0 nd [cl, cr] hnd]
    exact nDesc_congr fun j hj => hsame j (by omega)
  · have := child_setChildren (L := L) (setNDesc L m 0 nd) 0 [cl, cr] 0 (by simp) (by simpa using hcl)
    simp only [List.getElem_cons_zero] at this
    rw [← this]
    exact child_congr fun j hj => hsame j (by omega)
  · have := child_setChildren (L := L) (setNDesc L m 0 nd) 0 [cl, cr] 1 (by simp) (by simpa using hcr)
    simp only [List.getElem_cons_succ, List.getElem_cons_zero] at this
    rw [← this]
    exact child_congr fun j hj => hsame j (by omega)

/-- What is left of a count that was cut off. -/
theorem nDesc_cut {b m : Bytes} {a a' nd : Nat} (hm : nDesc L m a' = nd)
    (hb : ∀ j, j < L.szIX → b (a + j) = if j < L.f then m (a' + j) else 0) : nDesc L b a = nd % 2 ^ (8 * L.f) := by
  rw [← hm]
  exact readLE_cut L.f hb

/-- A stored inner node leads downwards, whatever was cut off. -/
theorem split_downward {sz : Nat} (hL : L.Ok sz) {b m : Bytes} {n v nd cl cr : Nat}
    (hnd : nd < L.range) (hK : L.K < nd) (hn : 0 < n) (hcl : cl < v) (hcr : cr < v) (hv : v < L.range)
    (hb : ∀ j, j < L.nodeSize →
      b (v * L.nodeSize + j) = if j < L.f then setChildren L (setNDesc L m 0 nd) 0 [cl, cr] j else 0) :
    Downward L b n v := by
  have h3 := hL.three_le
  have hle : ∀ j, j < L.nodeSize → (b (v * L.nodeSize + j)).toNat ≤
      (setChildren L (setNDesc L m 0 nd) 0 [cl, cr] (0 + j)).toNat := by
    intro j hj
    rw [hb j hj, Nat.zero_add]
    split
    · exact le_rfl
    · simp
  refine ⟨fun hk => ?_, fun _ => ⟨?_, ?_⟩, fun _ j h1 h2 => by rw [hb j h2, if_neg (by omega)]⟩
  · -- the count was cut off, so all children were
    have hf : L.f < L.szIX := by
      by_contra hcon
      have : nDesc L b (v * L.nodeSize) = nd := by
        rw [← bucket_nDesc m 0 nd [cl, cr] hnd]
        refine nDesc_congr fun j hj => ?_
        rw [hb j (by omega), if_pos (by omega), Nat.zero_add]
      have hk' : nDesc L b (v * L.nodeSize) ≤ L.K := hk
      omega
    intro x hx
    obtain ⟨k, hk', rfl⟩ := List.mem_map.1 hx
    have hk' := List.mem_range.1 hk'
    have hkK : (k + 1) * L.szIX ≤ L.K * L.szIX := Nat.mul_le_mul_right _ (lt_of_lt_of_le hk' hk)
    rw [Nat.add_mul] at hkK
    have hKf := hL.K_fits
    have : child L b (v * L.nodeSize) k = 0 := by
      apply child_zero
      intro j hj
      have := hb (L.szIX + k * L.szIX + j) (by omega)
      rw [if_neg (by omega)] at this
      simpa [Nat.add_assoc] using this
    rw [this]
    exact hn
  · have h1 := child_setChildren (L := L) (setNDesc L m 0 nd) 0 [cl, cr] 0 (by simp) (by simpa using (by omega : cl < L.range))
    simp only [List.getElem_cons_zero] at h1
    refine lt_of_le_of_lt ?_ (lt_of_eq_of_lt h1 hcl)
    refine readLE_le fun j hj => ?_
    have := hle (L.szIX + 0 * L.szIX + j) (by omega)
    simpa [Nat.add_assoc] using this
  · have h1 := child_setChildren (L := L) (setNDesc L m 0 nd) 0 [cl, cr] 1 (by simp) (by simpa using (by omega : cr < L.range))
    simp only [List.getElem_cons_succ, List.getElem_cons_zero] at h1
    refine lt_of_le_of_lt ?_ (lt_of_eq_of_lt h1 hcr)
    refine readLE_le fun j hj => ?_
    have := hle (L.szIX + 1 * L.szIX + j) (by omega)
    simpa [Nat.add_assoc] using this

/-- A stored bucket leads downwards. -/
theorem bucket_downward {sz : Nat} (hL : L.Ok sz) {b : Bytes} {n v nd : Nat} {ids : List Nat}
    (hnd : ndAt L b v = nd) (hch : ∀ k, k < L.K → childAt L b v k = ids.getD k 0)
    (hids : ∀ x ∈ ids, x < n) (hn : 0 < nd → 0 < n) (hv : n ≤ v) (hz : L.K < nd → BlankFrom L b v (2 * L.szIX)) :
    Downward L b n v := by
  have hget : ∀ k, 0 < nd → ids.getD k 0 < n := by
    intro k h0
    by_cases hk : k < ids.length
    · have : ids.getD k 0 = ids[k] := by simp [hk]
      rw [this]; exact hids _ (List.getElem_mem hk)
    · rw [getD_ge _ _ (by omega)]; exact hn h0
  have hKge := hL.K_ge
  refine ⟨fun hk => ?_, fun hk => ⟨?_, ?_⟩, fun hk j h1 h2 => hz (by omega) j (by omega) h2⟩
  · intro x hx
    obtain ⟨k, hk', rfl⟩ := List.mem_map.1 hx
    have hk' : k < ndAt L b v := List.mem_range.1 hk'
    have : childAt L b v k = _ := hch k (by omega)
    show childAt L b v k < n
    rw [this]
    exact hget k (by omega)
  · rw [hch 0 (by omega)]; exact lt_of_lt_of_le (hget 0 (by omega)) hv
  · rw [hch 1 (by omega)]; exact lt_of_lt_of_le (hget 1 (by omega)) hv

end Node

namespace Idx
variable {c : Cfg}

theorem makeBucket_spec (hc : c.WF) {s : Idx c} {n : Nat} (h : s.BInv n) (ids : List Nat)
    (isRoot : Bool) (hf : c.L.Fits (s.nNodes + 1)) (hK : ids.length ≤ c.L.K)
    (hids : ∀ x ∈ ids, x < n) :
    ∃ s', makeBucket s ids isRoot = .ok (s.nNodes, s') ∧ Ext s s' n ∧ s'.nNodes = s.nNodes + 1 ∧
      ndAt c.L s'.alloc.data s.nNodes = (if isRoot then n else ids.length) ∧
      (∀ k, k < c.L.K → childAt c.L s'.alloc.data s.nNodes k = ids.getD k 0) ∧
      (ids.length ≤ (if isRoot then n else ids.length) → (if isRoot then n else ids.length) ≤ c.L.K →
        childrenAt c.L s'.alloc.data s.nNodes =
          ids ++ List.replicate ((if isRoot then n else ids.length) - ids.length) 0) ∧
      (ids.length ≤ 1 → BlankFrom c.L s'.alloc.data s.nNodes (2 * c.L.szIX)) ∧
      s'.rng = s.rng := by
  have hL := hc.layout
  have hp := hL.nodeSize_pos
  have hrange := hf.lt_range hp
  have hnle := h.n_le
  obtain ⟨h1, h2, h3, h4⟩ := takeWrite_spec hL h hf
    (fun a b => Node.setChildren c.L (Node.setNDesc c.L b a (if isRoot then n else ids.length)) a ids)
    (fun a b x hx => Node.bucket_frame hL _ _ _ _ hK x hx)
  have hnI : s.takeNode.2.nItems = n := (takeNode_spec hL h hf).2.1.nItems
  have hrng : s.takeNode.2.rng = s.rng := by
    unfold takeNode allocateSize; dsimp only; split <;> rfl
  have hfst := (takeNode_spec hL h hf).1
  have heq : makeBucket s ids isRoot = .ok (s.nNodes, s.takeNode.2.write
      (fun b => Node.setChildren c.L (Node.setNDesc c.L b (s.nNodes * c.L.nodeSize)
        (if isRoot then n else ids.length)) (s.nNodes * c.L.nodeSize) ids)) := by
    unfold makeBucket
    rw [hfst] at h1
    simp only [h1, bind, Except.bind, hnI, hfst]
    congr 3
    funext b
    split
    · rfl
    · next h0 =>
      have : ids = [] := List.length_eq_zero_iff.1 (by omega)
      subst this
      rw [Node.setChildren_nil]
  refine ⟨_, heq, h2, h3, ?_, ?_, ?_, ?_, hrng⟩
  · rw [h4]
    apply Node.bucket_nDesc
    split
    · omega
    · by_contra hcon
      -- ids.length ≤ K < nodeSize < range
      have h5 := hL.K_fits
      have h6 := hL.size_lt
      have h7 := hL.szIX_pos
      have h8 : c.L.K * 1 ≤ c.L.K * c.L.szIX := Nat.mul_le_mul_left _ h7
      omega
  · intro k hk
    rw [h4]
    apply Node.bucket_child hL _ _ _ _ _ _ _ hk
    · intro j hj
      exact h.zero _ (by omega)
    · intro x hx; have := hids x hx; omega
  · intro h5 h6
    rw [h4]
    apply Node.bucket_children hL _ _ _ _ _ _ _ h5 h6
    · intro j hj
      exact h.zero _ (by omega)
    · intro x hx; have := hids x hx; omega
    · have h5 := hL.K_fits
      have h6 := hL.size_lt
      have h7 := hL.szIX_pos
      have h8 : c.L.K * 1 ≤ c.L.K * c.L.szIX := Nat.mul_le_mul_left _ h7
      omega
  · intro h5
    rw [h4]
    exact Node.bucket_blank _ _ _ _ h5 fun j _ => h.zero _ (by omega)

theorem placeSplit_spec (hc : c.WF) {s : Idx c} {n : Nat} (h : s.BInv n) (m : Bytes)
    (hf : c.L.Fits (s.nNodes + 1)) :
    ∃ s', placeSplit s m = .ok (s.nNodes, s') ∧ Ext s s' n ∧ s'.nNodes = s.nNodes + 1 ∧
      (∀ j, j < c.L.nodeSize → s'.alloc.data (s.nNodes * c.L.nodeSize + j)
        = if j < c.L.f then m j else 0) ∧ s'.rng = s.rng := by
  have hL := hc.layout
  obtain ⟨h1, h2, h3, h4⟩ := takeWrite_spec hL h hf
    (fun a b => Node.copyNode b a m 0 c.L.f)
    (fun a b x hx => Node.copyNode_frame _ _ _ _ _ _ (by have := hL.f_le; omega))
  have hfst := (takeNode_spec hL h hf).1
  have hrng : s.takeNode.2.rng = s.rng := by
    unfold takeNode allocateSize; dsimp only; split <;> rfl
  refine ⟨_, ?_, h2, h3, ?_, hrng⟩
  · unfold placeSplit
    rw [hfst] at h1
    simp only [h1, bind, Except.bind, hfst]
  · intro j hj
    rw [h4]
    split
    · next hjf => rw [Node.copyNode_inside _ _ _ _ _ _ hjf, Nat.zero_add]
    · rw [Node.copyNode_frame _ _ _ _ _ _ (Or.inr (by omega))]
      exact h.zero _ (by omega)

/-- Most nodes a tree over `k` items can need. -/
def cap (k : Nat) : Nat := max 1 (2 * k - 1)

theorem nDesc_split {m : Bytes} {nd cl cr : Nat} (hnd : nd < c.L.range) :
    Node.nDesc c.L (Node.setChildren c.L (Node.setNDesc c.L m 0 nd) 0 [cl, cr]) 0 = nd :=
  Node.bucket_nDesc _ _ _ _ hnd

theorem makeTree_spec (hc : c.WF) (rf n : Nat) (fuel : Nat) :
    ∀ (s : Idx c) (ids : List Nat) (isRoot : Bool) (i : Nat) (s' : Idx c),
    s.BInv n → makeTree rf fuel s ids isRoot = .ok (i, s') →
    c.L.Fits (s.nNodes + cap ids.length) → ids.length ≤ n → (isRoot = false → ids ≠ []) →
    (∀ x ∈ ids, IsItem c.L s.alloc.data n x) →
    (isRoot = true → ids.length = 1 → c.L.K < n → ndAt c.L s.alloc.data 0 = 0) →
    Ext s s' n ∧ s'.nNodes ≤ s.nNodes + cap ids.length ∧ i < s'.nNodes ∧
    (isRoot = true → s'.nNodes = i + 1 ∧ s.nNodes ≤ i ∧ c.L.RootCount n (ndAt c.L s'.alloc.data i)) ∧
    (∀ x, s.nNodes ≤ x → x < s'.nNodes → Downward c.L s'.alloc.data n x) ∧
    (isRoot = false → (c.L.Deep s'.nNodes ∨ ids.length ≤ c.L.K) →
      ∃ t : Tree, t.root = i ∧ SidedTree c s'.alloc.data n t ∧ t.items.Perm ids ∧
        t.inner.Perm (List.range' s.nNodes (s'.nNodes - s.nNodes))) ∧
    (isRoot = true → (c.L.Deep s'.nNodes ∨ n ≤ c.L.K) →
      ∃ t : Tree, t.root = i ∧ SidedRoot c s'.alloc.data n ids t ∧
        t.inner.Perm (List.range' s.nNodes (s'.nNodes - s.nNodes))) := by
  have hL := hc.layout
  have hp := hL.nodeSize_pos
  have hKge := hL.K_ge
  have hKr : c.L.K < c.L.range := by
    have h5 := hL.K_fits
    have h6 := hL.size_lt
    have h7 := hL.szIX_pos
    have h8 : c.L.K * 1 ≤ c.L.K * c.L.szIX := Nat.mul_le_mul_left _ h7
    omega
  induction fuel with
  | zero => intro s ids isRoot i s' _ h; cases h
  | succ fuel ih =>
    intro s ids isRoot i s' hs h hfit hlen hne hitems hlone
    have hnle := hs.n_le
    have hcap : 1 ≤ cap ids.length := le_max_left _ _
    unfold makeTree at h
    split at h
    · -- single item, not the root
      next j =>
      cases h
      obtain ⟨hj1, hj2⟩ := hitems i (by simp)
      refine ⟨Ext.refl hs, by omega, by omega, by simp, fun x h1 h2 => by omega, ?_, by simp⟩
      intro _ _
      exact ⟨.item i, rfl, ⟨⟨hj1, hj2⟩, trivial⟩, by simp [Tree.items], by simp [Tree.inner]⟩
    · next hnot =>
      split at h
      · -- bucket
        next hb =>
        obtain ⟨hb1, hb2⟩ := hb
        rw [hs.nItems] at hb2
        obtain ⟨s1, e1, hext, hnn, hnd, hch, hchs, hblank, -⟩ := makeBucket_spec hc hs ids isRoot
          (hfit.mono (by omega)) hb1 (fun x hx => (hitems x hx).1)
        rw [e1] at h
        cases h
        have hrange' : List.range' s.nNodes (s'.nNodes - s.nNodes) = [s.nNodes] := by
          rw [hnn]; simp
        have hI : ∀ x, IsItem c.L s.alloc.data n x → IsItem c.L s'.alloc.data n x := by
          intro x hx
          exact ⟨hx.1, by rw [← (hext.sameNode (by have := hx.1; omega)).nd hL]; exact hx.2⟩
        refine ⟨hext, by omega, by omega, fun hr => ⟨hnn, le_rfl, Or.inl (by rw [hnd, if_pos hr])⟩, ?_, ?_, ?_⟩
        · intro x h1 h2
          have : x = s.nNodes := by omega
          subst this
          refine Node.bucket_downward hL hnd hch (fun x hx => (hitems x hx).1) ?_ hnle ?_
          · intro h0
            split at h0 <;> omega
          · intro h0
            apply hblank
            split at h0
            · next hr =>
              rcases hb2 with hb2 | hb2 | hb2
              · rw [hr] at hb2; cases hb2
              · omega
              · omega
            · omega
        · intro hr _
          subst hr
          simp only [Bool.false_eq_true, if_false, Nat.sub_self, List.replicate_zero,
            List.append_nil] at hnd hchs
          refine ⟨.bucket s.nNodes ids, rfl, ⟨⟨hnle, ?_, hb1, hnd, hchs le_rfl hb1,
            fun x hx => hI x (hitems x hx)⟩, trivial⟩, List.Perm.refl _, ?_⟩
          · -- at least two items
            have h0 := List.length_pos_iff.2 (hne rfl)
            have h1 : ids.length ≠ 1 := by
              intro h1
              obtain ⟨j, hj⟩ := List.length_eq_one_iff.1 h1
              exact hnot j hj rfl
            omega
          · rw [hrange']; exact List.Perm.refl _
        · intro hr hor
          subst hr
          simp only [if_true] at hnd hchs
          by_cases hnK : n ≤ c.L.K
          · exact ⟨.bucket s.nNodes _, rfl, ⟨⟨hnle, hnK, hnd, hchs hlen hnK, ids, List.Perm.refl _, rfl⟩, trivial⟩,
              by rw [hrange']; exact List.Perm.refl _⟩
          · -- a single item in a large index
            have h1 : ids.length = 1 := by
              rcases hb2 with hb2 | hb2 | hb2
              · cases hb2
              · omega
              · exact hb2
            obtain ⟨j, hj⟩ := List.length_eq_one_iff.1 h1
            subst hj
            have hj' := hitems j (by simp)
            have h0 := hlone rfl h1 (by omega)
            refine ⟨.split s.nNodes (.item j) (.hole 0), rfl, ⟨⟨hnle, ?_, ?_, by omega, hnd, ?_, ?_,
              Or.inr ⟨j, rfl, hI j hj', rfl, rfl, ?_⟩⟩, Or.inr ⟨⟨j, 0, rfl, rfl⟩, ?_⟩⟩, ?_⟩
            · have := hj'.1; simp only [Tree.root]; omega
            · simp only [Tree.root]; omega
            · rw [hch 0 (by omega)]; rfl
            · rw [hch 1 (by omega)]; rfl
            · rw [← (hext.sameNode (by omega)).nd hL]; exact h0
            · exact fun j h1 h2 => hblank le_rfl j (by omega) h2
            · rw [hrange']; exact List.Perm.refl _
      · -- inner node
        next hb =>
        simp only [bind, Except.bind] at h
        split at h
        · cases h
        · next v hv =>
          obtain ⟨m, l, rt, s0⟩ := v
          dsimp only at h
          obtain ⟨hperm, hl0, hr0, rg, hs0⟩ := chooseSplit_spec hc rf s ids hv
          have hdiv := chooseSplit_sides hc rf hs (fun x hx => (hitems x hx).1) hv
          have hlensum : l.length + rt.length = ids.length := by
            have := hperm.length_eq; simpa using this
          have hlpos := List.length_pos_iff.2 hl0
          have hrpos := List.length_pos_iff.2 hr0
          have hcapl : cap l.length = 2 * l.length - 1 := by unfold cap; omega
          have hcapr : cap rt.length = 2 * rt.length - 1 := by unfold cap; omega
          have hcapi : cap ids.length = 2 * ids.length - 1 := by unfold cap; omega
          have hinv0 : s0.BInv n := by rw [hs0]; exact hs.rng rg
          have hnn0 : s0.nNodes = s.nNodes := by rw [hs0]
          have hd0 : s0.alloc = s.alloc := by rw [hs0]
          have hmem : ∀ x, x ∈ l ∨ x ∈ rt → x ∈ ids := by
            intro x hx
            exact hperm.mem_iff.1 (List.mem_append.2 hx)
          have hext0 : Ext s s0 n := by
            rw [hs0]; exact ⟨hs.rng rg, le_rfl, fun _ _ => rfl, rfl, rfl⟩
          -- what remains once both subtrees are made, in either order
          have fin : ∀ (cl cr : Nat) (s2 : Idx c) (nd : Nat), Ext s s2 n →
              s2.nNodes ≤ s.nNodes + cap l.length + cap rt.length → cl < s2.nNodes → cr < s2.nNodes →
              nd = (if isRoot then n else ids.length) →
              (∀ x, s.nNodes ≤ x → x < s2.nNodes → Downward c.L s2.alloc.data n x) →
              placeSplit s2 (Node.setChildren c.L (Node.setNDesc c.L m 0 nd) 0 [cl, cr]) = .ok (i, s') →
              ((c.L.Deep s2.nNodes ∨ (l.length ≤ c.L.K ∧ rt.length ≤ c.L.K)) → ∃ tl tr : Tree,
                tl.root = cl ∧ tr.root = cr ∧ SidedTree c s2.alloc.data n tl ∧
                SidedTree c s2.alloc.data n tr ∧ tl.items.Perm l ∧ tr.items.Perm rt ∧
                (tl.inner ++ tr.inner).Perm (List.range' s.nNodes (s2.nNodes - s.nNodes))) →
              Ext s s' n ∧ s'.nNodes ≤ s.nNodes + cap ids.length ∧ i < s'.nNodes ∧
              (isRoot = true → s'.nNodes = i + 1 ∧ s.nNodes ≤ i ∧
                c.L.RootCount n (ndAt c.L s'.alloc.data i)) ∧
              (∀ x, s.nNodes ≤ x → x < s'.nNodes → Downward c.L s'.alloc.data n x) ∧
              (isRoot = false → (c.L.Deep s'.nNodes ∨ ids.length ≤ c.L.K) →
                ∃ t : Tree, t.root = i ∧ SidedTree c s'.alloc.data n t ∧ t.items.Perm ids ∧
                  t.inner.Perm (List.range' s.nNodes (s'.nNodes - s.nNodes))) ∧
              (isRoot = true → (c.L.Deep s'.nNodes ∨ n ≤ c.L.K) →
                ∃ t : Tree, t.root = i ∧ SidedRoot c s'.alloc.data n ids t ∧
                  t.inner.Perm (List.range' s.nNodes (s'.nNodes - s.nNodes))) := by
            intro cl cr s2 nd hext hb2 hcl hcr hnd hdown hplace htrees
            have hfit2 : c.L.Fits (s2.nNodes + 1) := hfit.mono (by omega)
            obtain ⟨s3, e3, hext3, hnn3, hbytes, -⟩ := placeSplit_spec hc hext.inv
              (Node.setChildren c.L (Node.setNDesc c.L m 0 nd) 0 [cl, cr]) hfit2
            rw [e3] at hplace
            cases hplace
            have hge := hext.nNodes
            have hrg := hfit2.lt_range hp
            have hextAll := hext.trans hext3
            have hndr : nd < c.L.range := by
              rw [hnd]
              have := hfit.lt_range hp
              split <;> omega
            have hrange' : List.range' s.nNodes (s'.nNodes - s.nNodes)
                = List.range' s.nNodes (s2.nNodes - s.nNodes) ++ [s2.nNodes] := by
              have e : s'.nNodes - s.nNodes = (s2.nNodes - s.nNodes) + 1 := by omega
              rw [e, ← List.range'_append_1]
              simp
              omega
            have hreads : c.L.Deep s'.nNodes →
                ndAt c.L s'.alloc.data s2.nNodes = nd ∧ childAt c.L s'.alloc.data s2.nNodes 0 = cl ∧
                childAt c.L s'.alloc.data s2.nNodes 1 = cr := by
              intro hD
              exact Node.split_reads hL hD hndr (by omega) (by omega) (by omega) hbytes
            have hinner : ∀ (tl tr : Tree),
                (tl.inner ++ tr.inner).Perm (List.range' s.nNodes (s2.nNodes - s.nNodes)) →
                ∀ k ∈ tl.inner ++ tr.inner, SameNode c.L s2.alloc.data s'.alloc.data k := by
              intro tl tr hpm k hk
              apply hext3.sameNode
              have := List.mem_range'_1.1 (hpm.mem_iff.1 hk)
              omega
            have hitem : ∀ k, k < n → SameNode c.L s2.alloc.data s'.alloc.data k :=
              fun k hk => hext3.sameNode (by omega)
            have hcut : ∀ tl tr : Tree, tl.items.Perm l → tr.items.Perm rt → SidedTree c s2.alloc.data n tl →
                SidedTree c s2.alloc.data n tr →
                (tl.inner ++ tr.inner).Perm (List.range' s.nNodes (s2.nNodes - s.nNodes)) →
                Sided c s'.alloc.data n (.split s2.nNodes tl tr) := by
              intro tl tr h3 h4 h1 h2 h5
              have hin := hinner tl tr h5
              refine Or.inl ⟨⟨m, (hdiv.perm h3 h4).congr hL ?_ ?_, ?_⟩, (h1.congr hL hitem ?_).2,
                (h2.congr hL hitem ?_).2⟩
              · intro k hk
                exact hextAll.sameNode (by clear htrees; omega)
              · rintro k (hk | hk)
                · exact (h1.1.items_isItem k hk).1
                · exact (h2.1.items_isItem k hk).1
              · intro j hj1 hj2
                rw [hbytes j (by have := hL.f_le; clear htrees; omega), if_pos hj2,
                  Node.setChildren_frame _ _ _ _ (Or.inr (by simp only [List.length_cons, List.length_nil]; clear htrees; omega)),
                  Node.setNDesc_frame _ _ _ _ (Or.inr (by clear htrees; omega))]
              · intro k hk; exact hin k (List.mem_append.2 (Or.inl hk))
              · intro k hk; exact hin k (List.mem_append.2 (Or.inr hk))
            have q1 : s'.nNodes ≤ s.nNodes + cap ids.length := by clear htrees; omega
            have q2 : s2.nNodes < s'.nNodes := by clear htrees; omega
            have q3 : s'.nNodes = s2.nNodes + 1 := by clear htrees; omega
            refine ⟨hextAll, q1, q2, fun hr => ⟨q3, hge, Or.inr ?_⟩, ?_, ?_, ?_⟩
            · rw [if_pos hr] at hnd
              subst hnd
              refine Node.nDesc_cut (nDesc_split hndr (m := m) (cl := cl) (cr := cr)) fun j hj => ?_
              rw [hbytes j (by have := hL.three_le; omega), Nat.zero_add]
            · intro x h1 h2
              by_cases hx : x < s2.nNodes
              · exact (hdown x h1 hx).congr hL (hext3.sameNode hx)
              · have : x = s2.nNodes := by clear htrees; omega
                subst this
                have hbig : c.L.K < nd := by
                  rw [hnd]
                  by_contra hcon
                  apply hb
                  rw [hs.nItems]
                  split at hcon
                  · exact ⟨by omega, Or.inr (Or.inl (by omega))⟩
                  · next hr => exact ⟨by omega, Or.inl (by simpa using hr)⟩
                exact Node.split_downward hL hndr hbig (by omega) hcl hcr (by omega) hbytes
            · intro hr hor
              subst hr
              have hbig : c.L.K < ids.length := by
                by_contra hcon
                exact hb ⟨by omega, Or.inl rfl⟩
              have hf3 : c.L.Deep s'.nNodes := hor.resolve_right (by omega)
              obtain ⟨tl, tr, e1, e2, h1, h2, h3, h4, h5⟩ := htrees (Or.inl (hf3.mono (by omega)))
              obtain ⟨r1, r2, r3⟩ := hreads hf3
              simp only [Bool.false_eq_true, if_false] at hnd
              have hin := hinner tl tr h5
              refine ⟨.split s2.nNodes tl tr, rfl, ⟨⟨by omega, by omega, by omega, by omega, ?_, by omega,
                by omega, ?_, ?_, (h1.congr hL hitem ?_).1, (h2.congr hL hitem ?_).1⟩, hcut tl tr h3 h4 h1 h2 h5⟩, ?_, ?_⟩
              · have e1 := h3.length_eq; have e2 := h4.length_eq
                rw [List.length_append]; omega
              · intro h0; rw [h0] at h3; exact hl0 h3.nil_eq.symm
              · intro h0; rw [h0] at h4; exact hr0 h4.nil_eq.symm
              · intro k hk; exact hin k (List.mem_append.2 (Or.inl hk))
              · intro k hk; exact hin k (List.mem_append.2 (Or.inr hk))
              · exact (h3.append h4).trans hperm
              · rw [hrange']; exact h5.append_right _
            · intro hr hor
              subst hr
              have hbig : c.L.K < n := by
                by_contra hcon
                have hh := hs.nItems
                exact hb ⟨by omega, Or.inr (Or.inl (by omega))⟩
              have hf3 : c.L.Deep s'.nNodes := hor.resolve_right (by omega)
              obtain ⟨tl, tr, e1, e2, h1, h2, h3, h4, h5⟩ := htrees (Or.inl (hf3.mono (by omega)))
              obtain ⟨r1, r2, r3⟩ := hreads hf3
              simp only [if_true] at hnd
              have hin := hinner tl tr h5
              refine ⟨.split s2.nNodes tl tr, rfl, ⟨⟨by omega, by omega, by omega, by omega, by omega,
                by omega, by omega, Or.inl ⟨?_, ?_, ?_, (h1.congr hL hitem ?_).1, (h2.congr hL hitem ?_).1⟩⟩,
                hcut tl tr h3 h4 h1 h2 h5⟩, ?_⟩
              · intro h0; rw [h0] at h3; exact hl0 h3.nil_eq.symm
              · intro h0; rw [h0] at h4; exact hr0 h4.nil_eq.symm
              · exact (h3.append h4).trans hperm
              · intro k hk; exact hin k (List.mem_append.2 (Or.inl hk))
              · intro k hk; exact hin k (List.mem_append.2 (Or.inr hk))
              · rw [hrange']; exact h5.append_right _
          -- making two subtrees one after the other
          have two : ∀ (xs ys : List Nat) (cx cy : Nat) (s1 s2 : Idx c),
              (∀ x, x ∈ xs ∨ x ∈ ys → x ∈ ids) → xs ≠ [] → ys ≠ [] →
              xs.length + ys.length = ids.length →
              makeTree rf fuel s0 xs false = .ok (cx, s1) →
              makeTree rf fuel s1 ys false = .ok (cy, s2) →
              Ext s s2 n ∧ s2.nNodes ≤ s.nNodes + cap xs.length + cap ys.length ∧ cx < s2.nNodes ∧
              cy < s2.nNodes ∧ (∀ x, s.nNodes ≤ x → x < s2.nNodes → Downward c.L s2.alloc.data n x) ∧
              ((c.L.Deep s2.nNodes ∨ (xs.length ≤ c.L.K ∧ ys.length ≤ c.L.K)) → ∃ tx ty : Tree,
                tx.root = cx ∧ ty.root = cy ∧ SidedTree c s2.alloc.data n tx ∧
                SidedTree c s2.alloc.data n ty ∧ tx.items.Perm xs ∧ ty.items.Perm ys ∧
                (tx.inner ++ ty.inner).Perm (List.range' s.nNodes (s2.nNodes - s.nNodes))) := by
            intro xs ys cx cy s1 s2 hsub hx0 hy0 hlen2 h1 h2
            have hxpos := List.length_pos_iff.2 hx0
            have hypos := List.length_pos_iff.2 hy0
            have hcx : cap xs.length = 2 * xs.length - 1 := by unfold cap; omega
            have hcy : cap ys.length = 2 * ys.length - 1 := by unfold cap; omega
            have A := ih s0 xs false cx s1 hinv0 h1 (hfit.mono (by omega)) (by omega) (fun _ => hx0)
              (fun x hx => by
                have := hitems x (hsub x (Or.inl hx))
                rw [hd0]; exact this) (by simp)
            obtain ⟨A1, A2, A3, -, A5, A4, -⟩ := A
            have hext1 := hext0.trans A1
            have B' := ih s1 ys false cy s2 A1.inv h2 (hfit.mono (by omega)) (by omega) (fun _ => hy0)
              (fun x hx => by
                have := hitems x (hsub x (Or.inr hx))
                exact ⟨this.1, by
                  rw [← (hext1.sameNode (by have := this.1; omega)).nd hL]; exact this.2⟩) (by simp)
            obtain ⟨B1, B2, B3, -, B5, B4, -⟩ := B'
            have hge1 := A1.nNodes
            have hge2 := B1.nNodes
            refine ⟨hext1.trans B1, by omega, by omega, B3, ?_, ?_⟩
            · intro x h1 h2
              by_cases hx : x < s1.nNodes
              · exact (A5 x (by omega) hx).congr hL (B1.sameNode hx)
              · exact B5 x (by omega) h2
            intro hor
            obtain ⟨tx, ex, hx1, hx2, hx3⟩ := A4 rfl (hor.imp (fun h => h.mono hge2) (fun h => h.1))
            obtain ⟨ty, ey, hy1, hy2, hy3⟩ := B4 rfl (hor.imp id (fun h => h.2))
            refine ⟨tx, ty, ex, ey, hx1.congr hL ?_ ?_, hy1, hx2, hy2, ?_⟩
            · intro k hk; exact B1.sameNode (by omega)
            · intro k hk
              have := List.mem_range'_1.1 (hx3.mem_iff.1 hk)
              exact B1.sameNode (by omega)
            · have e : List.range' s.nNodes (s2.nNodes - s.nNodes) =
                  List.range' s0.nNodes (s1.nNodes - s0.nNodes) ++
                  List.range' s1.nNodes (s2.nNodes - s1.nNodes) := by
                have e1 : s2.nNodes - s.nNodes = (s1.nNodes - s0.nNodes) + (s2.nNodes - s1.nNodes) := by
                  omega
                have e2 : s1.nNodes = s0.nNodes + (s1.nNodes - s0.nNodes) := by omega
                rw [e1, hnn0.symm]
                conv_rhs => rw [e2]
                rw [show s0.nNodes + (s1.nNodes - s0.nNodes) - s0.nNodes = s1.nNodes - s0.nNodes by omega]
                rw [← List.range'_append_1]
                rw [show s0.nNodes + (s1.nNodes - s0.nNodes) = s1.nNodes by omega]
              rw [e]; exact hx3.append hy3
          have hnI0 : s0.nItems = n := hinv0.nItems
          split at h
          · -- right side first
            split at h
            · cases h
            · next v1 hv1 =>
              obtain ⟨cr, s1⟩ := v1
              dsimp only at h
              split at h
              · cases h
              · next v2 hv2 =>
                obtain ⟨cl, s2⟩ := v2
                dsimp only at h
                obtain ⟨T1, T2, T3, T4, T6, T5⟩ := two rt l cr cl s1 s2
                  (fun x hx => hmem x hx.symm) hr0 hl0 (by omega) hv1 hv2
                refine fin cl cr s2 _ T1 (by omega) T4 T3 ?_ T6 h ?_
                · rw [hnI0]
                · intro hor
                  obtain ⟨tx, ty, h1, h2, h3, h4, h5, h6, h7⟩ := T5 (by
                    rcases hor with h | ⟨h, h'⟩
                    · exact Or.inl h
                    · exact Or.inr ⟨h', h⟩)
                  exact ⟨ty, tx, h2, h1, h4, h3, h6, h5, List.perm_append_comm.trans h7⟩
          · split at h
            · cases h
            · next v1 hv1 =>
              obtain ⟨cl, s1⟩ := v1
              dsimp only at h
              split at h
              · cases h
              · next v2 hv2 =>
                obtain ⟨cr, s2⟩ := v2
                dsimp only at h
                obtain ⟨T1, T2, T3, T4, T6, T5⟩ := two l rt cl cr s1 s2 hmem hl0 hr0 (by omega) hv1 hv2
                refine fin cl cr s2 _ T1 (by omega) T3 T4 ?_ T6 h T5
                · rw [hnI0]

end Idx
end Annoy
