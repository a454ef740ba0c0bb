import Verif.Proof.Load
/-!
Loaded indexes can be searched.
-/
namespace Annoy

section
variable {L : Layout} {sz : Nat}

/-- What a root copy is: the first `f` bytes of the root, zeros behind. -/
def CutNode (L : Layout) (b : Bytes) (x y : Nat) : Prop :=
  ∀ j, j < L.nodeSize → b (y * L.nodeSize + j) = if j < L.f then b (x * L.nodeSize + j) else 0

theorem CutNode.child_le (hL : L.Ok sz) {b : Bytes} {x y k : Nat} (h : CutNode L b x y) (hk : k < L.K) :
    childAt L b y k ≤ childAt L b x k := by
  have h1 := hL.K_fits
  refine readLE_le fun j hj => ?_
  have h2 : (k + 1) * L.szIX ≤ L.K * L.szIX := Nat.mul_le_mul_right _ hk
  rw [Nat.add_mul] at h2
  have := h (L.szIX + k * L.szIX + j) (by omega)
  rw [Nat.add_assoc, Nat.add_assoc, Nat.add_assoc, Nat.add_assoc]
  rw [Nat.add_assoc] at this
  rw [this]
  split
  · exact le_rfl
  · exact Nat.zero_le _

theorem CutNode.child_eq (hL : L.Ok sz) {b : Bytes} {x y k : Nat} (h : CutNode L b x y) (hk : k < L.K)
    (hf : L.szIX + (k + 1) * L.szIX ≤ L.f) : childAt L b y k = childAt L b x k := by
  have h1 := hL.K_fits
  refine readLE_congr fun j hj => ?_
  have h2 : (k + 1) * L.szIX ≤ L.K * L.szIX := Nat.mul_le_mul_right _ hk
  rw [Nat.add_mul] at h2 hf
  have := h (L.szIX + k * L.szIX + j) (by omega)
  rw [Nat.add_assoc, Nat.add_assoc, Nat.add_assoc, Nat.add_assoc]
  rw [Nat.add_assoc] at this
  rw [this, if_pos (by omega)]

/-- A copy of a downward node further up leads downwards. -/
theorem Downward.cut (hL : L.Ok sz) {b : Bytes} {n x y : Nat} (h : Downward L b n x) (hc : CutNode L b x y)
    (hnd : ndAt L b y = ndAt L b x) (hxy : x ≤ y) : Downward L b n y := by
  have h2 := hL.K_ge
  refine ⟨?_, ?_, ?_⟩
  · intro hK z hz
    obtain ⟨k, hk, rfl⟩ : ∃ k, k < ndAt L b y ∧ childAt L b y k = z := by
      simpa [Node.getChildren] using hz
    refine (hc.child_le hL (by omega)).trans_lt (h.1 (by omega) _ ?_)
    simp only [Node.getChildren, List.mem_map, List.mem_range]
    exact ⟨k, show k < ndAt L b x by omega, rfl⟩
  · intro hK
    obtain ⟨h3, h4⟩ := h.2.1 (by omega)
    exact ⟨(hc.child_le hL (by omega)).trans_lt (by omega), (hc.child_le hL (by omega)).trans_lt (by omega)⟩
  · intro _ j h3 h4
    rw [hc j h4, if_neg (by omega)]

end

namespace Idx
variable {c : Cfg} {s : Idx c} {m : Nat → Option (List c.N.V)} {n N0 : Nat}

theorem Built.cut (B : s.Built m n N0) {k : Nat} (hk : k < s.roots.length) :
    CutNode c.L s.alloc.data (s.roots[k]) (N0 + k) := B.copies k hk

theorem Reloaded.roots_mem {w : World} {t : Idx c} (R : s.Reloaded n N0 w t) {x : Nat} (hx : x ∈ t.roots) :
    n ≤ x ∧ x < s.nNodes ∧ ndAt c.L s.alloc.data x = n := by
  obtain ⟨j, h1, h2, _, h4, h5⟩ := R.roots_or
  have : j < x ∧ x < s.nNodes := by
    rcases h5 with h5 | ⟨h5, _⟩ <;> rw [h5] at hx <;> simp only [List.mem_reverse, List.mem_range'_1] at hx <;> omega
  exact ⟨by omega, this.2, h4 x this.1 this.2⟩

/-- `Load` finds every root copy. -/
theorem Reloaded.copies_found {w : World} {t : Idx c} (B : s.Built m n N0) (R : s.Reloaded n N0 w t) {k : Nat}
    (hk : k < s.roots.length) : N0 + k ∈ t.roots := by
  obtain ⟨j, h1, h2, _, h4, h5⟩ := R.roots_or
  have := B.nNodes
  rcases h5 with h5 | ⟨h5, _⟩ <;> rw [h5] <;> simp only [List.mem_reverse, List.mem_range'_1] <;> omega

theorem Reloaded.roots_nodup {w : World} {t : Idx c} (R : s.Reloaded n N0 w t) : t.roots.Nodup := by
  obtain ⟨j, h1, h2, _, h4, h5⟩ := R.roots_or
  rcases h5 with h5 | ⟨h5, _⟩ <;> rw [h5] <;> exact List.nodup_reverse.2 (List.nodup_range' ..)

theorem Reloaded.getNode {w : World} {t : Idx c} (B : s.Built m n N0) (R : s.Reloaded n N0 w t) {i : Nat} (hi : i < s.nNodes) :
    Annoy.getNode c.L (t.mem w) i = .ok (i * c.L.nodeSize) := by
  rw [R.mem]
  exact getNode_block B.size_lt hi

theorem Built.downward_all (hc : c.WF) (B : s.Built m n N0) (hk : c.L.CountKept n) {i : Nat} (h1 : n ≤ i) (h2 : i < s.nNodes) :
    Downward c.L s.alloc.data n i := by
  by_cases h : i < N0
  · exact B.downward i h1 h
  · have hN := B.nNodes
    obtain ⟨k, rfl⟩ : ∃ k, i = N0 + k := ⟨i - N0, by omega⟩
    have hkl : k < s.roots.length := by omega
    obtain ⟨r1, r2⟩ := B.roots_lt _ (List.getElem_mem hkl)
    exact (B.downward _ r1 r2).cut hc.layout (B.cut hkl)
      (by rw [B.copy_nd hc hk hkl, (B.counted _ (List.getElem_mem hkl)).eq hk]) (by omega)

/-- Every loaded index can be searched. -/
theorem Reloaded.searchable (hc : c.WF) (B : s.Built m n N0) (hk : c.L.CountKept n) {w : World} {t : Idx c}
    (R : s.Reloaded n N0 w t) :
    ∃ ts, Searchable c (t.mem w) t.nItems t.roots m ts ∧ ∀ t ∈ ts, t.size < 2 ^ s.nNodes := by
  have hnn := B.n_le_nNodes
  have hnode := fun i (hi : i < s.nNodes) => R.getNode B hi
  obtain ⟨ts, t1, t2⟩ := trees_of_roots (P := fun u => Search.Walkable c (t.mem w) n u ∧ (∀ x ∈ u.items, x < n) ∧
      u.size < 2 ^ s.nNodes) t.roots (by
    intro r hr
    obtain ⟨r1, r2, _⟩ := R.roots_mem hr
    obtain ⟨u, e1, e2, e3, e4⟩ := tree_of_downward (c := c) (mem := t.mem w) (n := n) (N := s.nNodes) hnode
      (fun i hi => by rw [R.mem]; exact B.nd_slot hc hi)
      (fun i h1 h2 => by rw [R.mem]; exact B.downward_all hc hk h1 h2) r r2
    exact ⟨u, e1, e2, e3, e4.trans_le (Nat.pow_le_pow_right (by omega) (by omega))⟩)
  rw [R.nItems]
  refine ⟨ts, ⟨t1, fun t ht => (t2 t ht).1, fun t ht => (t2 t ht).2.1, fun i hi => hnode i (by omega), ?_, ?_, ?_⟩,
    fun t ht => (t2 t ht).2.2⟩
  · intro i hi
    obtain ⟨v, hv⟩ := Option.isSome_iff_exists.1 hi
    exact B.bound i v hv
  · rw [R.mem]; exact B.items
  · intro i hi hmi
    rw [R.mem, show ndAt c.L s.alloc.data i = 0 from B.nd_gap hc hi hmi]
    decide

/-! ### complete trees -/

/-- The root copies are complete: inner nodes, or buckets whose child numbers lie within the first `f` bytes. -/
def _root_.Annoy.Layout.CopiesKept (L : Layout) (n : Nat) : Prop := L.K < n ∨ (n + 1) * L.szIX ≤ L.f

/-- Counts below the root are less than those of the root. -/
theorem _root_.Annoy.SubTree.inner_nd {L : Layout} {b : Bytes} {n : Nat} {t : Tree} :
    SubTree L b n t → ∀ x ∈ t.inner, ndAt L b x ≤ t.items.length := by
  induction t with
  | item i => simp [Tree.inner]
  | hole i => simp [Tree.inner]
  | bucket i ids => intro ⟨_, _, _, h, _⟩ x hx; simp only [Tree.inner, List.mem_singleton] at hx; subst hx; exact h.le
  | split i l r ihl ihr =>
    intro ⟨_, _, _, _, h, _, _, _, _, h1, h2⟩ x hx
    simp only [Tree.inner, List.mem_append, List.mem_singleton] at hx
    simp only [Tree.items, List.length_append] at h ⊢
    rcases hx with (hx | hx) | rfl
    · have := ihl h1 x hx; omega
    · have := ihr h2 x hx; omega
    · omega

theorem _root_.Annoy.RootTree.inner_nd {L : Layout} {b : Bytes} {n : Nat} {live : List Nat} {t : Tree} (hl : live.length ≤ n)
    (h : RootTree L b n live t) {x : Nat} (hx : x ∈ t.inner) (hnd : ndAt L b x = n) : x = t.root := by
  cases t with
  | item i => exact h.elim
  | hole i => exact h.elim
  | bucket i ids => simpa [Tree.inner, Tree.root] using hx
  | split i l r =>
    obtain ⟨_, _, _, _, _, _, _, h8⟩ := h
    simp only [Tree.inner, List.mem_append, List.mem_singleton] at hx
    rcases hx with hx | rfl
    · exfalso
      rcases h8 with ⟨h1, h2, h3, h4, h5⟩ | ⟨j, _, _, rfl, rfl, _⟩
      · have := h3.length_eq
        have p1 := List.length_pos_iff.2 h1
        have p2 := List.length_pos_iff.2 h2
        rw [List.length_append] at this
        rcases hx with hx | hx
        · have := h4.inner_nd x hx; omega
        · have := h5.inner_nd x hx; omega
      · simp [Tree.inner] at hx
    · rfl

/-- The copy of a complete tree is a complete tree. -/
theorem _root_.Annoy.RootTree.cut {L : Layout} {sz : Nat} (hL : L.Ok sz) {b : Bytes} {n N y : Nat} {live : List Nat} {t : Tree}
    (h : RootTree L b n live t) (hc : CutNode L b t.root y) (hnd : ndAt L b y = n) (hN : t.root < N) (hy : N ≤ y)
    (hd : L.Deep N ∨ n ≤ L.K) (hk : L.CopiesKept n) : ∃ t', t'.root = y ∧ RootTree L b n live t' := by
  have h2 := hL.K_ge
  cases t with
  | item i => exact h.elim
  | hole i => exact h.elim
  | bucket i ids =>
    obtain ⟨h1, h2, h3, h4, h5⟩ := h
    have hi : i < N := hN
    have hf : (n + 1) * L.szIX ≤ L.f := hk.resolve_left (by omega)
    refine ⟨.bucket y ids, rfl, by omega, h2, hnd, ?_, h5⟩
    rw [← h4]
    unfold childrenAt Node.getChildren
    rw [show Node.nDesc L b (y * L.nodeSize) = n from hnd, show Node.nDesc L b (i * L.nodeSize) = n from h3]
    apply List.map_congr_left
    intro k hk
    have hk := List.mem_range.1 hk
    refine hc.child_eq hL (by omega) (le_trans ?_ hf)
    have := Nat.mul_le_mul_right L.szIX (show k + 1 + 1 ≤ n + 1 by omega)
    rw [Nat.add_mul] at this
    omega
  | split i l r =>
    obtain ⟨h1, h2, h3, h4, h5, h6, h7, h8⟩ := h
    have hi : i < N := hN
    obtain ⟨d1, d2⟩ := hd.resolve_right (by omega)
    refine ⟨.split y l r, rfl, by omega, by omega, by omega, h4, hnd, ?_, ?_, h8⟩
    · rw [← h6]
      exact hc.child_eq hL (by omega) (by omega)
    · rw [← h7]
      have hK := hL.K_fits
      have hs : ∀ j, j < L.szIX → b (y * L.nodeSize + (2 * L.szIX + j)) =
          if 2 * L.szIX + j < L.f then b (i * L.nodeSize + (2 * L.szIX + j)) else 0 := by
        intro j hj
        have := Nat.mul_le_mul_right L.szIX (show 2 ≤ L.K by omega)
        exact hc (2 * L.szIX + j) (by omega)
      refine readLE_congr fun j hj => ?_
      rw [show y * L.nodeSize + L.szIX + 1 * L.szIX + j = y * L.nodeSize + (2 * L.szIX + j) by omega,
        show i * L.nodeSize + L.szIX + 1 * L.szIX + j = i * L.nodeSize + (2 * L.szIX + j) by omega, hs j hj]
      split
      · rfl
      · next hjf =>
        symm
        have e : leBytes L.szIX r.root = readBytes b (i * L.nodeSize + L.szIX + 1 * L.szIX) L.szIX := by
          rw [← h7]
          have := leBytes_ofLE (readBytes b (i * L.nodeSize + L.szIX + 1 * L.szIX) L.szIX)
          rw [readBytes_length] at this
          exact this
        have hz := leBytes_high L.szIX r.root j (by simpa using hj)
          (lt_of_lt_of_le (show r.root < N by omega) (d2.trans (Nat.pow_le_pow_right (by omega) (by omega))))
        simp only [e, readBytes_getElem] at hz
        rw [← hz]
        congr 1
        omega

/-- Every root that `Load` finds is the root of a complete tree. -/
theorem Reloaded.forest (hc : c.WF) (B : s.Built m n N0) (hk : c.L.CountKept n) (hd : c.L.Deep N0 ∨ n ≤ c.L.K)
    (hck : c.L.CopiesKept n) {w : World} {t : Idx c} (R : s.Reloaded n N0 w t) :
    ∀ x ∈ t.roots, ∃ u : Tree, u.root = x ∧ RootTree c.L s.alloc.data n (liveOf m n) u := by
  obtain ⟨ts, h1, h2, h3⟩ := B.forest hd
  intro x hx
  obtain ⟨x1, x2, x3⟩ := R.roots_mem hx
  have hN := B.nNodes
  by_cases h : x < N0
  · have : x ∈ ts.flatMap Tree.inner := h3.mem_iff.2 (List.mem_range'_1.2 ⟨x1, by omega⟩)
    obtain ⟨u, hu, hxu⟩ := List.mem_flatMap.1 this
    exact ⟨u, ((h2 u hu).inner_nd (liveOf_length_le _ _) hxu x3).symm, h2 u hu⟩
  · obtain ⟨k, rfl⟩ : ∃ k, x = N0 + k := ⟨x - N0, by omega⟩
    have hkl : k < s.roots.length := by omega
    have hr := List.getElem_mem hkl
    have hlt := B.roots_lt _ hr
    obtain ⟨u, hu, he⟩ : ∃ u ∈ ts, u.root = s.roots[k] := by
      have : ∀ r ∈ s.roots, ∃ u ∈ ts, u.root = r := by
        rw [← h1]
        exact fun r hr => List.mem_map.1 hr
      exact this _ hr
    exact (h2 u hu).cut hc.layout (by rw [he]; exact B.cut hkl) (B.copy_nd hc hk hkl) (N := N0) (by omega) (by omega) hd hck

theorem Reloaded.searchable_complete (hc : c.WF) (B : s.Built m n N0) (hk : c.L.CountKept n) (hd : c.L.Deep N0 ∨ n ≤ c.L.K)
    (hck : c.L.CopiesKept n) {w : World} {t : Idx c} (R : s.Reloaded n N0 w t) :
    ∃ ts, Searchable c (t.mem w) t.nItems t.roots m ts ∧ Complete m ts ∧
      ((∀ t ∈ ts, t.items.Perm (liveOf m n)) ∨ ∀ t ∈ ts, t.leaves = [t]) ∧
      (∀ u ∈ ts, RootTree c.L (t.mem w).get t.nItems (liveOf m n) u) := by
  have hnn := B.n_le_nNodes
  have hnode := fun i (hi : i < s.nNodes) => R.getNode B hi
  obtain ⟨ts, t1, t2⟩ := trees_of_roots _ (R.forest hc B hk hd hck)
  have hm : (t.mem w).get = s.alloc.data := by rw [R.mem]
  rw [R.nItems, hm]
  have hw : ∀ u ∈ ts, Search.Walkable c (t.mem w) n u ∧ (∀ x ∈ u.items, x < n) ∧
      u.size + 1 ≤ 2 * (u.inner.length + 1) := by
    intro u hu
    have hr : u.root ∈ t.roots := by rw [← t1]; exact List.mem_map.2 ⟨u, hu, rfl⟩
    obtain ⟨r1, r2, _⟩ := R.roots_mem hr
    exact RootTree.walkable (fun i hi => (mem_liveOf.1 hi).1) hnode hnn r2 (by rw [hm]; exact t2 u hu)
  have hbound : ∀ i, (m i).isSome → i < n := by
    intro i hi
    obtain ⟨v, hv⟩ := Option.isSome_iff_exists.1 hi
    exact B.bound i v hv
  refine ⟨ts, ⟨t1, fun t ht => (hw t ht).1, fun t ht => (hw t ht).2.1, fun i hi => hnode i (by omega), hbound, ?_, ?_⟩,
    ?_, ?_, t2⟩
  · rw [hm]; exact B.items
  · intro i hi hmi
    rw [hm, show ndAt c.L s.alloc.data i = 0 from B.nd_gap hc hi hmi]
    decide
  · intro u hu i hi
    exact (t2 u hu).complete i (mem_liveOf.2 ⟨hbound i hi, hi⟩)
  · by_cases hK : n ≤ c.L.K
    · right
      intro u hu
      have := t2 u hu
      cases u with
      | item i => exact this.elim
      | hole i => exact this.elim
      | bucket i ids => rfl
      | split i l r => obtain ⟨_, _, _, h4, _⟩ := this; omega
    · left
      exact fun u hu => (t2 u hu).items_perm fun hK' => absurd hK' hK

end Idx
end Annoy
