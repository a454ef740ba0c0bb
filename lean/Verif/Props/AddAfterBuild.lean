import Verif.Proof.SearchCongr
import Verif.Props.Search
/-!
# AddItem after Build (C53)

`AddItem` (index/annoyindex.go:149-179) only refuses loaded indexes.  On a built index it writes the node with the
number of the item, which may be a node of a tree or a root copy.
-/
namespace Annoy

namespace Idx
variable {c : Cfg}

/-- What `AddItem` does to a built index: it writes node `i`, nothing else. -/
theorem Built.addItem (hc : c.WF) {s : Idx c} {m : Nat → Option (List c.N.V)} {n N0 : Nat} (h : s.Built m n N0)
    (i : Nat) (v : List c.N.V) (hv : v.length = c.L.f) (hi : c.L.Fits (i + 1)) :
    ∃ t, s.addItem i v = .ok t ∧ t.roots = s.roots ∧ t.nItems = max n (i + 1) ∧ t.nNodes = s.nNodes ∧ t.MemOK ∧
      s.nodesSize ≤ t.nodesSize ∧ i < t.nodesSize ∧ ndAt c.L t.alloc.data i = 1 ∧
      Node.vec c.L c.C t.alloc.data (i * c.L.nodeSize) = v ∧
      ∀ j, j ≠ i → ∀ k, k < c.L.nodeSize →
        t.alloc.data (j * c.L.nodeSize + k) = s.alloc.data (j * c.L.nodeSize + k) := by
  have hL := hc.layout
  have hp := hL.nodeSize_pos
  have hw : c.L.wrap (i + 1) = i + 1 := c.L.wrap_eq (hi.lt_range hp)
  have hzs : s.nNodes * c.L.nodeSize ≤ s.nodesSize * c.L.nodeSize := Nat.mul_le_mul_right _ h.le_size
  obtain ⟨hm, hn1, hn2, hd, sz, nd, al, he⟩ := allocateSize_spec hL h.memOK hi h.zero hzs
  unfold Idx.addItem
  rw [h.loaded]
  simp only [Bool.false_eq_true, if_false, hv, ne_eq, not_true_eq_false, hw]
  generalize hs1 : s.allocateSize (i + 1) = s1 at *
  obtain ⟨hg, -⟩ := hm.getNode (i := i) (by omega)
  rw [hg]
  simp only [bind, Except.bind]
  have hnI : s1.nItems = n := by rw [he]; exact h.nItems
  have hoff := hL.offV_ge
  have hsz := hL.size_eq
  have hix := hL.szIX_pos
  obtain ⟨w, hw, h1, -⟩ := hc.initNode
  have hr : 1 < c.L.range := by
    unfold Layout.range
    exact Nat.one_lt_two_pow (by omega)
  set a := i * c.L.nodeSize with ha
  set b1 := Node.setNDesc c.L s1.alloc.data a 1 with hb1
  set b2 := Node.setVec c.L c.C b1 a v with hb2
  have key1 : Node.nDesc c.L (c.D.initNode b2 a) a = 1 := by
    rw [← Node.nDesc_setNDesc (L := c.L) s1.alloc.data a 1 hr]
    apply Node.nDesc_congr
    intro j hj
    rw [h1 _ _ _ (Or.inl (by omega)), hb2, Node.setVec_frame _ _ _ _ _ (Or.inl (by omega))]
  have key2 : Node.vec c.L c.C (c.D.initNode b2 a) a = v := by
    rw [← Node.vec_setVec c.C b1 a v hv]
    apply Node.vec_congr
    intro j hj
    rw [h1 _ _ _ (Or.inr (by omega))]
  have key3 : ∀ j, j ≠ i → ∀ k, k < c.L.nodeSize →
      c.D.initNode b2 a (j * c.L.nodeSize + k) = s.alloc.data (j * c.L.nodeSize + k) := by
    intro j hj k hk
    have := node_ne hj hk
    rw [h1 _ _ _ (by omega), hb2, Node.setVec_frame _ _ _ _ _ (by rw [hv]; omega), hb1,
      Node.setNDesc_frame _ _ _ _ (by omega), hd]
  have hnI' : (s1.write fun b => c.D.initNode (Node.setVec c.L c.C (Node.setNDesc c.L b a 1) a v) a).nItems = n := hnI
  have hmem : ∀ t : Idx c, t.nodes = s1.nodes → t.nodesSize = s1.nodesSize → t.alloc.size = s1.alloc.size → t.MemOK :=
    fun t e1 e2 e3 => ⟨by rw [e2]; exact hm.fits, by rw [e2, e3]; exact hm.size, by rw [e1, e2]; exact hm.nodes⟩
  have hro : s1.roots = s.roots ∧ s1.nNodes = s.nNodes := by rw [he]; exact ⟨rfl, rfl⟩
  split
  · next hge =>
    rw [hnI'] at hge
    refine ⟨_, rfl, hro.1, ?_, hro.2, hmem _ rfl rfl rfl, hn2, hn1, key1, key2, key3⟩
    show i + 1 = max n (i + 1)
    omega
  · next hge =>
    rw [hnI'] at hge
    refine ⟨_, rfl, hro.1, ?_, hro.2, hmem _ rfl rfl rfl, hn2, hn1, key1, key2, key3⟩
    rw [hnI']
    omega

theorem MemOK.getNode_mem {t : Idx c} (h : t.MemOK) (w : World) {i : Nat} (hi : i < t.nodesSize) :
    Annoy.getNode c.L (t.mem w) i = .ok (i * c.L.nodeSize) ∧ (t.mem w).get = t.alloc.data := by
  have hb := h.nodes (by omega)
  have e : t.mem w = t.bmem := by simp [mem, bmem, hb]
  rw [e]
  refine ⟨(h.getNode hi).1, ?_⟩
  simp [bmem, hb, Alloc.block]

end Idx

namespace Session
variable {c : Cfg} {numCPU : Nat} {pol : BuildPolicy} {adds : List (Nat × List c.N.V)} {trees workers : Int}
  {s s' : Idx c}

/-- **C53, what holds: vectors survive.**  After an `AddItem(i, v)` on a built index every other item still has its
vector, and `i` has `v`.  Missing for the full claim: earlier items can become invisible to searches,
`C53_refuted`. -/
theorem C53_vectors_partial (h : Session c numCPU pol adds trees workers s s') (i : Nat) (v : List c.N.V)
    (hv : v.length = c.L.f) (hi : c.L.Fits (i + 1)) (w : World) :
    ∃ t, s'.addItem i v = .ok t ∧ t.getItem w i = .ok v ∧
      ∀ j u, j ≠ i → lastAdded adds j = some u → t.getItem w j = .ok u := by
  obtain ⟨N0, B, _⟩ := h.built
  obtain ⟨t, h1, h2, h3, h4, h5, h6, h7, h8, h9, h10⟩ := B.addItem h.wf i v hv hi
  refine ⟨t, h1, ?_, fun j u hj hu => ?_⟩
  · obtain ⟨g1, g2⟩ := h5.getNode_mem w h7
    simp only [Idx.getItem, g1, bind, Except.bind, g2, h9]
  · have hjn := B.bound j u hu
    have := B.n_le
    have := B.nNodes
    have := B.le_size
    obtain ⟨g1, g2⟩ := h5.getNode_mem w (i := j) (by omega)
    simp only [Idx.getItem, g1, bind, Except.bind, g2]
    exact congrArg _ ((B.items j u hu).congr h.wf.layout (h10 j hj)).vec

/-- **C53 is false.**  After `Build(1)` there is an index `r` that `AddItem` accepts, with any vector, after which no
search, whatever its query, budget and context, ever returns an earlier item: the new item takes the place of the
root. -/
theorem C53_refuted (h : Session c numCPU pol adds 1 workers s s') (hw : pol = .multi → workers ≠ 0) :
    ∃ r, s'.roots = [r] ∧ slotCount adds ≤ r ∧ ∀ v : List c.N.V, v.length = c.L.f → ∃ t, s'.addItem r v = .ok t ∧
      ∀ w fuel query k b ctx ids ds ctx', t.getNnsByVector fuel w query k b ctx = .ok (ids, ds, ctx') →
        ∀ i ∈ ids, ¬ (lastAdded adds i).isSome := by
  obtain ⟨N0, B, hroom, hlen, _⟩ := h.built
  have hlen := hlen (by omega) hw
  obtain ⟨r, hr⟩ : ∃ r, s'.roots = [r] := List.length_eq_one_iff.1 (by simpa using hlen)
  obtain ⟨hrn, hrN⟩ := B.roots_lt r (by simp [hr])
  have hnn := B.nNodes
  refine ⟨r, hr, hrn, fun v hv => ?_⟩
  obtain ⟨t, h1, h2, h3, h4, h5, h6, h7, h8, h9, h10⟩ := B.addItem h.wf r v hv (h.fits.mono (by omega))
  refine ⟨t, h1, ?_⟩
  intro w fuel query k b ctx ids ds ctx' hs i hi hadd
  have hin := lastAdded_lt adds i hadd
  obtain ⟨g1, g2⟩ := h5.getNode_mem w h7
  unfold Idx.getNnsByVector at hs
  obtain ⟨col, hc1, hc2⟩ := Search.run_ids h.wf hs
  have hagree : Search.Agree c (t.mem w) (t.mem w) t.nItems t.nItems (fun x => x = r) := by
    have hK := h.wf.layout.K_ge
    have hnd : ∀ x, x = r → ∀ a, getNode c.L (t.mem w) x = .ok a → Node.nDesc c.L (t.mem w).get a = 1 ∧ x < t.nItems := by
      rintro x rfl a ha
      rw [g1] at ha
      cases ha
      rw [g2]
      exact ⟨h8, by omega⟩
    refine ⟨?_, fun _ _ _ _ _ => Iff.rfl, fun x hx a ha _ hno => absurd (hnd x hx a ha) hno, fun x hx a ha hk => ?_⟩
    · rintro x rfl
      exact ⟨_, g1, g1, fun _ _ => rfl⟩
    · have := (hnd x hx a ha).1
      omega
  have hcol : ∀ x ∈ col, x = r := by
    refine Search.collect_within hagree fuel (fun x hx => ?_) (by simp) hc1
    obtain ⟨y, hy, rfl⟩ := List.mem_map.1 ((Search.initQueue_perm _).mem_iff.1 hx)
    rw [h2, hr] at hy
    exact List.mem_singleton.1 hy
  have := hcol i (hc2 i hi)
  omega

/-- In an index of at most `MaxNumChildren` slots the fatal index of `C53_refuted` is the next free one. -/
theorem C53_next_index_refuted (h : Session c numCPU pol adds 1 workers s s') (hw : pol = .multi → workers ≠ 0)
    (hn : slotCount adds ≤ c.L.K) (v : List c.N.V) (hv : v.length = c.L.f) :
    ∃ t, s'.addItem (slotCount adds) v = .ok t ∧
      ∀ w fuel query k b ctx ids ds ctx', t.getNnsByVector fuel w query k b ctx = .ok (ids, ds, ctx') →
        ∀ i ∈ ids, ¬ (lastAdded adds i).isSome := by
  obtain ⟨r, hr, hrn, hall⟩ := h.C53_refuted hw
  obtain ⟨N0, B, ts, h1, h2, h3⟩ := h.forest (Or.inl hn)
  have e : r = slotCount adds := by
    rw [hr] at h1
    obtain ⟨t, rfl, ht⟩ := List.map_eq_singleton_iff.1 h1
    have hR := h2 t (by simp)
    cases t with
    | item i => exact hR.elim
    | hole i => exact hR.elim
    | split i l r => obtain ⟨_, _, _, hK, _⟩ := hR; omega
    | bucket i ids =>
      have hlen := h3.length_eq
      simp only [List.flatMap_cons, List.flatMap_nil, List.append_nil, Tree.inner, List.length_singleton,
        List.length_range'] at hlen
      have hm : i ∈ List.range' (slotCount adds) (N0 - slotCount adds) :=
        h3.mem_iff.1 (by simp [Tree.inner])
      rw [← hlen] at hm
      have : i = slotCount adds := by simpa using hm
      rw [← ht]
      exact this
  rw [← e]
  exact hall v hv

end Session

/-- Tree nodes never look like items: they count at least two. -/
theorem SubTree.two_le {L : Layout} {b : Bytes} {n : Nat} (hK : 2 ≤ L.K) : ∀ {t : Tree}, SubTree L b n t →
    ∀ x ∈ t.inner, 2 ≤ ndAt L b x := by
  intro t
  induction t with
  | item i => intro _ x hx; simp [Tree.inner] at hx
  | hole i => intro h; exact h.elim
  | bucket i ids =>
    intro h x hx
    obtain ⟨_, h2, _, h4, _⟩ := h
    simp only [Tree.inner, List.mem_singleton] at hx
    subst hx
    omega
  | split i l r ihl ihr =>
    intro h x hx
    obtain ⟨_, _, _, h4, _, _, _, _, _, hl, hr⟩ := h
    simp only [Tree.inner, List.mem_append, List.mem_singleton] at hx
    rcases hx with (hx | hx) | hx
    · exact ihl hl x hx
    · exact ihr hr x hx
    · subst hx; omega

theorem RootTree.two_le {L : Layout} {b : Bytes} {n : Nat} {live : List Nat} (hK : 2 ≤ L.K) (hn : 2 ≤ n) {t : Tree}
    (h : RootTree L b n live t) : ∀ x ∈ t.inner, 2 ≤ ndAt L b x := by
  intro x hx
  cases t with
  | item i => exact h.elim
  | hole i => exact h.elim
  | bucket i ids =>
    obtain ⟨_, _, h3, _⟩ := h
    simp only [Tree.inner, List.mem_singleton] at hx
    subst hx
    omega
  | split i l r =>
    obtain ⟨_, _, _, h4, h5, _, _, h8⟩ := h
    simp only [Tree.inner, List.mem_append, List.mem_singleton] at hx
    rcases hx with (hx | hx) | hx
    · rcases h8 with ⟨_, _, _, hl, hr⟩ | ⟨j, _, _, rfl, rfl, _⟩
      · exact hl.two_le hK x hx
      · simp [Tree.inner] at hx
    · rcases h8 with ⟨_, _, _, hl, hr⟩ | ⟨j, _, _, rfl, rfl, _⟩
      · exact hr.two_le hK x hx
      · simp [Tree.inner] at hx
    · subst hx; omega

namespace Session
variable {c : Cfg} {numCPU : Nat} {pol : BuildPolicy} {adds : List (Nat × List c.N.V)} {trees workers : Int}
  {s s' : Idx c}

/-- **C53, what holds: items beyond the trees.**  In an index of two or more slots whose inner nodes survive
(`SplitsKept`), an `AddItem` at an index at or behind the end of the trees and root copies changes no search at all: the same
answers, contexts and panics.  (So the new item is not found either, until there is a new `Build`, which
`C15` rules out.) -/
theorem C53_far_partial (h : Session c numCPU pol adds trees workers s s')
    (hk : SplitsKept c numCPU pol (slotCount adds) trees workers) (hn : 2 ≤ slotCount adds) (i : Nat)
    (hfar : s'.nNodes ≤ i) (v : List c.N.V) (hv : v.length = c.L.f) (hi : c.L.Fits (i + 1)) :
    ∃ t, s'.addItem i v = .ok t ∧ ∀ w fuel query k b ctx,
      t.getNnsByVector fuel w query k b ctx = s'.getNnsByVector fuel w query k b ctx := by
  obtain ⟨N0, B, ts, hts, hR, hinner⟩ := h.forest hk
  obtain ⟨t, h1, h2, h3, h4, h5, h6, h7, h8, h9, h10⟩ := B.addItem h.wf i v hv hi
  refine ⟨t, h1, ?_⟩
  intro w fuel query k b ctx
  unfold Idx.getNnsByVector
  rw [h2]
  have hN := B.nNodes
  have hle := B.le_size
  have hnN := B.n_le
  have hK := h.wf.layout.K_ge
  have hsame : ∀ x, x < N0 → getNode c.L (s'.mem w) x = .ok (x * c.L.nodeSize) ∧
      getNode c.L (t.mem w) x = .ok (x * c.L.nodeSize) ∧
      ∀ j, j < c.L.nodeSize → (s'.mem w).get (x * c.L.nodeSize + j) = (t.mem w).get (x * c.L.nodeSize + j) := by
    intro x hx
    obtain ⟨g1, g2⟩ := B.memOK.getNode_mem w (i := x) (by omega)
    obtain ⟨g3, g4⟩ := h5.getNode_mem w (i := x) (by omega)
    refine ⟨g1, g3, fun j hj => ?_⟩
    rw [g2, g4, h10 x (by omega) j hj]
  have hget : (s'.mem w).get = s'.alloc.data := (B.memOK.getNode_mem w (i := 0) (by omega)).2
  have hdown : ∀ x, x < N0 → slotCount adds ≤ x → Downward c.L (s'.mem w).get (slotCount adds) x := by
    intro x hx hx'
    rw [hget]
    exact B.downward x hx' hx
  have hnd : ∀ x, slotCount adds ≤ x → x < N0 → 2 ≤ ndAt c.L (s'.mem w).get x := by
    intro x hx hx'
    rw [hget]
    have : x ∈ ts.flatMap Tree.inner := hinner.mem_iff.2 (by rw [List.mem_range'_1]; omega)
    obtain ⟨tr, htr, hxt⟩ := List.mem_flatMap.1 this
    exact (hR tr htr).two_le hK hn x hxt
  have hlow : ∀ x, x < slotCount adds → ndAt c.L (s'.mem w).get x ≤ 1 := by
    intro x hx
    rw [hget]
    cases hm : lastAdded adds x with
    | none =>
      have : ndAt c.L s'.alloc.data x = 0 := by
        refine readLE_zero _ _ _ fun j hj => ?_
        have h3 := h.wf.layout.three_le
        exact B.gaps x hx hm j (by omega) (Or.inl (by omega))
      omega
    | some u => exact (B.items x u hm).nDesc.le
  have hagree : Search.Agree c (s'.mem w) (t.mem w) s'.nItems t.nItems (fun x => x < N0) := by
    refine ⟨fun x hx => ⟨_, hsame x hx⟩, ?_, ?_, ?_⟩
    · intro x hx a ha h1
      rw [(hsame x hx).1] at ha
      cases ha
      rw [B.nItems, h3]
      have : ¬ slotCount adds ≤ x := fun hge => by
        have h1 : ndAt c.L (s'.mem w).get x = 1 := h1
        have := hnd x hge hx
        omega
      omega
    · intro x hx a ha hk hno y hy
      rw [(hsame x hx).1] at ha
      cases ha
      by_cases hge : slotCount adds ≤ x
      · have := (hdown x hx hge).1 hk y hy
        omega
      · have hl : ndAt c.L (s'.mem w).get x ≤ 1 := hlow x (by omega)
        rw [B.nItems] at hno
        have h0 : ndAt c.L (s'.mem w).get x = 0 := by
          by_contra hne
          exact hno ⟨by show ndAt c.L (s'.mem w).get x = 1; omega, by omega⟩
        obtain ⟨k', hk', _⟩ := List.mem_map.1 hy
        have hk' := List.mem_range.1 hk'
        have h0 : Node.nDesc c.L (s'.mem w).get (x * c.L.nodeSize) = 0 := h0
        omega
    · intro x hx a ha hk
      rw [(hsame x hx).1] at ha
      cases ha
      by_cases hge : slotCount adds ≤ x
      · obtain ⟨d0, d1⟩ := (hdown x hx hge).2.1 hk
        exact ⟨lt_trans d0 hx, lt_trans d1 hx⟩
      · have hl : ndAt c.L (s'.mem w).get x ≤ 1 := hlow x (by omega)
        have hk : c.L.K < ndAt c.L (s'.mem w).get x := hk
        omega
  exact (Search.run_congr h.wf hagree (fun r hr => (B.roots_lt r hr).2) fuel query k b ctx).symm

end Session

-- The hypotheses of the three theorems are met.
example : ∃ s s', Session (angular32 4 2) 1 .single denseAdds 1 1 s s' ∧ slotCount denseAdds ≤ (angular32 4 2).L.K ∧
    2 ≤ slotCount denseAdds ∧ SplitsKept (angular32 4 2) 1 .single (slotCount denseAdds) 1 1 := by
  obtain ⟨s, s', h, _⟩ := made_with (c := angular32 4 2) (r := Kiss32.new 0) (adds := denseAdds) (trees := 1)
    (fun _ => true) (angular32_wf (Or.inl rfl) (by decide)) (legalAdds_of (by decide +kernel)) (by decide +kernel)
    (by decide +kernel)
  exact ⟨s, s', h, by decide +kernel, by decide +kernel, Or.inl (by decide +kernel)⟩

end Annoy
