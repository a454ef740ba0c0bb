import Verif.Proof.SearchRun
import Verif.Props.Build
/-!
# Built indexes can be searched

From the invariant of `Build` to the hypotheses of the search theorems.
-/
namespace Annoy

/-- Downward nodes make trees. -/
theorem tree_of_downward {c : Cfg} {mem : Block} {n N : Nat}
    (hnode : ∀ i, i < N → getNode c.L mem i = .ok (i * c.L.nodeSize))
    (hslot : ∀ i, i < n → ndAt c.L mem.get i = 0 ∨ ndAt c.L mem.get i = 1)
    (hdown : ∀ i, n ≤ i → i < N → Downward c.L mem.get n i) :
    ∀ i, i < N → ∃ t : Tree, t.root = i ∧ Search.Walkable c mem n t ∧ (∀ x ∈ t.items, x < n) ∧ t.size < 2 ^ (i + 1) := by
  intro i
  induction i using Nat.strong_induction_on with
  | _ i ih =>
    intro hi
    have h2 : 1 < 2 ^ (i + 1) := Nat.one_lt_two_pow (by omega)
    by_cases hin : i < n
    · rcases hslot i hin with h | h
      · exact ⟨.hole i, rfl, ⟨h, by simpa [Tree.nodes] using hnode i hi⟩, by simp [Tree.items], h2⟩
      · exact ⟨.item i, rfl, ⟨⟨hin, h⟩, by simpa [Tree.nodes] using hnode i hi⟩, by simpa [Tree.items] using hin, h2⟩
    · obtain ⟨d1, d2, -⟩ := hdown i (by omega) hi
      by_cases hK : ndAt c.L mem.get i ≤ c.L.K
      · exact ⟨.bucket i (childrenAt c.L mem.get i), rfl,
          ⟨⟨fun h => hin h.1, hK, rfl⟩, by simpa [Tree.nodes] using hnode i hi⟩, d1 hK, h2⟩
      · obtain ⟨e1, e2⟩ := d2 (by omega)
        obtain ⟨l, l1, l2, l3, l4⟩ := ih _ e1 (by omega)
        obtain ⟨r, r1, r2, r3, r4⟩ := ih _ e2 (by omega)
        refine ⟨.split i l r, rfl, ⟨⟨by omega, l1.symm, r1.symm, l2.holds, r2.holds⟩, ?_⟩, ?_, ?_⟩
        · intro x hx
          simp only [Tree.nodes, List.mem_cons, List.mem_append] at hx
          rcases hx with rfl | hx | hx
          · exact hnode _ hi
          · exact l2.nodes _ hx
          · exact r2.nodes _ hx
        · intro x hx
          simp only [Tree.items, List.mem_append] at hx
          rcases hx with hx | hx
          · exact l3 _ hx
          · exact r3 _ hx
        · simp only [Tree.size]
          have p1 : 2 ^ (childAt c.L mem.get i 0 + 1) ≤ 2 ^ i := Nat.pow_le_pow_right (by omega) (by omega)
          have p2 : 2 ^ (childAt c.L mem.get i 1 + 1) ≤ 2 ^ i := Nat.pow_le_pow_right (by omega) (by omega)
          rw [Nat.pow_succ]
          omega

theorem trees_of_roots {P : Tree → Prop} (roots : List Nat) (h : ∀ r ∈ roots, ∃ t : Tree, t.root = r ∧ P t) :
    ∃ ts : List Tree, ts.map Tree.root = roots ∧ ∀ t ∈ ts, P t := by
  induction roots with
  | nil => exact ⟨[], rfl, by simp⟩
  | cons r rs ih =>
    obtain ⟨t, h1, h2⟩ := h r (by simp)
    obtain ⟨ts, h3, h4⟩ := ih fun x hx => h x (by simp [hx])
    exact ⟨t :: ts, by simp [h1, h3], by simpa using ⟨h2, h4⟩⟩

namespace Idx
variable {c : Cfg} {s : Idx c} {m : Nat → Option (List c.N.V)} {n N0 : Nat}

/-- Unused slots have no descendants. -/
theorem Built.nd_gap (hc : c.WF) (h : s.Built m n N0) {i : Nat} (hi : i < n) (hm : m i = none) :
    ndAt c.L s.alloc.data i = 0 := by
  have h3 := hc.layout.three_le
  exact readLE_zero _ _ _ fun j hj => h.gaps i hi hm j (by omega) (Or.inl (by omega))

theorem Built.nd_slot (hc : c.WF) (h : s.Built m n N0) {i : Nat} (hi : i < n) :
    ndAt c.L s.alloc.data i = 0 ∨ ndAt c.L s.alloc.data i = 1 := by
  cases hm : m i with
  | none => exact Or.inl (h.nd_gap hc hi hm)
  | some v => exact Or.inr (h.items i v hm).nDesc

/-- Every built index can be searched. -/
theorem Built.searchable (hc : c.WF) (h : s.Built m n N0) (w : World) :
    ∃ ts, Searchable c (s.mem w) s.nItems s.roots m ts ∧ ∀ t ∈ ts, t.size < 2 ^ s.nNodes := by
  have hnn := h.n_le_nNodes
  have hN := h.nNodes
  by_cases h0 : 0 < s.nNodes
  · obtain ⟨hm, _⟩ := h.mem_eq w h0
    have hnode := fun i (hi : i < s.nNodes) => h.getNode w hi
    rw [hm] at hnode ⊢
    obtain ⟨ts, t1, t2⟩ := trees_of_roots (P := fun t => Search.Walkable c s.alloc.block n t ∧ (∀ x ∈ t.items, x < n) ∧
        t.size < 2 ^ s.nNodes) s.roots (by
      intro r hr
      obtain ⟨r1, r2⟩ := h.roots_lt r hr
      obtain ⟨t, e1, e2, e3, e4⟩ := tree_of_downward (c := c) (mem := s.alloc.block) (n := n) (N := N0)
        (fun i hi => hnode i (by omega)) (fun i hi => h.nd_slot hc hi) h.downward r r2
      exact ⟨t, e1, e2, e3, e4.trans_le (Nat.pow_le_pow_right (by omega) (by omega))⟩)
    rw [h.nItems]
    refine ⟨ts, ⟨t1, fun t ht => (t2 t ht).1, fun t ht => (t2 t ht).2.1, fun i hi => hnode i (by omega), ?_, h.items, ?_⟩,
      fun t ht => (t2 t ht).2.2⟩
    · intro i hi
      obtain ⟨v, hv⟩ := Option.isSome_iff_exists.1 hi
      exact h.bound i v hv
    · intro i hi hmi
      rw [show ndAt c.L s.alloc.block.get i = 0 from h.nd_gap hc hi hmi]
      decide
  · have hr : s.roots = [] := List.length_eq_zero_iff.1 (by omega)
    have hn : n = 0 := by have := h.n_le; omega
    subst hn
    have hno : ∀ i, m i = none := by
      intro i
      cases hi : m i with
      | none => rfl
      | some v => exact absurd (h.bound i v hi) (by omega)
    refine ⟨[], ⟨by simp [hr], by simp, by simp, ?_, ?_, ?_, ?_⟩, by simp⟩
    · intro i hi; rw [h.nItems] at hi; omega
    · intro i hi; simp [hno] at hi
    · intro i v hi; simp [hno] at hi
    · intro i hi; rw [h.nItems] at hi; omega

end Idx

theorem SubTree.walkable {c : Cfg} {mem : Block} {n N : Nat}
    (hnode : ∀ i, i < N → getNode c.L mem i = .ok (i * c.L.nodeSize)) {t : Tree} :
    t.root < N → SubTree c.L mem.get n t →
      Search.Walkable c mem n t ∧ (∀ x ∈ t.items, x < n) ∧ t.size + 1 ≤ 2 * (t.inner.length + 1) := by
  induction t with
  | item i => exact fun hr h => ⟨⟨h, by simpa [Tree.nodes] using hnode i hr⟩, by simpa [Tree.items] using h.1, by simp [Tree.size, Tree.inner]⟩
  | hole i => exact fun _ h => h.elim
  | bucket i ids =>
    intro hr ⟨h1, _, h3, h4, h5, h6⟩
    exact ⟨⟨⟨fun h => by have := h.1; omega, by omega, h5⟩, by simpa [Tree.nodes] using hnode i hr⟩, fun x hx => (h6 x hx).1,
      by simp [Tree.size, Tree.inner]⟩
  | split i l r ihl ihr =>
    intro hr ⟨h1, h2, h3, h4, h5, h6, h7, h8, h9, h10, h11⟩
    have hr' : i < N := hr
    obtain ⟨l1, l2, l3⟩ := ihl (by omega) h10
    obtain ⟨r1, r2, r3⟩ := ihr (by omega) h11
    refine ⟨⟨⟨h4, h6, h7, l1.holds, r1.holds⟩, ?_⟩, ?_, ?_⟩
    · intro x hx
      simp only [Tree.nodes, List.mem_cons, List.mem_append] at hx
      rcases hx with rfl | hx | hx
      · exact hnode _ hr
      · exact l1.nodes _ hx
      · exact r1.nodes _ hx
    · intro x hx
      simp only [Tree.items, List.mem_append] at hx
      rcases hx with hx | hx
      · exact l2 _ hx
      · exact r2 _ hx
    · simp only [Tree.size, Tree.inner, List.length_append, List.length_cons, List.length_nil]
      omega

theorem RootTree.walkable {c : Cfg} {mem : Block} {n N : Nat} {live : List Nat} (hlive : ∀ i ∈ live, i < n)
    (hnode : ∀ i, i < N → getNode c.L mem i = .ok (i * c.L.nodeSize)) (hN : n ≤ N) {t : Tree}
    (hr : t.root < N) (h : RootTree c.L mem.get n live t) :
    Search.Walkable c mem n t ∧ (∀ x ∈ t.items, x < n) ∧ t.size + 1 ≤ 2 * (t.inner.length + 1) := by
  cases t with
  | item i => exact h.elim
  | hole i => exact h.elim
  | bucket i ids =>
    obtain ⟨h1, h2, h3, h4, l, h5, h6⟩ := h
    refine ⟨⟨⟨fun h => by have := h.1; omega, by omega, h4⟩, by simpa [Tree.nodes] using hnode i hr⟩, ?_,
      by simp [Tree.size, Tree.inner]⟩
    intro x hx
    simp only [Tree.items, h6, List.mem_append, List.mem_replicate] at hx
    rcases hx with hx | ⟨hx, rfl⟩
    · exact hlive x (h5.subset hx)
    · omega
  | split i l r =>
    obtain ⟨h1, h2, h3, h4, h5, h6, h7, h8⟩ := h
    have hr' : i < N := hr
    rcases h8 with ⟨_, _, _, h10, h11⟩ | ⟨j, rfl, hj, rfl, rfl, h0⟩
    · obtain ⟨l1, l2, l3⟩ := h10.walkable hnode (by omega)
      obtain ⟨r1, r2, r3⟩ := h11.walkable hnode (by omega)
      refine ⟨⟨⟨by omega, h6, h7, l1.holds, r1.holds⟩, ?_⟩, ?_, ?_⟩
      · intro x hx
        simp only [Tree.nodes, List.mem_cons, List.mem_append] at hx
        rcases hx with rfl | hx | hx
        · exact hnode _ hr
        · exact l1.nodes _ hx
        · exact r1.nodes _ hx
      · intro x hx
        simp only [Tree.items, List.mem_append] at hx
        rcases hx with hx | hx
        · exact l2 _ hx
        · exact r2 _ hx
      · simp only [Tree.size, Tree.inner, List.length_append, List.length_cons, List.length_nil]
        omega
    · have := hj.1
      refine ⟨⟨⟨by omega, h6, h7, hj, h0⟩, ?_⟩, by simpa [Tree.items] using hj.1, by simp [Tree.size, Tree.inner]⟩
      intro x hx
      simp only [Tree.nodes, List.mem_cons, List.mem_append, List.not_mem_nil, or_false] at hx
      rcases hx with rfl | rfl | rfl
      · exact hnode _ hr
      · exact hnode _ (by omega)
      · exact hnode _ (by omega)

theorem RootTree.complete {L : Layout} {b : Bytes} {n : Nat} {live : List Nat} {t : Tree}
    (h : RootTree L b n live t) : ∀ i ∈ live, i ∈ t.items := by
  intro x hx
  cases t with
  | item i => exact h.elim
  | hole i => exact h.elim
  | bucket i ids =>
    obtain ⟨_, _, _, _, l, h5, rfl⟩ := h
    simp [Tree.items, h5.mem_iff, hx]
  | split i l r =>
    obtain ⟨_, _, _, _, _, _, _, h8⟩ := h
    rcases h8 with ⟨_, _, h8, _⟩ | ⟨j, rfl, _, rfl, rfl, _⟩
    · exact h8.mem_iff.2 hx
    · simpa [Tree.items] using hx

namespace Session
variable {c : Cfg} {numCPU : Nat} {pol : BuildPolicy} {adds : List (Nat × List c.N.V)} {trees workers : Int}
  {s s' : Idx c}

/-- Every built index can be searched. -/
theorem searchable (h : Session c numCPU pol adds trees workers s s') (w : World) :
    ∃ ts, Searchable c (s'.mem w) s'.nItems s'.roots (lastAdded adds) ts ∧ ∀ t ∈ ts, t.size < 2 ^ s'.nNodes := by
  obtain ⟨N0, B, _⟩ := h.built
  exact B.searchable h.wf w

/-- If inner nodes survive being written, every tree of the index is complete, and the trees share no node. -/
theorem searchable_inner (h : Session c numCPU pol adds trees workers s s')
    (hk : SplitsKept c numCPU pol (slotCount adds) trees workers) (w : World) :
    ∃ ts, Searchable c (s'.mem w) s'.nItems s'.roots (lastAdded adds) ts ∧ Complete (lastAdded adds) ts ∧
      ((∀ t ∈ ts, t.items.Perm (addedIds adds)) ∨ ∀ t ∈ ts, t.leaves = [t]) ∧
      Tree.sizes ts ≤ 2 * (s'.nNodes - s'.nItems) ∧
      (∀ t ∈ ts, RootTree c.L (s'.mem w).get s'.nItems (addedIds adds) t) ∧
      (ts.flatMap Tree.inner).Perm (List.range' s'.nItems (s'.nNodes - s'.roots.length - s'.nItems)) := by
  have hc := h.wf
  obtain ⟨N0, B, ts, h1, h2, h3⟩ := h.forest hk
  have hnn := B.n_le_nNodes
  have hN := B.nNodes
  by_cases h0 : 0 < s'.nNodes
  · obtain ⟨hm, _⟩ := B.mem_eq w h0
    have hnode := fun i (hi : i < s'.nNodes) => B.getNode w hi
    rw [hm] at hnode ⊢
    rw [B.nItems]
    have hw : ∀ t ∈ ts, Search.Walkable c s'.alloc.block (slotCount adds) t ∧ (∀ x ∈ t.items, x < slotCount adds) ∧
        t.size + 1 ≤ 2 * (t.inner.length + 1) := by
      intro t ht
      have hr : t.root ∈ s'.roots := by rw [← h1]; exact List.mem_map.2 ⟨t, ht, rfl⟩
      obtain ⟨r1, r2⟩ := B.roots_lt _ hr
      exact RootTree.walkable (fun i hi => (mem_liveOf.1 hi).1) hnode hnn (by omega) (h2 t ht)
    refine ⟨ts, ⟨h1, fun t ht => (hw t ht).1, fun t ht => (hw t ht).2.1, fun i hi => hnode i (by omega), ?_, B.items, ?_⟩,
      ?_, ?_, ?_, h2, by rwa [show s'.nNodes - s'.roots.length - slotCount adds = N0 - slotCount adds by omega]⟩
    · intro i hi
      obtain ⟨v, hv⟩ := Option.isSome_iff_exists.1 hi
      exact B.bound i v hv
    · intro i hi hmi
      rw [show ndAt c.L s'.alloc.block.get i = 0 from B.nd_gap hc hi hmi]
      decide
    · intro t ht i hi
      exact (h2 t ht).complete i (mem_addedIds.2 hi)
    · by_cases hK : slotCount adds ≤ c.L.K
      · right
        intro t ht
        have := h2 t ht
        cases t with
        | item i => exact this.elim
        | hole i => exact this.elim
        | bucket i ids => rfl
        | split i l r => obtain ⟨_, _, _, h4, _⟩ := this; omega
      · left
        exact fun t ht => (h2 t ht).items_perm fun hK' => absurd hK' hK
    · have hlen : ((ts.flatMap Tree.inner).length) = N0 - slotCount adds := by rw [h3.length_eq]; simp
      have hT : ts.length = s'.roots.length := by rw [← h1]; simp
      have : ∀ us : List Tree, (∀ t ∈ us, t.size + 1 ≤ 2 * (t.inner.length + 1)) →
          Tree.sizes us ≤ 2 * (us.flatMap Tree.inner).length + us.length := by
        intro us
        induction us with
        | nil => intro _; simp [Tree.sizes]
        | cons t us ih =>
          intro hu
          have e1 := hu t (by simp)
          have e2 := ih fun t ht => hu t (by simp [ht])
          unfold Tree.sizes at e2 ⊢
          simp only [List.map_cons, List.sum_cons, List.flatMap_cons, List.length_append, List.length_cons]
          omega
      have := this ts fun t ht => (hw t ht).2.2
      have := B.n_le
      omega
  · have hr : s'.roots = [] := List.length_eq_zero_iff.1 (by omega)
    obtain ⟨ts', S, _⟩ := B.searchable hc w
    have e : ts' = [] := by
      have := S.roots
      rw [hr] at this
      exact List.map_eq_nil_iff.1 this
    subst e
    exact ⟨[], S, by simp [Complete], by simp, by simp [Tree.sizes], by simp,
      by simp [show s'.nNodes - s'.roots.length - s'.nItems = 0 by omega]⟩

/-- If inner nodes survive being written, every tree of the index is complete. -/
theorem searchable_complete (h : Session c numCPU pol adds trees workers s s')
    (hk : SplitsKept c numCPU pol (slotCount adds) trees workers) (w : World) :
    ∃ ts, Searchable c (s'.mem w) s'.nItems s'.roots (lastAdded adds) ts ∧ Complete (lastAdded adds) ts ∧
      ((∀ t ∈ ts, t.items.Perm (addedIds adds)) ∨ ∀ t ∈ ts, t.leaves = [t]) ∧
      Tree.sizes ts ≤ 2 * (s'.nNodes - s'.nItems) ∧
      (∀ t ∈ ts, RootTree c.L (s'.mem w).get s'.nItems (addedIds adds) t) := by
  obtain ⟨ts, h1, h2, h3, h4, h5, _⟩ := h.searchable_inner hk w
  exact ⟨ts, h1, h2, h3, h4, h5⟩

end Session
end Annoy
