import Verif.Spec.Tree
import Verif.Proof.Layout
/-!
Lemmas about trees in memory.
-/
namespace Annoy
variable {L : Layout} {sz : Nat}

/-- Two memories agree on node number `i`. -/
def SameNode (L : Layout) (b b' : Bytes) (i : Nat) : Prop :=
  ∀ j, j < L.nodeSize → b (i * L.nodeSize + j) = b' (i * L.nodeSize + j)

theorem SameNode.nd (hL : L.Ok sz) {b b' : Bytes} {i : Nat} (h : SameNode L b b' i) :
    ndAt L b i = ndAt L b' i :=
  Node.nDesc_congr fun j hj => h j (by have := hL.three_le; omega)

theorem SameNode.child (hL : L.Ok sz) {b b' : Bytes} {i k : Nat} (h : SameNode L b b' i) (hk : k < 2) :
    childAt L b i k = childAt L b' i k := by
  apply Node.child_congr
  intro j hj
  apply h
  have h1 := hL.three_le
  have h2 : (k + 2) * L.szIX ≤ 3 * L.szIX := Nat.mul_le_mul_right _ (by omega)
  omega

theorem SameNode.children (hL : L.Ok sz) {b b' : Bytes} {i : Nat} (h : SameNode L b b' i)
    (hk : ndAt L b i ≤ L.K) : childrenAt L b i = childrenAt L b' i := by
  apply Node.getChildren_congr h
  · have := hL.three_le; omega
  · have h1 := hL.K_fits
    have h2 : Node.nDesc L b (i * L.nodeSize) * L.szIX ≤ L.K * L.szIX :=
      Nat.mul_le_mul_right L.szIX hk
    omega

theorem SameNode.symm {b b' : Bytes} {i : Nat} (h : SameNode L b b' i) : SameNode L b' b i :=
  fun j hj => (h j hj).symm

theorem Downward.congr (hL : L.Ok sz) {b b' : Bytes} {n i : Nat} (h : Downward L b n i) (hs : SameNode L b b' i) :
    Downward L b' n i := by
  refine ⟨fun hk => ?_, fun hk => ?_, fun hk => ?_⟩
  · rw [← hs.nd hL] at hk
    rw [← hs.children hL hk]
    exact h.1 hk
  · rw [← hs.nd hL] at hk
    rw [← hs.child hL (by omega), ← hs.child hL (by omega)]
    exact h.2.1 hk
  · rw [← hs.nd hL] at hk
    intro j h1 h2
    rw [← hs j h2]
    exact h.2.2 hk j h1 h2

theorem SubTree.congr (hL : L.Ok sz) {b b' : Bytes} {n : Nat}
    (hitem : ∀ i, i < n → ndAt L b i = ndAt L b' i) {t : Tree} (h : SubTree L b n t)
    (hin : ∀ i ∈ t.inner, SameNode L b b' i) : SubTree L b' n t := by
  have hI : ∀ i, IsItem L b n i → IsItem L b' n i := by
    intro i hi; exact ⟨hi.1, by rw [← hitem i hi.1]; exact hi.2⟩
  induction t with
  | item i => exact hI i h
  | hole i => exact h
  | bucket i ids =>
    obtain ⟨h1, h2, h3, h4, h5, h6⟩ := h
    have hs := hin i (by simp [Tree.inner])
    refine ⟨h1, h2, h3, ?_, ?_, fun x hx => hI x (h6 x hx)⟩
    · rw [← hs.nd hL]; exact h4
    · rw [← hs.children hL (by omega)]; exact h5
  | split i l r ihl ihr =>
    obtain ⟨h1, h2, h3, h4, h5, h6, h7, h8, h9, h10, h11⟩ := h
    have hs := hin i (by simp [Tree.inner])
    refine ⟨h1, h2, h3, ?_, ?_, ?_, ?_, h8, h9, ihl h10 ?_, ihr h11 ?_⟩
    · rw [← hs.nd hL]; exact h4
    · rw [← hs.nd hL]; exact h5
    · rw [← hs.child hL (by omega)]; exact h6
    · rw [← hs.child hL (by omega)]; exact h7
    · intro k hk; exact hin k (by simp [Tree.inner, hk])
    · intro k hk; exact hin k (by simp [Tree.inner, hk])

theorem RootTree.congr (hL : L.Ok sz) {b b' : Bytes} {n : Nat} {live : List Nat}
    (hitem : ∀ i, i < n → ndAt L b i = ndAt L b' i) {t : Tree} (h : RootTree L b n live t)
    (hin : ∀ i ∈ t.inner, SameNode L b b' i) : RootTree L b' n live t := by
  cases t with
  | item i => exact h
  | hole i => exact h
  | bucket i ids =>
    obtain ⟨h1, h2, h3, h4, h5⟩ := h
    have hs := hin i (by simp [Tree.inner])
    refine ⟨h1, h2, ?_, ?_, h5⟩
    · rw [← hs.nd hL]; exact h3
    · rw [← hs.children hL (by omega)]; exact h4
  | split i l r =>
    obtain ⟨h1, h2, h3, h4, h5, h6, h7, h8⟩ := h
    have hs := hin i (by simp [Tree.inner])
    refine ⟨h1, h2, h3, h4, ?_, ?_, ?_, ?_⟩
    · rw [← hs.nd hL]; exact h5
    · rw [← hs.child hL (by omega)]; exact h6
    · rw [← hs.child hL (by omega)]; exact h7
    · rcases h8 with ⟨h8, h9, h10, h11, h12⟩ | ⟨j, h8, h9, h10, h11, h12⟩
      · refine Or.inl ⟨h8, h9, h10, h11.congr hL hitem ?_, h12.congr hL hitem ?_⟩
        · intro k hk; exact hin k (by simp [Tree.inner, hk])
        · intro k hk; exact hin k (by simp [Tree.inner, hk])
      · refine Or.inr ⟨j, h8, ⟨h9.1, by rw [← hitem j h9.1]; exact h9.2⟩, h10, h11, ?_⟩
        rw [← hitem 0 (by omega)]; exact h12

/-- A well formed subtree is read by a search as that tree. -/
theorem SubTree.holds {b : Bytes} {n : Nat} {t : Tree} (h : SubTree L b n t) : Holds L b n t := by
  induction t with
  | item i => exact h
  | hole i => exact h.elim
  | bucket i ids =>
    obtain ⟨h1, h2, h3, h4, h5, h6⟩ := h
    exact ⟨fun hi => by have := hi.1; omega, by omega, h5⟩
  | split i l r ihl ihr =>
    obtain ⟨h1, h2, h3, h4, h5, h6, h7, h8, h9, h10, h11⟩ := h
    exact ⟨h4, h6, h7, ihl h10, ihr h11⟩

theorem RootTree.holds {b : Bytes} {n : Nat} {live : List Nat} {t : Tree}
    (h : RootTree L b n live t) : Holds L b n t := by
  cases t with
  | item i => exact h.elim
  | hole i => exact h.elim
  | bucket i ids =>
    obtain ⟨h1, h2, h3, h4, h5⟩ := h
    exact ⟨fun hi => by have := hi.1; omega, by omega, h4⟩
  | split i l r =>
    obtain ⟨h1, h2, h3, h4, h5, h6, h7, h8⟩ := h
    refine ⟨by omega, h6, h7, ?_, ?_⟩
    · rcases h8 with ⟨h8, h9, h10, h11, h12⟩ | ⟨j, h8, h9, h10, h11, h12⟩
      · exact h11.holds
      · rw [h10]; exact h9
    · rcases h8 with ⟨h8, h9, h10, h11, h12⟩ | ⟨j, h8, h9, h10, h11, h12⟩
      · exact h12.holds
      · rw [h11]; exact h12

theorem SubTree.items_isItem {b : Bytes} {n : Nat} {t : Tree} (h : SubTree L b n t) :
    ∀ x ∈ t.items, IsItem L b n x := by
  induction t with
  | item i => intro x hx; simp [Tree.items] at hx; subst hx; exact h
  | hole i => exact h.elim
  | bucket i ids => exact h.2.2.2.2.2
  | split i l r ihl ihr =>
    obtain ⟨h1, h2, h3, h4, h5, h6, h7, h8, h9, h10, h11⟩ := h
    intro x hx
    rcases List.mem_append.1 hx with hx | hx
    · exact ihl h10 x hx
    · exact ihr h11 x hx

theorem SubTree.nodes_le {b : Bytes} {n : Nat} {t : Tree} (h : SubTree L b n t) :
    ∀ x ∈ t.nodes, x ≤ t.root := by
  induction t with
  | item i => intro x hx; simp [Tree.nodes] at hx; simp [Tree.root, hx]
  | hole i => exact h.elim
  | bucket i ids => intro x hx; simp [Tree.nodes] at hx; simp [Tree.root, hx]
  | split i l r ihl ihr =>
    obtain ⟨h1, h2, h3, h4, h5, h6, h7, h8, h9, h10, h11⟩ := h
    intro x hx
    simp only [Tree.nodes, List.mem_cons, List.mem_append] at hx
    simp only [Tree.root]
    rcases hx with hx | hx | hx
    · omega
    · have := ihl h10 x hx; omega
    · have := ihr h11 x hx; omega

theorem RootTree.nodes_le {b : Bytes} {n : Nat} {live : List Nat} {t : Tree}
    (h : RootTree L b n live t) : ∀ x ∈ t.nodes, x ≤ t.root := by
  cases t with
  | item i => exact h.elim
  | hole i => exact h.elim
  | bucket i ids => intro x hx; simp [Tree.nodes] at hx; simp [Tree.root, hx]
  | split i l r =>
    obtain ⟨h1, h2, h3, h4, h5, h6, h7, h8⟩ := h
    intro x hx
    simp only [Tree.nodes, List.mem_cons, List.mem_append] at hx
    simp only [Tree.root]
    rcases h8 with ⟨h8, h9, h10, h11, h12⟩ | ⟨j, h8, h9, h10, h11, h12⟩
    · rcases hx with hx | hx | hx
      · omega
      · have := h11.nodes_le x hx; omega
      · have := h12.nodes_le x hx; omega
    · rw [h10, h11] at hx
      rw [h10] at h2
      simp [Tree.nodes, Tree.root] at hx h2
      omega

/-- Below the root the stored counts are smaller than the number of slots. -/
theorem SubTree.nd_le {b : Bytes} {n : Nat} {t : Tree} (h : SubTree L b n t) :
    ∀ x ∈ t.inner, ndAt L b x ≤ t.items.length := by
  induction t with
  | item i => intro x hx; simp [Tree.inner] at hx
  | hole i => exact h.elim
  | bucket i ids =>
    intro x hx; simp [Tree.inner] at hx; subst hx
    exact le_of_eq h.2.2.2.1
  | split i l r ihl ihr =>
    obtain ⟨h1, h2, h3, h4, h5, h6, h7, h8, h9, h10, h11⟩ := h
    intro x hx
    simp only [Tree.inner, List.mem_append, List.mem_singleton] at hx
    simp only [Tree.items, List.length_append] at *
    rcases hx with (hx | hx) | hx
    · have := ihl h10 x hx; omega
    · have := ihr h11 x hx; omega
    · subst hx; omega

/-- A full binary tree with `k` non-empty leaves has at most `2k-1` nodes. -/
theorem SubTree.size_le {b : Bytes} {n : Nat} {t : Tree} (h : SubTree L b n t) :
    t.size + 1 ≤ 2 * t.items.length := by
  induction t with
  | item i => simp [Tree.size, Tree.items]
  | hole i => exact h.elim
  | bucket i ids => have := h.2.1; simp [Tree.size, Tree.items]; omega
  | split i l r ihl ihr =>
    obtain ⟨h1, h2, h3, h4, h5, h6, h7, h8, h9, h10, h11⟩ := h
    have := ihl h10; have := ihr h11
    simp only [Tree.size, Tree.items, List.length_append]; omega

/-- A walk over a tree that memory holds visits its items. -/
theorem Holds.walk {b : Bytes} {n : Nat} {L : Layout} (hK : 1 ≤ L.K) {t : Tree} (h : Holds L b n t) :
    ∀ fuel, t.size ≤ fuel → walk L b n fuel t.root = some t.items := by
  induction t with
  | item i =>
    intro fuel hf
    obtain _ | fuel := fuel
    · simp [Tree.size] at hf
    rw [Annoy.walk, if_pos ⟨h.2, h.1⟩]; rfl
  | hole i =>
    intro fuel hf
    obtain _ | fuel := fuel
    · simp [Tree.size] at hf
    have h : ndAt L b i = 0 := h
    show Annoy.walk L b n (fuel + 1) i = _
    rw [Annoy.walk, if_neg (by omega), if_pos (by omega)]
    simp only [Tree.items, Option.some.injEq, childrenAt]
    apply List.eq_nil_of_length_eq_zero
    rw [Node.getChildren_length]; exact h
  | bucket i ids =>
    intro fuel hf
    obtain _ | fuel := fuel
    · simp [Tree.size] at hf
    show Annoy.walk L b n (fuel + 1) i = _
    rw [Annoy.walk, if_neg (fun q => h.1 ⟨q.2, q.1⟩), if_pos h.2.1, h.2.2]; rfl
  | split i l r ihl ihr =>
    intro fuel hf
    simp only [Tree.size] at hf
    obtain _ | fuel := fuel
    · omega
    obtain ⟨h1, h2, h3, h4, h5⟩ := h
    show Annoy.walk L b n (fuel + 1) i = _
    rw [Annoy.walk, if_neg (by omega), if_neg (by omega), h2, h3, ihl h4 fuel (by omega), ihr h5 fuel (by omega)]
    rfl

end Annoy
