import Verif.Props.DataBlind
/-!
# C20 for short vectors: a search follows a chain

If `vectorLength` is at most `2*sizeof(TIX)`, the second child of a stored split node is lost (`CopyNode`), and reads as item 0.
-/
namespace Annoy

/-- The number of nodes that a walk from `i` passes. -/
theorem chain_size {c : Cfg} (hc : c.WF) {mem : Block} {n N : Nat}
    (hslot : ∀ i, i < n → ndAt c.L mem.get i = 0 ∨ ndAt c.L mem.get i = 1)
    (hdown : ∀ i, n ≤ i → i < N → Downward c.L mem.get n i) (hf : c.L.f ≤ 2 * c.L.szIX) (hn : 0 < n) {t : Tree} (hr : t.root < N)
    (h : Holds c.L mem.get n t) : t.size + 2 * n ≤ 2 * max n (t.root + 1) + 1 := by
  have hK := hc.layout.K_ge
  have h3 := hc.layout.three_le
  have hsplit : ∀ {i l r}, i < N → Holds c.L mem.get n (.split i l r) → n ≤ i ∧ l.root < i ∧ r.root = 0 := by
    intro i l r hi h
    obtain ⟨a1, a2, a3, -⟩ := h
    have hin : n ≤ i := by
      by_contra hlt
      rcases hslot i (by omega) with h0 | h0 <;> omega
    obtain ⟨-, d2, d3⟩ := hdown i hin hi
    refine ⟨hin, by have := (d2 a1).1; omega, ?_⟩
    rw [← a3]
    refine readLE_zero _ _ _ fun j hj => ?_
    have := d3 a1 (2 * c.L.szIX + j) (by omega) (by omega)
    rw [← this]
    congr 1
    omega
  induction t with
  | item i => simp only [Tree.size]; omega
  | hole i => simp only [Tree.size]; omega
  | bucket i ids => simp only [Tree.size]; omega
  | split i l r ihl ihr =>
    have hi : i < N := hr
    obtain ⟨s1, s2, s3⟩ := hsplit hi h
    obtain ⟨a1, a2, a3, a4, a5⟩ := h
    have hl := ihl (by omega) a4
    have hrs : r.size = 1 := by
      cases r with
      | item i => rfl
      | hole i => rfl
      | bucket i ids => rfl
      | split j l r =>
        have hj : j = 0 := s3
        have := (hsplit (by omega) a5).1
        omega
    have e : (Tree.split i l r).root = i := rfl
    rw [e]
    simp only [Tree.size]
    omega

/-- **C20**, vectors of at most `2*sizeof(TIX)` components: a search of a built index ends after at most `2*(number of nodes)+1` pops per
root, whatever became of the children of its split nodes; if the context has room for everything it collects there is an answer. -/
theorem C20_bound_short_partial {c : Cfg} {numCPU : Nat} {pol : BuildPolicy} {adds : List (Nat × List c.N.V)} {trees workers : Int} {s s' : Idx c}
    (h : Session c numCPU pol adds trees workers s s') (hf : c.L.f ≤ 2 * c.L.szIX) (hN : c.N.Lawful) (w : World) {query : List c.N.V}
    (hq : GoodQuery c query) (k b : Int) (ctx : Ctx c) {fuel : Nat} (hfuel : s'.roots.length * (2 * (s'.nNodes - s'.nItems) + 1) < fuel) :
    (∃ x, s'.getNnsByVector fuel w query k b ctx = .ok x) ∨ ∃ msg, s'.getNnsByVector fuel w query k b ctx = .error (.panic msg) := by
  have hc := h.wf
  obtain ⟨N0, B, -⟩ := h.built
  obtain ⟨ts, S, -⟩ := h.searchable w
  have hN0 := B.nNodes
  have hlen : ts.length = s'.roots.length := by rw [← S.roots]; simp
  have hsz : Tree.sizes ts ≤ s'.roots.length * (2 * (s'.nNodes - s'.nItems) + 1) := by
    rw [← hlen]
    unfold Tree.sizes
    rw [← List.length_map (f := Tree.size), ← smul_eq_mul]
    refine List.sum_le_card_nsmul _ _ ?_
    intro x hx
    obtain ⟨t, ht, rfl⟩ := List.mem_map.1 hx
    have hr : t.root ∈ s'.roots := by rw [← S.roots]; exact List.mem_map.2 ⟨t, ht, rfl⟩
    obtain ⟨r1, r2⟩ := B.roots_lt _ hr
    by_cases h0 : 0 < s'.nItems
    · obtain ⟨hm, -⟩ := B.mem_eq w (by omega)
      have := chain_size hc (mem := s'.mem w) (n := s'.nItems) (N := N0) (by
        intro i hi
        rw [hm]
        exact B.nd_slot hc (by rwa [B.nItems] at hi)) (by
        intro i h1 h2
        rw [hm, B.nItems]
        exact B.downward i (by rwa [B.nItems] at h1) h2) hf h0 r2 (S.walk t ht).holds
      rw [B.nItems] at this ⊢
      omega
    · have hz : s'.nItems = 0 := by omega
      have hcnt : ndAt c.L s'.alloc.data t.root = 0 := by
        have h1 := B.counted _ hr
        have h2 : slotCount adds = 0 := by rw [← B.nItems]; exact hz
        rw [h2] at h1
        rcases h1 with h1 | h1
        · exact h1
        · rw [h1]; exact Nat.zero_mod _
      have hw := (S.walk t ht).holds
      cases t with
      | split i l r =>
        have h1 : c.L.K < ndAt c.L (s'.mem w).get i := hw.1
        rw [(B.mem_eq w (by omega)).1] at h1
        have h2 : ndAt c.L s'.alloc.data i = 0 := hcnt
        have h3 : c.L.K < ndAt c.L s'.alloc.data i := h1
        omega
      | item i => simp only [Tree.size]; omega
      | hole i => simp only [Tree.size]; omega
      | bucket i ids => simp only [Tree.size]; omega
  rcases Search.outcome hc hN S hq k b (by omega : Tree.sizes ts < fuel) ctx with h1 | ⟨_, h1⟩
  · exact Or.inl h1
  · exact Or.inr h1

/-- Two items with vectors of length 2: the hypotheses of `C20_bound_short_partial` hold; and twenty items of length 8, with split nodes. -/
example : (∃ s s', Session (angular32 4 2) 1 .single denseAdds 2 1 s s') ∧ (angular32 4 2).L.f ≤ 2 * (angular32 4 2).L.szIX ∧
    (angular32 4 8).L.f ≤ 2 * (angular32 4 8).L.szIX := by
  obtain ⟨s, s', -, h, -⟩ := C76_build (c := angular32 4 2) (.angular32 (by decide) (by decide)) 1 denseAdds (legalAdds_of (by decide +kernel))
    (Kiss32.new 0) 0 2 1 (by decide +kernel)
  exact ⟨⟨s, s', h⟩, by decide, by decide⟩

end Annoy
