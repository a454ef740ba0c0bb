import Verif.Proof.RootOrder
import Verif.Proof.Term
/-!
The first tree of an index built by one worker depends only on the items and the generator, not on the number of trees.
-/
namespace Annoy
namespace Idx
variable {c : Cfg}

/-- The end of `Build` leaves the trees alone. -/
theorem buildFinish_frame (hc : c.WF) {s2 s' : Idx c} {n : Nat} (hinv : s2.BInv n) (hroots : ∀ r ∈ s2.roots, r < s2.nNodes)
    (hfit2 : c.L.Fits (s2.nNodes + s2.roots.length)) (h : buildFinish s2 = .ok s') :
    ∀ x, x < s2.nNodes * c.L.nodeSize → s'.alloc.data x = s2.alloc.data x := by
  have hL := hc.layout
  have hp := hL.nodeSize_pos
  have hw : c.L.wrap (s2.nNodes + s2.roots.length) = s2.nNodes + s2.roots.length :=
    c.L.wrap_eq (hfit2.lt_range hp)
  obtain ⟨hm4, hn4, hn4', hd4, sz, nd, al, he4⟩ := allocateSize_spec hL hinv.memOK hfit2 hinv.zero
    (Nat.mul_le_mul_right c.L.nodeSize hinv.le_size)
  generalize hrs : s2.roots = rs at *
  generalize hs4 : s2.allocateSize (s2.nNodes + rs.length) = s4 at *
  have e3 : s4.roots = rs := by rw [he4]
  have e4 : s4.nNodes = s2.nNodes := by rw [he4]
  obtain ⟨s5, C1, ⟨d, C2⟩, C3, C4⟩ := copyRoots_spec hc rs s4 s2.nNodes hm4 hn4 hroots
  unfold buildFinish at h
  dsimp only at h
  rw [hrs, hw, hs4, e3, e4, C1] at h
  simp only [bind, Except.bind] at h
  split at h
  · cases h
  · cases h
    intro x hx
    show s5.alloc.data x = _
    rw [C3 x (Or.inl hx), hd4]

/-- What the first round of the loop of `ThreadBuild` makes stays. -/
theorem build_first (hc : c.WF) {s : Idx c} {m : Nat → Option (List c.N.V)} {n : Nat}
    (hs : s.ItemInv m n) (hb : s.built = false) (hr : s.roots = []) (rf tf lf : Nat) (trees : Int)
    (hfit : c.L.Fits (buildBound n trees)) {s' : Idx c} (h : build rf tf lf trees s = .ok s') (hne : s'.roots ≠ []) :
    ∃ s1 root f rest, buildStart s = .ok s1 ∧ makeTree rf tf s1 (liveOf m n) true = .ok (root, f) ∧
      s'.roots = root :: rest ∧ (∀ r ∈ rest, root < r) ∧ f.nNodes = root + 1 ∧
      (∀ x, x < f.nNodes * c.L.nodeSize → s'.alloc.data x = f.alloc.data x) ∧
      ∃ N0, s'.Built m n N0 ∧ f.nNodes ≤ N0 := by
  have hL := hc.layout
  obtain ⟨horder, -⟩ := build_order hc hs hb hr rf tf lf trees hfit h
  obtain ⟨N0, FB, hT1, hT2, hNle, hlast⟩ := build_spec hc hs hb hr rf tf lf trees hfit h
  obtain ⟨s1, hstart, hinv1, hsl1, hn1, _, hr1, _, hitems1, hgaps1, hpre⟩ := buildStart_spec hc hs hb
  unfold build at h
  simp only [bind, Except.bind, threadBuild, hstart] at h
  split at h
  · cases h
  · next v hv =>
    split at hv
    · cases hv
    · next u hu =>
      obtain ⟨rs, s2⟩ := u
      dsimp only at hv
      cases hv
      have hlive := liveOf_length_le m n
      set B := if trees = -1 then 2 * n + cap (liveOf m n).length
        else n + trees.toNat * cap (liveOf m n).length with hB
      have hBle : B ≤ buildBound n trees := by
        rw [hB]; unfold buildBound
        split
        · unfold cap; omega
        · have : trees.toNat * cap (liveOf m n).length ≤ trees.toNat * (2 * n + 2) :=
            Nat.mul_le_mul_left _ (by unfold cap; omega)
          omega
      have hfitB : c.L.Fits B := hfit.mono hBle
      have hnB : n ≤ B := by rw [hB]; split <;> omega
      have hBT : trees ≠ -1 → n + trees.toNat * cap (liveOf m n).length ≤ B := fun ht => by rw [hB, if_neg ht]
      have hBM : trees = -1 → 2 * n + cap (liveOf m n).length ≤ B := fun ht => by rw [hB, if_pos ht]
      obtain ⟨T1, -, -, -, -, new, T6, T7, T8, -⟩ := threadLoop_spec hc rf tf n trees m B hfitB
        hBT hBM lf s1 [] rs s2 hinv1 hsl1 (by simp; omega) (by omega) (by simp; omega) hu
      rw [List.nil_append] at T6
      subst T6
      have hroots2 : s2.roots = [] := by rw [T1.roots, hr1]; exact hr
      simp only [hroots2, List.nil_append] at h
      have hrs : s'.roots = rs := buildFinish_roots h
      have hrne : rs ≠ [] := by rw [← hrs]; exact hne
      -- the nodes of the trees
      have hN0 : N0 = s2.nNodes := by
        have e1 := T8 hrne
        rw [← hrs, hlast hne] at e1
        have e2 : N0 - 1 = s2.nNodes - 1 := by injection e1
        have e3 := FB.roots_lt _ (by exact List.mem_of_getLast? (hlast hne))
        have e4 := (T7 _ (List.mem_of_getLast? (T8 hrne))).2.1
        omega
      have hframe := buildFinish_frame hc (s2 := { s2 with roots := rs }) (n := n)
        ⟨⟨T1.inv.memOK.fits, T1.inv.memOK.size, T1.inv.memOK.nodes⟩, T1.inv.loaded, T1.inv.nItems, T1.inv.n_le, T1.inv.le_size,
          T1.inv.zero⟩ (fun r hr => (T7 r hr).2.1) (by
          have := FB.nNodes
          rw [hrs, hN0] at this
          exact hfit.mono (by show s2.nNodes + rs.length ≤ _; omega)) h
      -- the first round
      obtain _ | lf := lf
      · cases hu
      · unfold threadLoop at hu
        rw [hinv1.nItems] at hu
        by_cases hgo : (if trees = -1 then s1.nNodes ≥ c.L.wrap (2 * n) else (([] : List Nat).length : Int) ≥ trees)
        · rw [if_pos hgo] at hu
          cases hu; exact absurd rfl hrne
        · rw [if_neg hgo] at hu
          have hli := liveItems_eq hinv1 hsl1
          rw [hinv1.nItems] at hli
          simp only [bind, Except.bind, hli] at hu
          split at hu
          · cases hu
          · next v hv =>
            obtain ⟨root, f⟩ := v
            dsimp only at hu
            have hroom : s1.nNodes + cap (liveOf m n).length ≤ B := by
              by_cases ht : trees = -1
              · have := hBM ht; omega
              · rw [if_neg ht] at hgo
                have h1 := hBT ht
                have h2 : 1 ≤ trees.toNat := by simp at hgo; omega
                have h3 := Nat.mul_le_mul_right (cap (liveOf m n).length) h2
                omega
            obtain ⟨M1, M2, M3, M4, -⟩ := makeTree_spec hc rf n tf s1 (liveOf m n) true root f hinv1 hv
              (hfitB.mono hroom) (liveOf_length_le m n) (by simp) (fun x hx => hsl1.isItem hx)
              (fun _ h1 hK => hsl1.lone hL h1 hK)
            obtain ⟨M6, M7, -⟩ := M4 rfl
            have hslf := hsl1.ext hL hinv1.n_le M1
            obtain ⟨I1, -, -, -, -, new, I6, -⟩ := threadLoop_spec hc rf tf n trees m B hfitB hBT hBM lf f ([] ++ [root]) rs s2 M1.inv hslf
              (by simp; omega) (by omega) (by simp; omega) hu
            simp only [List.nil_append, List.singleton_append] at I6
            have hmono := I1.nNodes
            refine ⟨s1, root, f, new, hstart, hv, hrs.trans I6, ?_, M6, ?_, N0, FB, by omega⟩
            · rw [hrs, I6] at horder
              exact (List.pairwise_cons.1 horder).1
            · intro x hx
              rw [hframe x (by
                show x < s2.nNodes * _
                have := Nat.mul_le_mul_right c.L.nodeSize hmono
                omega)]
              exact I1.frame x hx

/-- Two builds of the same items with the same generator have the same first tree, in the same place. -/
theorem build_first_same (hc : c.WF) {s : Idx c} {m : Nat → Option (List c.N.V)} {n : Nat}
    (hs : s.ItemInv m n) (hb : s.built = false) (hr : s.roots = []) (rf tf lf rf' tf' lf' : Nat) (trees trees' : Int)
    (hfit : c.L.Fits (buildBound n trees)) (hfit' : c.L.Fits (buildBound n trees')) {s' s'' : Idx c}
    (h : build rf tf lf trees s = .ok s') (h' : build rf' tf' lf' trees' s = .ok s'') (hne : s'.roots ≠ []) (hne' : s''.roots ≠ []) :
    ∃ root N1 rest rest' N0 N0', s'.roots = root :: rest ∧ s''.roots = root :: rest' ∧ (∀ r ∈ rest, root < r) ∧ (∀ r ∈ rest', root < r) ∧
      root < N1 ∧ s'.Built m n N0 ∧ s''.Built m n N0' ∧ N1 ≤ N0 ∧ N1 ≤ N0' ∧
      ∀ x, x < N1 * c.L.nodeSize → s'.alloc.data x = s''.alloc.data x := by
  obtain ⟨s1, root, f, rest, a1, a2, a3, a4, a5, a6, N0, a7, a8⟩ := build_first hc hs hb hr rf tf lf trees hfit h hne
  obtain ⟨s1', root', f', rest', b1, b2, b3, b4, b5, b6, N0', b7, b8⟩ := build_first hc hs hb hr rf' tf' lf' trees' hfit' h' hne'
  rw [a1] at b1
  cases b1
  have e1 := makeTree_mono a2 (le_max_left rf rf') (le_max_left tf tf')
  have e2 := makeTree_mono b2 (le_max_right rf rf') (le_max_right tf tf')
  rw [e1] at e2
  cases e2
  exact ⟨root, f.nNodes, rest, rest', N0, N0', a3, b3, a4, b4, by omega, a7, b7, a8, b8, fun x hx => (a6 x hx).trans (b6 x hx).symm⟩

end Idx
end Annoy
