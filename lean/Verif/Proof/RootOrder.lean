import Verif.Proof.LoadSearch
/-!
The order of the roots when one worker builds all trees.
-/
namespace Annoy

/-- An inner root over three or more items is not alone. -/
theorem RootTree.inner_two {L : Layout} {b : Bytes} {n : Nat} {live : List Nat} {t : Tree} (h : RootTree L b n live t) (hK : L.K < n)
    (hl : 3 ≤ live.length) : 2 ≤ t.inner.length := by
  cases t with
  | item i => exact h.elim
  | hole i => exact h.elim
  | bucket i ids =>
    obtain ⟨-, h2, -⟩ := h
    omega
  | split i l r =>
    obtain ⟨-, -, -, -, -, -, -, h8⟩ := h
    have inner : ∀ {u : Tree}, SubTree L b n u → 2 ≤ u.items.length → 1 ≤ u.inner.length := by
      intro u hu h2
      cases u with
      | item i => simp [Tree.items] at h2
      | hole i => exact hu.elim
      | bucket i ids => simp [Tree.inner]
      | split i l r => simp [Tree.inner]; omega
    simp only [Tree.inner, List.length_append, List.length_singleton]
    rcases h8 with ⟨-, -, h3, h4, h5⟩ | ⟨j, rfl, -⟩
    · have := h3.length_eq
      rw [List.length_append] at this
      by_cases hh : 2 ≤ l.items.length
      · have := inner h4 hh; omega
      · have := inner h5 (by omega); omega
    · simp at hl

namespace Idx
variable {c : Cfg}

theorem allocateSize_roots (s : Idx c) (k : Nat) : (s.allocateSize k).roots = s.roots := by
  unfold allocateSize
  repeat' split
  all_goals rfl

theorem copyRoots_roots (rs : List Nat) : ∀ (s : Idx c) (dst : Nat) {s' : Idx c}, copyRoots s rs dst = .ok s' → s'.roots = s.roots := by
  induction rs with
  | nil => intro s dst s' h; cases h; rfl
  | cons r rs ih =>
    intro s dst s' h
    unfold copyRoots at h
    simp only [bind, Except.bind] at h
    split at h
    · cases h
    · split at h
      · cases h
      · exact (ih _ _ h).trans rfl

theorem buildFinish_roots {s s' : Idx c} (h : s.buildFinish = .ok s') : s'.roots = s.roots := by
  unfold buildFinish at h
  simp only [bind, Except.bind] at h
  split at h
  · cases h
  · next u hu =>
    split at h
    · cases h
    · cases h
      exact (copyRoots_roots _ _ _ hu).trans (allocateSize_roots _ _)

theorem threadLoop_order (hc : c.WF) (rf tf n : Nat) (trees : Int) (m : Nat → Option (List c.N.V))
    (B : Nat) (hB : c.L.Fits B)
    (hBT : trees ≠ -1 → n + trees.toNat * cap (liveOf m n).length ≤ B)
    (hBM : trees = -1 → 2 * n + cap (liveOf m n).length ≤ B) (fuel : Nat) :
    ∀ (s : Idx c) (done : List Nat) (rs : List Nat) (s' : Idx c),
    s.BInv n → s.Slots m n → s.nNodes ≤ n + done.length * cap (liveOf m n).length → s.nNodes ≤ B →
    n + done.length ≤ s.nNodes →
    threadLoop rf tf trees fuel s done = .ok (rs, s') →
    ∃ new, rs = done ++ new ∧ new.Pairwise (· < ·) ∧ (∀ r ∈ new, s.nNodes ≤ r) ∧
      (c.L.Deep s'.nNodes → c.L.K < n → 3 ≤ (liveOf m n).length → new.Pairwise (fun a b => a + 1 < b) ∧ ∀ r ∈ new, s.nNodes < r) := by
  have hL := hc.layout
  have hp := hL.nodeSize_pos
  induction fuel with
  | zero => intro s done rs s' _ _ _ _ _ h; cases h
  | succ fuel ih =>
    intro s done rs s' hs hsl hcap hsB hge h
    unfold threadLoop at h
    rw [hs.nItems] at h
    by_cases hstop : (if trees = -1 then s.nNodes ≥ c.L.wrap (2 * n) else (done.length : Int) ≥ trees)
    · rw [if_pos hstop] at h
      cases h
      exact ⟨[], by simp, by simp, by simp, by simp⟩
    · rw [if_neg hstop] at h
      have hgo := hstop
      have hli := liveItems_eq hs hsl
      rw [hs.nItems] at hli
      simp only [bind, Except.bind, hli] at h
      split at h
      · cases h
      · next v hv =>
        obtain ⟨root, s1⟩ := v
        dsimp only at h
        have hroom : s.nNodes + cap (liveOf m n).length ≤ B := by
          by_cases ht : trees = -1
          · rw [if_pos ht] at hgo
            have := hBM ht
            have h2n : 2 * n < c.L.range := by
              have := hB.lt_range hp
              have : 1 ≤ cap (liveOf m n).length := le_max_left _ _
              omega
            rw [c.L.wrap_eq h2n] at hgo
            omega
          · rw [if_neg ht] at hgo
            have h1 := hBT ht
            have h2 : done.length + 1 ≤ trees.toNat := by omega
            have h3 := Nat.mul_le_mul_right (cap (liveOf m n).length) h2
            rw [Nat.add_mul] at h3
            omega
        obtain ⟨M1, M2, M3, M4, M8, -, M5⟩ := makeTree_spec hc rf n tf s (liveOf m n) true root s1 hs hv
          (hB.mono hroom) (liveOf_length_le m n) (by simp) (fun x hx => hsl.isItem hx)
          (fun _ h1 hK => hsl.lone hL h1 hK)
        obtain ⟨M6, M7, M9⟩ := M4 rfl
        have hsl1 := hsl.ext hL hs.n_le M1
        have e1 : (done ++ [root]).length = done.length + 1 := by simp
        have a1 : s1.nNodes ≤ n + (done ++ [root]).length * cap (liveOf m n).length := by rw [e1, Nat.add_mul]; omega
        obtain ⟨I1, -⟩ := threadLoop_spec hc rf tf n trees m B hB hBT hBM fuel s1 (done ++ [root]) rs s' M1.inv hsl1
          a1 (by omega) (by omega) h
        obtain ⟨new, I6, I7, I8, I9⟩ := ih s1 (done ++ [root]) rs s' M1.inv hsl1 a1 (by omega) (by omega) h
        have hmono := I1.nNodes
        refine ⟨root :: new, by rw [I6]; simp, List.pairwise_cons.2 ⟨fun r hr => by have := I8 r hr; omega, I7⟩, ?_, ?_⟩
        · intro r hr
          rcases List.mem_cons.1 hr with rfl | hr
          · exact M7
          · have := I8 r hr; omega
        · intro hd hK hl
          obtain ⟨t, ht1, ht2, ht3⟩ := M5 rfl (Or.inl (hd.mono hmono))
          have h2 := ht2.1.inner_two hK hl
          rw [ht3.length_eq, List.length_range'] at h2
          obtain ⟨J1, J2⟩ := I9 hd hK hl
          refine ⟨List.pairwise_cons.2 ⟨fun r hr => by have := J2 r hr; omega, J1⟩, ?_⟩
          intro r hr
          rcases List.mem_cons.1 hr with rfl | hr
          · omega
          · have := J2 r hr; omega

/-- The roots of an index built by one worker are in ascending order; with inner nodes as roots and three items or more there is a
node between two roots. -/
theorem build_order (hc : c.WF) {s : Idx c} {m : Nat → Option (List c.N.V)} {n : Nat}
    (hs : s.ItemInv m n) (hb : s.built = false) (hr : s.roots = []) (rf tf lf : Nat) (trees : Int)
    (hfit : c.L.Fits (buildBound n trees)) {s' : Idx c} (h : build rf tf lf trees s = .ok s') :
    s'.roots.Pairwise (· < ·) ∧ (c.L.Deep (s'.nNodes - s'.roots.length) → c.L.K < n → 3 ≤ (liveOf m n).length →
      s'.roots.Pairwise fun a b => a + 1 < b) := by
  obtain ⟨s1, hstart, hinv1, hsl1, hn1, _, hr1, _, hitems1, hgaps1, hpre⟩ := buildStart_spec hc hs hb
  obtain ⟨N0, FB, -, -, -, hlast⟩ := build_spec hc hs hb hr rf tf lf trees hfit h
  unfold build at h
  simp only [bind, Except.bind, threadBuild, hstart] at h
  split at h
  · cases h
  · next v hv =>
    split at hv
    · cases hv
    · next u hu =>
      obtain ⟨rs, s2⟩ := u
      dsimp only at hv
      cases hv
      have hlive := liveOf_length_le m n
      set B := if trees = -1 then 2 * n + cap (liveOf m n).length
        else n + trees.toNat * cap (liveOf m n).length with hB
      have hBle : B ≤ buildBound n trees := by
        rw [hB]; unfold buildBound
        split
        · unfold cap; omega
        · have : trees.toNat * cap (liveOf m n).length ≤ trees.toNat * (2 * n + 2) :=
            Nat.mul_le_mul_left _ (by unfold cap; omega)
          omega
      have hfitB : c.L.Fits B := hfit.mono hBle
      have hnB : n ≤ B := by rw [hB]; split <;> omega
      obtain ⟨new, e, T2, -, T4⟩ := threadLoop_order hc rf tf n trees m B hfitB
        (fun ht => by rw [hB, if_neg ht]) (fun ht => by rw [hB, if_pos ht]) lf s1 [] rs s2 hinv1 hsl1
        (by simp; omega) (by omega) (by simp; omega) hu
      rw [List.nil_append] at e
      subst e
      obtain ⟨T1, -, -, -, -, new', T6, -, T8, T9, -⟩ := threadLoop_spec hc rf tf n trees m B hfitB
        (fun ht => by rw [hB, if_neg ht]) (fun ht => by rw [hB, if_pos ht]) lf s1 [] rs s2 hinv1 hsl1
        (by simp; omega) (by omega) (by simp; omega) hu
      rw [List.nil_append] at T6
      subst T6
      have hroots2 : s2.roots = [] := by rw [T1.roots, hr1]; exact hr
      simp only [hroots2, List.nil_append] at h
      have hrs : s'.roots = rs := buildFinish_roots h
      have hN0 : s'.nNodes - s'.roots.length = N0 := by rw [FB.nNodes]; omega
      rw [hrs] at hlast ⊢
      refine ⟨T2, fun hd hK hl => ?_⟩
      rw [hrs] at hN0
      rw [hN0] at hd
      by_cases hne : rs = []
      · subst hne; exact List.Pairwise.nil
      · have e1 := T8 hne
        rw [hlast hne] at e1
        have e2 : N0 - 1 = s2.nNodes - 1 := by injection e1
        have e3 := FB.roots_lt _ (by rw [hrs]; exact List.mem_of_getLast? (hlast hne))
        have := (T4 · hK hl)
        refine (this ?_).1
        exact hd.mono (by omega)

end Idx
end Annoy
