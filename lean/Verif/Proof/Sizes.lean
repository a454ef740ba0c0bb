import Verif.Proof.RootOrder
/-!
How many nodes a tree takes, and how many trees `Build(-1)` makes.
-/
namespace Annoy

theorem SubTree.sizes {L : Layout} {b : Bytes} {n : Nat} (hK : 2 ≤ L.K) : ∀ {t : Tree}, SubTree L b n t →
    t.inner.length + 1 ≤ t.items.length ∧ 2 * t.items.length ≤ L.K * (t.inner.length + 1)
  | .item i, _ => by simp [Tree.inner, Tree.items, hK]
  | .hole i, h => h.elim
  | .bucket i ids, h => by
    obtain ⟨-, h2, h3, -⟩ := h
    simp only [Tree.inner, Tree.items, List.length_singleton]
    omega
  | .split i l r, h => by
    obtain ⟨-, -, -, -, -, -, -, -, -, h1, h2⟩ := h
    obtain ⟨a1, a2⟩ := h1.sizes hK
    obtain ⟨b1, b2⟩ := h2.sizes hK
    simp only [Tree.inner, Tree.items, List.length_append, List.length_singleton]
    refine ⟨by omega, ?_⟩
    have e : L.K * (l.inner.length + r.inner.length + 1 + 1) = L.K * (l.inner.length + 1) + L.K * (r.inner.length + 1) := by ring
    omega

theorem RootTree.sizes {L : Layout} {b : Bytes} {n : Nat} {live : List Nat} {t : Tree} (hK : 2 ≤ L.K)
    (h : RootTree L b n live t) :
    (n ≤ L.K ∨ live.length = 1 → t.inner.length = 1) ∧
    (L.K < n → 2 ≤ live.length → t.inner.length + 1 ≤ live.length ∧ 2 * live.length ≤ L.K * (t.inner.length + 1)) ∧
    (L.K < n → live ≠ []) := by
  cases t with
  | item i => exact h.elim
  | hole i => exact h.elim
  | bucket i ids =>
    obtain ⟨-, h2, -⟩ := h
    exact ⟨fun _ => rfl, fun h => by omega, fun h => by omega⟩
  | split i l r =>
    obtain ⟨-, -, -, h4, -, -, -, h8⟩ := h
    simp only [Tree.inner, List.length_append, List.length_singleton]
    rcases h8 with ⟨n1, n2, h3, h5, h6⟩ | ⟨j, rfl, -, rfl, rfl, -⟩
    · obtain ⟨a1, a2⟩ := h5.sizes hK
      obtain ⟨b1, b2⟩ := h6.sizes hK
      have e := h3.length_eq
      rw [List.length_append] at e
      have e2 : L.K * (l.inner.length + r.inner.length + 1 + 1) = L.K * (l.inner.length + 1) + L.K * (r.inner.length + 1) := by ring
      refine ⟨fun h => by omega, fun _ _ => ⟨by omega, by omega⟩, ?_⟩
      rintro - rfl
      simp only [List.length_nil] at e
      omega
    · simp [Tree.inner]

namespace Idx
variable {c : Cfg}

/-- The loop of `Build(-1)`: before the last tree there were less than `2n` nodes.  `lo` and `hi` bound the nodes of a tree. -/
theorem threadLoop_auto (hc : c.WF) (rf tf n : Nat) (m : Nat → Option (List c.N.V))
    (B : Nat) (hB : c.L.Fits B) (hBM : 2 * n + cap (liveOf m n).length ≤ B) (lo hi : Nat)
    (hlo : ∀ b t, RootTree c.L b n (liveOf m n) t → lo ≤ t.inner.length ∧ t.inner.length ≤ hi) (fuel : Nat) :
    ∀ (s : Idx c) (done : List Nat) (rs : List Nat) (s' : Idx c),
    s.BInv n → s.Slots m n → s.nNodes ≤ n + done.length * cap (liveOf m n).length → s.nNodes ≤ B →
    n + done.length ≤ s.nNodes →
    threadLoop rf tf (-1) fuel s done = .ok (rs, s') → (c.L.Deep s'.nNodes ∨ n ≤ c.L.K) →
    ∃ new, rs = done ++ new ∧ (new ≠ [] → s.nNodes + (new.length - 1) * lo < 2 * n ∧ s'.nNodes < 2 * n + hi) := by
  have hL := hc.layout
  have hp := hL.nodeSize_pos
  induction fuel with
  | zero => intro s done rs s' _ _ _ _ _ h; cases h
  | succ fuel ih =>
    intro s done rs s' hs hsl hcap hsB hge h hd
    unfold threadLoop at h
    rw [hs.nItems] at h
    by_cases hstop : (if (-1 : Int) = -1 then s.nNodes ≥ c.L.wrap (2 * n) else (done.length : Int) ≥ -1)
    · rw [if_pos hstop] at h
      cases h
      exact ⟨[], by simp, by simp⟩
    · rw [if_neg hstop] at h
      have hgo := hstop
      have hli := liveItems_eq hs hsl
      rw [hs.nItems] at hli
      simp only [bind, Except.bind, hli] at h
      split at h
      · cases h
      · next v hv =>
        obtain ⟨root, s1⟩ := v
        dsimp only at h
        have h1c : 1 ≤ cap (liveOf m n).length := le_max_left _ _
        have h2n : 2 * n < c.L.range := by
          have := hB.lt_range hp
          omega
        rw [if_pos rfl, c.L.wrap_eq h2n] at hgo
        have hroom : s.nNodes + cap (liveOf m n).length ≤ B := by omega
        obtain ⟨M1, M2, M3, M4, M8, -, M5⟩ := makeTree_spec hc rf n tf s (liveOf m n) true root s1 hs hv
          (hB.mono hroom) (liveOf_length_le m n) (by simp) (fun x hx => hsl.isItem hx)
          (fun _ h1 hK => hsl.lone hL h1 hK)
        obtain ⟨M6, M7, M9⟩ := M4 rfl
        have hsl1 := hsl.ext hL hs.n_le M1
        have e1 : (done ++ [root]).length = done.length + 1 := by simp
        have a1 : s1.nNodes ≤ n + (done ++ [root]).length * cap (liveOf m n).length := by rw [e1, Nat.add_mul]; omega
        obtain ⟨I1, -, -, -, -, new', I6', -, -, I9', -⟩ := threadLoop_spec hc rf tf n (-1) m B hB (fun h => absurd rfl h) (fun _ => hBM)
          fuel s1 (done ++ [root]) rs s' M1.inv hsl1 a1 (by omega) (by omega) h
        obtain ⟨new, I6, I7⟩ := ih s1 (done ++ [root]) rs s' M1.inv hsl1 a1 (by omega) (by omega) h hd
        have hmono := I1.nNodes
        obtain ⟨t, ht1, ht2, ht3⟩ := M5 rfl (hd.imp (fun h => h.mono hmono) id)
        obtain ⟨q1, q2⟩ := hlo _ _ ht2.1
        have ht4 := ht3.length_eq
        rw [List.length_range'] at ht4
        have hnew : new = new' := by
          rw [I6] at I6'
          exact List.append_cancel_left I6'
        refine ⟨root :: new, by rw [I6]; simp, fun _ => ?_⟩
        by_cases hn : new = []
        · have := I9' (hnew ▸ hn)
          subst hn
          simp only [List.length_singleton]
          omega
        · obtain ⟨J1, J2⟩ := I7 hn
          refine ⟨?_, J2⟩
          obtain ⟨k, hk⟩ : ∃ k, new.length = k + 1 := ⟨new.length - 1, by have := List.length_pos_iff.2 hn; omega⟩
          simp only [List.length_cons, hk, Nat.add_sub_cancel] at J1 ⊢
          rw [Nat.add_mul]
          omega

/-- `Build(-1)` with one worker: the nodes before the last tree, and all tree nodes. -/
theorem build_auto (hc : c.WF) {s : Idx c} {m : Nat → Option (List c.N.V)} {n : Nat}
    (hs : s.ItemInv m n) (hb : s.built = false) (hr : s.roots = []) (rf tf lf : Nat)
    (hfit : c.L.Fits (buildBound n (-1))) {s' : Idx c} (h : build rf tf lf (-1) s = .ok s') (lo hi : Nat)
    (hlo : ∀ b t, RootTree c.L b n (liveOf m n) t → lo ≤ t.inner.length ∧ t.inner.length ≤ hi)
    (hd : c.L.Deep (s'.nNodes - s'.roots.length) ∨ n ≤ c.L.K) (hne : s'.roots ≠ []) :
    n + (s'.roots.length - 1) * lo < 2 * n ∧ s'.nNodes < 2 * n + hi + s'.roots.length := by
  obtain ⟨s1, hstart, hinv1, hsl1, hn1, _, hr1, _, hitems1, hgaps1, hpre⟩ := buildStart_spec hc hs hb
  obtain ⟨N0, FB, -, -, -, hlast⟩ := build_spec hc hs hb hr rf tf lf (-1) hfit h
  unfold build at h
  simp only [bind, Except.bind, threadBuild, hstart] at h
  split at h
  · cases h
  · next v hv =>
    split at hv
    · cases hv
    · next u hu =>
      obtain ⟨rs, s2⟩ := u
      dsimp only at hv
      cases hv
      have hlive := liveOf_length_le m n
      set B := 2 * n + cap (liveOf m n).length with hB
      have hBle : B ≤ buildBound n (-1) := by
        rw [hB]; unfold buildBound cap
        rw [if_pos rfl]; omega
      have hfitB : c.L.Fits B := hfit.mono hBle
      obtain ⟨T1, -, -, -, -, new', T6, T7, T8, -⟩ := threadLoop_spec hc rf tf n (-1) m B hfitB
        (fun ht => absurd rfl ht) (fun _ => le_rfl) lf s1 [] rs s2 hinv1 hsl1
        (by simp; omega) (by omega) (by simp; omega) hu
      rw [List.nil_append] at T6
      subst T6
      have hroots2 : s2.roots = [] := by rw [T1.roots, hr1]; exact hr
      simp only [hroots2, List.nil_append] at h
      have hrs : s'.roots = rs := buildFinish_roots h
      rw [hrs] at hlast hne
      have e1 := T8 hne
      rw [hlast hne] at e1
      have e2 : N0 - 1 = s2.nNodes - 1 := by injection e1
      have e3 := FB.roots_lt _ (by rw [hrs]; exact List.mem_of_getLast? (hlast hne))
      have e5 := T7 _ (List.mem_of_getLast? (T8 hne))
      have e4 : s2.nNodes = N0 := by omega
      have hN0 : s'.nNodes - s'.roots.length = N0 := by rw [FB.nNodes]; omega
      rw [hN0, ← e4] at hd
      obtain ⟨new, e, T2⟩ := threadLoop_auto hc rf tf n m B hfitB le_rfl lo hi hlo lf s1 [] rs s2 hinv1 hsl1
        (by simp; omega) (by omega) (by simp; omega) hu hd
      rw [List.nil_append] at e
      subst e
      obtain ⟨J1, J2⟩ := T2 hne
      rw [FB.nNodes, hrs]
      omega

end Idx
end Annoy
