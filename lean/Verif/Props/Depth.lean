import Verif.Props.Separation
import Verif.Props.Kiss
import Verif.Props.DotIndex
import Mathlib.Data.Nat.Log
/-!
# The trees are of logarithmic depth (C106)
-/
namespace Annoy
open Ieee

/-- Number of inner nodes on the longest way from the root of a tree down to an item or a bucket. -/
def Tree.depth : Tree → Nat
  | .split _ l r => max l.depth r.depth + 1
  | _ => 0

/-- A division that passes the test `splitImbalance(left, right) <= 0.99` leaves at least nine items in a thousand on either side. -/
structure Shrinks (c : Cfg) : Prop where
  le : ∀ l r, c.le99 l r = true → l + r < 2 ^ 64 → 1000 * max l r ≤ 991 * (l + r)
  range : c.L.range ≤ 2 ^ 64

theorem imbalanceLe99_shrinks {l r : Nat} (h : imbalanceLe99 l r = true) (hl : 1 ≤ l) (hr : 1 ≤ r) (hb : l + r < 2 ^ 64) :
    1000 * max l r ≤ 991 * (l + r) := by
  by_contra hn
  have h1 := (C77_share l r hl hr hb).2.2.2
  rw [h1] at h
  · cases h
  · have hl' : (1 : ℝ) ≤ l := by exact_mod_cast hl
    have hr' : (1 : ℝ) ≤ r := by exact_mod_cast hr
    have hn' : (991 : ℝ) * (l + r) < 1000 * max (l : ℝ) r := by
      have := not_le.1 hn
      rw [← Nat.cast_max]
      exact_mod_cast this
    rw [lt_div_iff₀ (by linarith)]
    linarith

theorem angular_shrinks {N : Num} {C : Codec N.V} {R : Rng} {sI : List Nat → List Nat}
    {sP : List (N.V × Nat) → List (N.V × Nat)} {k f : Nat} (hc : (angularCfg N C R sI sP k f).WF) (hk : k ≤ 8) :
    Shrinks (angularCfg N C R sI sP k f) :=
  ⟨fun l r h hb => imbalanceLe99_shrinks h (hc.le99 l r h).1 (hc.le99 l r h).2 hb,
    Nat.pow_le_pow_right (by decide) (show 8 * k ≤ 64 by omega)⟩

theorem dot_shrinks {N : Num} {C : Codec N.V} {R : Rng} {sI : List Nat → List Nat}
    {sP : List (N.V × Nat) → List (N.V × Nat)} {k f : Nat} (hc : (dotCfg N C R sI sP k f).WF) (hk : k ≤ 8) :
    Shrinks (dotCfg N C R sI sP k f) :=
  ⟨fun l r h hb => imbalanceLe99_shrinks h (hc.le99 l r h).1 (hc.le99 l r h).2 hb,
    Nat.pow_le_pow_right (by decide) (show 8 * k ≤ 64 by omega)⟩

theorem Index32.shrinks {c : Cfg} (h : Index32 c) : Shrinks c := by
  have := h.wf
  cases h with
  | angular32 => exact angular_shrinks this (by decide)
  | angular64 => exact angular_shrinks this (by decide)
  | dot32 => exact dot_shrinks this (by decide)
  | dot64 => exact dot_shrinks this (by decide)

/-! ### powers of 1000/991 -/

theorem ratio_double : (2 : ℝ) ≤ (1000 / 991) ^ 77 := by norm_num

theorem ratio_one : (1 : ℝ) ≤ 1000 / 991 := by norm_num

theorem ratio_clog (n F : Nat) (h : 77 * Nat.clog 2 n ≤ F) : (n : ℝ) ≤ (1000 / 991) ^ F := by
  calc (n : ℝ) ≤ ((2 ^ Nat.clog 2 n : Nat) : ℝ) := by exact_mod_cast Nat.le_pow_clog (by decide) n
    _ = 2 ^ Nat.clog 2 n := by push_cast; rfl
    _ ≤ ((1000 / 991) ^ 77) ^ Nat.clog 2 n := pow_le_pow_left₀ (by norm_num) ratio_double _
    _ = (1000 / 991) ^ (77 * Nat.clog 2 n) := (pow_mul _ _ _).symm
    _ ≤ (1000 / 991) ^ F := pow_le_pow_right₀ ratio_one h

theorem depth_clog {d n : Nat} (h : ((1000 : ℝ) / 991) ^ d ≤ n) : d ≤ 77 * Nat.clog 2 n := by
  have h1 : (2 : ℝ) ^ d ≤ 2 ^ (77 * Nat.clog 2 n) := by
    calc (2 : ℝ) ^ d ≤ ((1000 / 991) ^ 77) ^ d := pow_le_pow_left₀ (by norm_num) ratio_double _
      _ = ((1000 / 991) ^ d) ^ 77 := by rw [← pow_mul, ← pow_mul, Nat.mul_comm]
      _ ≤ (n : ℝ) ^ 77 := pow_le_pow_left₀ (by positivity) h _
      _ ≤ (2 ^ Nat.clog 2 n) ^ 77 :=
        pow_le_pow_left₀ (by positivity) (by exact_mod_cast Nat.le_pow_clog (b := 2) (by decide) n) _
      _ = 2 ^ (77 * Nat.clog 2 n) := by rw [← pow_mul, Nat.mul_comm]
  have h2 : (2 : Nat) ^ d ≤ 2 ^ (77 * Nat.clog 2 n) := by exact_mod_cast h1
  exact (Nat.pow_le_pow_iff_right (by decide)).1 h2

theorem ratio_child {k a b : Nat} (h : 1000 * max a b ≤ 991 * (a + b)) (hk : ((1000 : ℝ) / 991) ^ k ≤ (max a b : Nat)) :
    ((1000 : ℝ) / 991) ^ (k + 1) ≤ (a + b : Nat) := by
  have h' : (1000 : ℝ) * (max a b : Nat) ≤ 991 * (a + b : Nat) := by exact_mod_cast h
  rw [pow_succ]
  linarith

/-! ### the stored trees -/

theorem SidedTree.depth {c : Cfg} (hs : Shrinks c) {b : Bytes} {n : Nat} {t : Tree} (h : SubTree c.L b n t) (h' : Sided c b n t)
    (hlt : t.items.length < 2 ^ 64) : ((1000 : ℝ) / 991) ^ t.depth ≤ t.items.length := by
  induction t with
  | item i => simp [Tree.depth, Tree.items]
  | hole i => exact h.elim
  | bucket i ids =>
    have := h.2.1
    simp only [Tree.depth, Tree.items, pow_zero, Nat.one_le_cast]
    omega
  | split i l r ihl ihr =>
    obtain ⟨-, -, -, -, -, -, -, -, h9, h10, h11⟩ := h
    rcases h' with ⟨⟨m, ⟨h99, -⟩, -⟩, h2, h3⟩ | ⟨⟨j, k, -, rfl⟩, -⟩
    · simp only [Tree.items, List.length_append] at hlt ⊢
      have hl := ihl h10 h2 (by omega)
      have hr := ihr h11 h3 (by omega)
      apply ratio_child (hs.le _ _ h99 hlt)
      rcases le_total l.depth r.depth with e | e
      · rw [max_eq_right e]
        exact hr.trans (by exact_mod_cast le_max_right _ _)
      · rw [max_eq_left e]
        exact hl.trans (by exact_mod_cast le_max_left _ _)
    · exact h11.elim

theorem SidedRoot.depth {c : Cfg} (hK : 2 ≤ c.L.K) (hs : Shrinks c) {b : Bytes} {n : Nat} {live : List Nat} {t : Tree}
    (h : SidedRoot c b n live t) (hlive : live.length ≤ n) (hn : n < 2 ^ 64) : t.depth ≤ 77 * Nat.clog 2 n := by
  obtain ⟨h, h'⟩ := h
  cases t with
  | item i => exact h.elim
  | hole i => exact h.elim
  | bucket i ids => exact Nat.zero_le _
  | split i l r =>
    obtain ⟨-, -, -, h4, -, -, -, h8⟩ := h
    rcases h8 with ⟨-, -, hp, hl, hr⟩ | ⟨j, rfl, -, rfl, rfl, -⟩
    · have hlen := hp.length_eq
      rw [List.length_append] at hlen
      apply depth_clog
      rcases h' with ⟨⟨m, ⟨h99, -⟩, -⟩, h2, h3⟩ | ⟨⟨j, k, -, rfl⟩, -⟩
      · have hl := SidedTree.depth hs hl h2 (by omega)
        have hr := SidedTree.depth hs hr h3 (by omega)
        refine le_trans (ratio_child (hs.le _ _ h99 (by omega)) ?_) (by exact_mod_cast (by omega : l.items.length + r.items.length ≤ n))
        rcases le_total l.depth r.depth with e | e
        · rw [max_eq_right e]
          exact hr.trans (by exact_mod_cast le_max_right _ _)
        · rw [max_eq_left e]
          exact hl.trans (by exact_mod_cast le_max_left _ _)
      · exact hr.elim
    · have : 0 < Nat.clog 2 n := Nat.clog_pos (by decide) (by omega)
      show max 0 0 + 1 ≤ _
      omega

/-- A walk ends after as many levels as the tree has. -/
theorem Holds.walk_depth {b : Bytes} {n : Nat} {L : Layout} (hK : 1 ≤ L.K) {t : Tree} (h : Holds L b n t) :
    ∀ fuel, t.depth < fuel → Annoy.walk L b n fuel t.root = some t.items := by
  induction t with
  | item i =>
    intro fuel hf
    obtain _ | fuel := fuel
    · simp at hf
    rw [Annoy.walk, if_pos ⟨h.2, h.1⟩]; rfl
  | hole i =>
    intro fuel hf
    obtain _ | fuel := fuel
    · simp at hf
    exact Holds.walk hK h (fuel + 1) (by simp [Tree.size])
  | bucket i ids =>
    intro fuel hf
    obtain _ | fuel := fuel
    · simp at hf
    exact Holds.walk hK h (fuel + 1) (by simp [Tree.size])
  | split i l r ihl ihr =>
    intro fuel hf
    simp only [Tree.depth] at hf
    obtain _ | fuel := fuel
    · omega
    obtain ⟨h1, h2, h3, h4, h5⟩ := h
    show Annoy.walk L b n (fuel + 1) i = _
    rw [Annoy.walk, if_neg (by omega), if_neg (by omega), h2, h3, ihl h4 fuel (by omega), ihr h5 fuel (by omega)]
    rfl

namespace Session
variable {c : Cfg} {numCPU : Nat} {pol : BuildPolicy} {adds : List (Nat × List c.N.V)} {trees workers : Int} {s s' : Idx c}

/-- **C106**, the stored trees, given that inner nodes survive (`SplitsKept`): whatever was added - a million times the same vector, vectors
with NaN, whatever - no tree of a built index is deeper than 77 times the logarithm of the number of slots: every way down from a
root meets an item or a bucket after at most so many inner nodes.  For either policy and every schedule. -/
theorem C106_depth (h : Session c numCPU pol adds trees workers s s')
    (hk : SplitsKept c numCPU pol (slotCount adds) trees workers) (hs : Shrinks c) :
    (∃ ts : List Tree, ts.map Tree.root = s'.roots ∧
      ∀ t ∈ ts, RootTree c.L s'.alloc.data s'.nItems (addedIds adds) t ∧ t.depth ≤ 77 * Nat.clog 2 (slotCount adds)) ∧
    ∀ r ∈ s'.roots, (walk c.L s'.alloc.data s'.nItems (77 * Nat.clog 2 (slotCount adds) + 1) r).isSome := by
  obtain ⟨N0, B, hN, _⟩ := h.built
  obtain ⟨ts, h1, h2, -⟩ := B.sided (by
    rcases hk with hk | hk
    · exact Or.inr hk
    · exact Or.inl (hk.mono (by have := B.nNodes; omega)))
  have hn : slotCount adds < 2 ^ 64 := by
    have h1 := h.fits.lt_range h.wf.layout.nodeSize_pos
    have h2 := hs.range
    have h3 : slotCount adds ≤ treeRoom numCPU pol (slotCount adds) trees workers := by
      have := B.nNodes
      have := B.n_le
      omega
    omega
  have hK := h.wf.layout.K_ge
  have hd : ∀ t ∈ ts, t.depth ≤ 77 * Nat.clog 2 (slotCount adds) := fun t ht =>
    SidedRoot.depth hK hs (h2 t ht) (by
      refine (List.length_filter_le _ _).trans ?_
      simp) hn
  rw [B.nItems]
  refine ⟨⟨ts, h1, fun t ht => ⟨(h2 t ht).1, hd t ht⟩⟩, fun r hr => ?_⟩
  rw [← h1] at hr
  obtain ⟨t, ht, rfl⟩ := List.mem_map.1 hr
  rw [(h2 t ht).1.holds.walk_depth (by omega) _ (Nat.lt_succ_of_le (hd t ht))]
  rfl

end Session

/-! ### the recursion of `makeTree` -/

namespace Idx
variable {c : Cfg}

theorem makeTree_shallow (hc : c.WF) (hs : Shrinks c) {rf tf : Nat} : ∀ {s : Idx c} {ids : List Nat} {isRoot : Bool} {x} {F : Nat},
    makeTree rf tf s ids isRoot = .ok x → ids.length < 2 ^ 64 → (ids.length : ℝ) ≤ (1000 / 991) ^ F →
    makeTree rf (F + 1) s ids isRoot = .ok x := by
  induction tf with
  | zero => intro s ids isRoot x F h; cases h
  | succ tf ih =>
    intro s ids isRoot x F h hlt hF
    unfold makeTree at h ⊢
    split
    · exact h
    · next hnot =>
      split at h
      · exact absurd rfl (hnot _ rfl)
      · split
        · next h1 => rw [if_pos h1] at h; exact h
        · next h1 =>
          rw [if_neg h1] at h
          simp only [bind, Except.bind] at h ⊢
          split at h
          · cases h
          · next v hv =>
            obtain ⟨m, l, rt, s1⟩ := v
            obtain ⟨hp, -⟩ := chooseSplit_spec hc _ _ _ hv
            have h99 := chooseSplit_le99 _ _ _ hv
            have hlen := hp.length_eq
            rw [List.length_append] at hlen
            obtain ⟨p1, p2⟩ := hc.le99 _ _ h99
            have hle := hs.le _ _ h99 (by omega)
            obtain ⟨F, rfl⟩ : ∃ k, F = k + 1 := by
              obtain _ | F := F
              · rw [pow_zero] at hF
                have : ids.length ≤ 1 := by exact_mod_cast hF
                omega
              · exact ⟨F, rfl⟩
            have hsub : ∀ k : Nat, k ≤ max l.length rt.length → (k : ℝ) ≤ (1000 / 991) ^ F := by
              intro k hk
              have e1 : (1000 : ℝ) * k ≤ 991 * ids.length := by
                exact_mod_cast (by omega : 1000 * k ≤ 991 * ids.length)
              rw [pow_succ] at hF
              linarith
            dsimp only at h ⊢
            split
            · next h2 =>
              rw [if_pos h2] at h
              split at h
              · cases h
              · next v1 hv1 =>
                rw [ih hv1 (by omega) (hsub _ (le_max_right _ _))]
                dsimp only
                split at h
                · cases h
                · next v2 hv2 =>
                  rw [ih hv2 (by omega) (hsub _ (le_max_left _ _))]
                  exact h
            · next h2 =>
              rw [if_neg h2] at h
              split at h
              · cases h
              · next v1 hv1 =>
                rw [ih hv1 (by omega) (hsub _ (le_max_left _ _))]
                dsimp only
                split at h
                · cases h
                · next v2 hv2 =>
                  rw [ih hv2 (by omega) (hsub _ (le_max_right _ _))]
                  exact h

theorem mapM_except_length {α β : Type} {f : α → Except Err β} : ∀ {l : List α} {ks : List β}, l.mapM f = .ok ks → ks.length = l.length
  | [], ks, h => by cases h; rfl
  | a :: l, ks, h => by
    simp only [List.mapM_cons, bind, Except.bind, pure, Except.pure] at h
    split at h
    · cases h
    · split at h
      · cases h
      · next k1 hk1 =>
        cases h
        simp [mapM_except_length hk1]

theorem liveItems_length {mem : Block} {n : Nat} {ids : List Nat} (h : liveItems c mem n = .ok ids) : ids.length ≤ n := by
  simp only [liveItems, bind, Except.bind] at h
  split at h
  · cases h
  · next ks hks =>
    cases h
    rw [List.length_map]
    refine (List.length_filter_le _ _).trans ?_
    have := mapM_except_length hks
    simp at this
    omega

theorem threadLoop_shallow (hc : c.WF) (hs : Shrinks c) {rf tf : Nat} {trees : Int} {lf : Nat} : ∀ {s : Idx c} {done : List Nat} {x},
    threadLoop rf tf trees lf s done = .ok x → s.nItems < 2 ^ 64 →
    threadLoop rf (77 * Nat.clog 2 s.nItems + 1) trees lf s done = .ok x := by
  induction lf with
  | zero => intro s done x h; cases h
  | succ lf ih =>
    intro s done x h hn
    unfold threadLoop at h ⊢
    by_cases h1 : (if trees = -1 then s.nNodes ≥ c.L.wrap (2 * s.nItems) else (done.length : Int) ≥ trees)
    · rw [if_pos h1] at h ⊢; exact h
    · rw [if_neg h1] at h ⊢
      simp only [bind, Except.bind] at h ⊢
      split at h
      · cases h
      · next ids hids =>
        split at h
        · cases h
        · next v hv =>
          obtain ⟨root, s1⟩ := v
          have hl := liveItems_length hids
          rw [makeTree_shallow hc hs hv (by omega) (ratio_clog _ _ (Nat.mul_le_mul_left _ (Nat.clog_mono_right 2 hl)))]
          have e := (makeTree_counts hv).1
          have := ih h (by rw [e]; exact hn)
          rw [e] at this
          exact this

end Idx

/-- **C106**, the recursion, without any condition on what is stored: whenever `Build` with the single policy comes to its end, its recursion
(`makeTree` calls itself for the two sides) was never deeper than 77 times the logarithm of the number of slots: with a recursion
limited to that depth the same index is built. -/
theorem C106_recursion {c : Cfg} (hc : c.WF) (hs : Shrinks c) {rf tf lf : Nat} {trees : Int} {s s' : Idx c} (hn : s.nItems < 2 ^ 64)
    (h : s.build rf tf lf trees = .ok s') : s.build rf (77 * Nat.clog 2 s.nItems + 1) lf trees = .ok s' := by
  unfold Idx.build at h ⊢
  simp only [bind, Except.bind] at h ⊢
  split at h
  · cases h
  · next s1 h1 =>
    have e : s1.nItems = s.nItems := by
      unfold Idx.buildStart at h1
      split at h1
      · cases h1
      · split at h1
        · cases h1
        · cases h1; rfl
    split at h
    · cases h
    · next s2 h2 =>
      unfold Idx.threadBuild at h2 ⊢
      simp only [bind, Except.bind] at h2 ⊢
      split at h2
      · cases h2
      · next v hv =>
        have := Idx.threadLoop_shallow hc hs hv (by rw [e]; exact hn)
        rw [e] at this
        rw [this]
        dsimp only at h2 ⊢
        cases h2
        exact h

/-- The hypotheses can be met: the index of twenty vectors with three trees, built by the default generator. -/
example : ∃ (s s' : Idx (angular32 4 12)), Session (angular32 4 12) 1 .single (longAdds 20) 3 1 s s' ∧
    SplitsKept (angular32 4 12) 1 .single (slotCount (longAdds 20)) 3 1 ∧ Shrinks (angular32 4 12) ∧
    s'.roots.length = 3 ∧ (angular32 4 12).L.K < slotCount (longAdds 20) := by
  have hi : Index32 (angular32 4 12) := .angular32 (by decide) (by decide)
  obtain ⟨s, s', -, h, h1, -⟩ := C76_build hi 1 (longAdds 20) (legalAdds_of (by decide +kernel)) (Kiss32.new 0) 0 3 1
    (by decide +kernel)
  exact ⟨s, s', h, splitsKept_of_length h.wf (by decide) h.fits, hi.shrinks, h1 (by decide), by decide +kernel⟩

end Annoy
