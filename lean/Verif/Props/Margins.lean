import Verif.Proof.SteadyIeee
import Verif.Props.Separation
import Verif.Props.FirstTree
import Verif.Props.Accuracy
/-!
# Margins of ordinary data are finite (C89)

Several properties of searches (C64, C71, C86 - C88) hold when the margins of the query at the inner nodes are finite.  Here: when
the components of the items and of the query are finite and not astronomically large, all margins are, whatever the
generator does.  So these properties hold for all ordinary data.
-/
namespace Annoy
open Ieee

/-- An inner node of a tree in memory is a bucket or has two subtrees. -/
theorem SubTree.splits_of_inner {L : Layout} {b : Bytes} {n : Nat} {t : Tree} (h : SubTree L b n t) {i : Nat} (hi : i ∈ t.inner)
    (hK : L.K < ndAt L b i) : ∃ l r, (i, l, r) ∈ t.splits := by
  induction t with
  | item j => simp [Tree.inner] at hi
  | hole j => simp [Tree.inner] at hi
  | bucket j ids =>
    obtain rfl : i = j := by simpa [Tree.inner] using hi
    obtain ⟨-, -, h1, h2, -⟩ := h
    omega
  | split j l r ihl ihr =>
    obtain ⟨-, -, -, -, -, -, -, -, -, hl, hr⟩ := h
    simp only [Tree.inner, List.mem_append, List.mem_singleton] at hi
    rcases hi with (hi | hi) | rfl
    · obtain ⟨x, y, hxy⟩ := ihl hl hi
      exact ⟨x, y, by simp [Tree.splits, hxy]⟩
    · obtain ⟨x, y, hxy⟩ := ihr hr hi
      exact ⟨x, y, by simp [Tree.splits, hxy]⟩
    · exact ⟨l, r, by simp [Tree.splits]⟩

theorem RootTree.splits_of_inner {L : Layout} {b : Bytes} {n : Nat} {live : List Nat} {t : Tree} (h : RootTree L b n live t) {i : Nat}
    (hi : i ∈ t.inner) (hK : L.K < ndAt L b i) : ∃ l r, (i, l, r) ∈ t.splits := by
  cases t with
  | item j => exact h.elim
  | hole j => exact h.elim
  | bucket j ids =>
    obtain rfl : i = j := by simpa [Tree.inner] using hi
    obtain ⟨-, h1, h2, -⟩ := h
    omega
  | split j l r =>
    obtain ⟨-, -, -, -, -, -, -, h⟩ := h
    simp only [Tree.inner, List.mem_append, List.mem_singleton] at hi
    rcases h with ⟨-, -, -, hl, hr⟩ | ⟨j', -, -, rfl, rfl, -⟩
    · rcases hi with (hi | hi) | rfl
      · obtain ⟨x, y, hxy⟩ := hl.splits_of_inner hi hK
        exact ⟨x, y, by simp [Tree.splits, hxy]⟩
      · obtain ⟨x, y, hxy⟩ := hr.splits_of_inner hi hK
        exact ⟨x, y, by simp [Tree.splits, hxy]⟩
      · exact ⟨l, r, by simp [Tree.splits]⟩
    · rcases hi with (hi | hi) | rfl
      · simp [Tree.inner] at hi
      · simp [Tree.inner] at hi
      · exact ⟨_, _, List.mem_cons_self⟩

section
variable {N : Num} {val : N.V → ℝ} {Fin : N.V → Prop} {u t M : ℝ}

/-- A blank vector. -/
theorem Small.blank {L : Layout} {C : Codec N.V} (hL : L.Ok C.sz) (hC : CutTiny C val Fin) {b : Bytes} {a : Nat} {X : ℝ} (hX : 1 ≤ X)
    (hout : ∀ j, L.offV ≤ j → j < L.nodeSize → b (a + j) = 0) : Small val Fin X (Node.vec L C b a) := by
  intro x hx
  unfold Node.vec at hx
  obtain ⟨k, hk, rfl⟩ := List.mem_map.1 hx
  have hk' := List.mem_range.1 hk
  have hsz := hL.sz_pos
  have hend : k * C.sz + C.sz ≤ L.f * C.sz := by rw [← Nat.succ_mul]; exact Nat.mul_le_mul_right _ hk'
  have hsize := hL.size_eq
  obtain ⟨z, hz⟩ : ∃ z, C.sz = z + 1 := ⟨C.sz - 1, by omega⟩
  have e : readBytes b (a + L.offV + k * C.sz) C.sz = readBytes b (a + L.offV + k * C.sz) z ++ [0] := by
    have := hout (L.offV + k * C.sz + z) (by omega) (by omega)
    unfold readBytes
    rw [hz, List.range_succ, List.map_append]
    congr 1
    simp only [List.map_cons, List.map_nil]
    rw [← this]
    congr 2
    rw [hz]; omega
  rw [e]
  obtain ⟨h1, h2⟩ := hC (readBytes b (a + L.offV + k * C.sz) z) (by simp [hz])
  exact ⟨h1, h2.trans hX⟩

/-- The stored vectors of inner nodes have components of at most `X`, if those of hyperplanes do. -/
theorem Session.stored {c : Cfg} {val : c.N.V → ℝ} {Fin : c.N.V → Prop} (hz : Fin c.N.zero ∧ val c.N.zero = 0) (hC : CutTiny c.C val Fin)
    {B X : ℝ} (hX : 1 ≤ X)
    (hsplit : ∀ mem addrs r m m' r', (∀ a ∈ addrs, Small val Fin B (Node.vec c.L c.C mem a)) →
      c.D.createSplit mem addrs r m = .ok (m', r') → Small val Fin X (Node.vec c.L c.C m' 0))
    {numCPU : Nat} {pol : BuildPolicy} {adds : List (Nat × List c.N.V)} {trees workers : Int} {s s' : Idx c}
    (h : Session c numCPU pol adds trees workers s s') (hs : SplitsKept c numCPU pol (slotCount adds) trees workers)
    (hitems : ∀ i v, lastAdded adds i = some v → Small val Fin B v) {i : Nat} (h1 : s'.nItems ≤ i) (h2 : i + s'.roots.length < s'.nNodes)
    (hK : c.L.K < ndAt c.L s'.alloc.data i) : Small val Fin X (Node.vec c.L c.C s'.alloc.data (i * c.L.nodeSize)) := by
  obtain ⟨N0, B0, hN, _⟩ := h.built
  have hL := h.wf.layout
  have hNN := B0.nNodes
  have hnI := B0.nItems
  obtain ⟨ts, t1, t2, t3⟩ := B0.sided (by
    rcases hs with hs | hs
    · exact Or.inr hs
    · exact Or.inl (hs.mono (by omega)))
  have hi : i ∈ ts.flatMap Tree.inner := t3.mem_iff.2 (List.mem_range'_1.2 ⟨by omega, by have := B0.n_le; omega⟩)
  obtain ⟨t, ht, hi⟩ := List.mem_flatMap.1 hi
  obtain ⟨l, r, hp⟩ := (t2 t ht).1.splits_of_inner hi hK
  have hoff := hL.offV_ge
  rcases (t2 t ht).2.splits _ hp with ⟨m, e0', e5⟩ | ⟨⟨j, j', e1, e2⟩, e3⟩
  · obtain ⟨-, m0, ids, e1, ⟨d, r1, m1, r2, e2, e0, e3⟩, e4⟩ := e0'.simple
    have hblank := (B0.downward i (by omega) (by omega)).2.2 hK
    have hm : Small val Fin X (Node.vec c.L c.C m 0) := by
      rcases e4 with ⟨rfl, -⟩ | rfl
      · refine hsplit _ _ _ _ _ _ ?_ e3
        intro a ha
        obtain ⟨x, hx, rfl⟩ := List.mem_map.1 ha
        have hx : x ∈ addedIds adds := by
          have ht' := (t2 t ht).1
          have hx := t.splits_items _ hp x (List.mem_append.1 (e1.mem_iff.1 hx))
          cases t with
          | item i => exact ht'.elim
          | hole i => exact ht'.elim
          | bucket i ids => simp [Tree.splits] at hp
          | split i l r =>
            obtain ⟨-, -, -, -, -, -, -, h⟩ := ht'
            rcases h with ⟨-, -, h, -, -⟩ | ⟨j, h, -, rfl, rfl, -⟩
            · exact h.mem_iff.1 hx
            · rw [show addedIds adds = [j] from h]
              simpa [Tree.items] using hx
        obtain ⟨v, hv⟩ := Option.isSome_iff_exists.1 (mem_addedIds.1 hx)
        have hvec := (B0.items x v hv).vec
        have hlt := B0.bound x v hv
        have e : Node.vec c.L c.C d (x * c.L.nodeSize) = v := by
          refine Eq.trans ?_ hvec
          apply Node.vec_congr
          intro j hj
          apply e2
          have := hL.size_eq
          have h3 : (x + 1) * c.L.nodeSize ≤ slotCount adds * c.L.nodeSize := Nat.mul_le_mul_right _ hlt
          rw [Nat.succ_mul] at h3
          omega
        rw [e]
        exact hitems x v hv
      · rw [Node.vec_setVec _ _ _ _ (by simp)]
        intro x hx
        rw [List.eq_of_mem_replicate hx]
        refine ⟨hz.1, ?_⟩
        rw [hz.2, abs_zero]
        linarith
    refine Small.cut hL hC hX (m := m) (a' := 0) (fun j j1 j2 => ?_) (fun j j1 j2 j3 => hblank j (max_le j2 (by omega)) j3) hm
    rw [zero_add]
    exact e5 j (by omega) j2
  · exact Small.blank hL hC hX fun j j1 j2 => e3 j (by omega) j2

variable {C : Codec N.V} {R : Rng} {sI : List Nat → List Nat} {sP : List (N.V × Nat) → List (N.V × Nat)} {k f numCPU : Nat} {pol : BuildPolicy}
  {adds : List (Nat × List N.V)} {trees workers : Int} {s s' : Idx (angularCfg N C R sI sP k f)}

/-- **C89**, in terms of an arithmetic. -/
theorem Steady.finiteMargins (K : Steady N val Fin u t M) (hC : CutTiny C val Fin) {B X Q : ℝ} (P : Room u t M f B X) (hB : 1 ≤ B)
    (hQ : 0 ≤ Q) (hQM : 3 * (f * (X * Q)) + 2 ≤ M) (h : Session (angularCfg N C R sI sP k f) numCPU pol adds trees workers s s')
    (hs : SplitsKept (angularCfg N C R sI sP k f) numCPU pol (slotCount adds) trees workers)
    (hitems : ∀ i v, lastAdded adds i = some v → Small val Fin B v) (w : World) {q : List N.V} (hf : 0 < f) (hq : q.length = f) (hqs : Small val Fin Q q) :
    FiniteMargins s' w q := by
  intro i h1 h2 hK
  obtain ⟨N0, B0, _⟩ := h.built
  have e := (B0.mem_eq w (by omega)).1
  rw [e] at hK ⊢
  obtain ⟨y, hy⟩ := angular_marginOk (C := C) (R := R) (sI := sI) (sP := sP) (k := k) hq hf s'.alloc.data (i * (angularCfg N C R sI sP k f).L.nodeSize)
  refine ⟨y, hy, ?_⟩
  rw [angular_margin_eq hy]
  exact K.finite _ (K.margin P hQ hQM (Node.vec_length _ _ _) hq (h.stored K.approx.zero hC P.R1
    (fun _ _ _ _ _ _ ha he => K.createSplit h.wf.layout hC P hB ha he) hs hitems h1 h2 hK) hqs)
end

theorem room32 {f : Nat} (hf : f ≤ 2 ^ 17) : Room (2 ^ (-24 : Int)) (2 ^ (-149 : Int)) (2 ^ 127) f (2 ^ 54) (2 ^ 12) := by
  have h0 : (0 : ℝ) ≤ f := Nat.cast_nonneg f
  have h1 : (f : ℝ) ≤ 2 ^ 17 := by exact_mod_cast hf
  have h1' : (f : ℝ) ≤ 131072 := h1.trans (by norm_num)
  refine ⟨?_, ?_, by positivity, ?_, by norm_num, ?_, ?_, by norm_num⟩
  · have h2 : (f : ℝ) * 2 ^ (-24 : Int) ≤ 2 ^ 17 * 2 ^ (-24 : Int) := mul_le_mul_of_nonneg_right h1 (by positivity)
    exact (mul_le_mul_of_nonneg_left h2 (by norm_num)).trans (by norm_num)
  · have h2 : (f : ℝ) * 2 ^ (-149 : Int) ≤ 2 ^ 17 * 2 ^ (-149 : Int) := mul_le_mul_of_nonneg_right h1 (by positivity)
    exact (mul_le_mul_of_nonneg_left h2 (by norm_num)).trans (by norm_num)
  · have h2 : (f : ℝ) * (2 ^ 54 * 2 ^ 54) ≤ 2 ^ 17 * (2 ^ 54 * 2 ^ 54) := mul_le_mul_of_nonneg_right h1 (by positivity)
    calc _ ≤ (3 : ℝ) * (2 ^ 17 * (2 ^ 54 * 2 ^ 54)) + 2 := by linarith
      _ ≤ _ := by norm_num
  · norm_num
    linarith
  · norm_num
    linarith

theorem room64 {f : Nat} (hf : f ≤ 2 ^ 46) : Room (2 ^ (-53 : Int)) (2 ^ (-1074 : Int)) (2 ^ 1000) f (2 ^ 476) (2 ^ 27) := by
  have h0 : (0 : ℝ) ≤ f := Nat.cast_nonneg f
  have h1 : (f : ℝ) ≤ 2 ^ 46 := by exact_mod_cast hf
  have h1' : (f : ℝ) ≤ 70368744177664 := h1.trans (by norm_num)
  refine ⟨?_, ?_, by positivity, ?_, by norm_num, ?_, ?_, ?_⟩
  · have h2 : (f : ℝ) * 2 ^ (-53 : Int) ≤ 2 ^ 46 * 2 ^ (-53 : Int) := mul_le_mul_of_nonneg_right h1 (by positivity)
    exact (mul_le_mul_of_nonneg_left h2 (by norm_num)).trans (by norm_num)
  · have h2 : (f : ℝ) * 2 ^ (-1074 : Int) ≤ 2 ^ 46 * 2 ^ (-1074 : Int) := mul_le_mul_of_nonneg_right h1 (by positivity)
    refine (mul_le_mul_of_nonneg_left h2 (by norm_num)).trans ?_
    have h3 : (2 : ℝ) ^ (-1074 : Int) ≤ 2 ^ (-53 : Int) := zpow_le_zpow_right₀ (by norm_num) (by norm_num)
    have h4 : (2 : ℝ) ^ 46 * 2 ^ (-1074 : Int) ≤ 2 ^ 46 * 2 ^ (-53 : Int) := mul_le_mul_of_nonneg_left h3 (by positivity)
    exact (mul_le_mul_of_nonneg_left h4 (by norm_num)).trans (by norm_num)
  · have h2 : (f : ℝ) * (2 ^ 476 * 2 ^ 476) ≤ 2 ^ 46 * (2 ^ 476 * 2 ^ 476) := mul_le_mul_of_nonneg_right h1 (by positivity)
    have e : (2 : ℝ) ^ 46 * (2 ^ 476 * 2 ^ 476) = 2 ^ 998 := by rw [← pow_add, ← pow_add]
    have h3 : (2 : ℝ) ≤ 2 ^ 998 := le_self_pow₀ (by norm_num) (by norm_num)
    have h4 : (2 : ℝ) ^ 1000 = 4 * 2 ^ 998 := by rw [show 1000 = 2 + 998 by norm_num, pow_add]; norm_num
    rw [e] at h2
    rw [h4]
    generalize (f : ℝ) * (2 ^ 476 * 2 ^ 476) = x at h2 ⊢
    generalize (2 : ℝ) ^ 998 = y at h2 h3 ⊢
    linarith
  · norm_num
    linarith
  · refine le_trans ?_ (pow_le_pow_right₀ (by norm_num : (1 : ℝ) ≤ 2) (show 200 ≤ 1000 by norm_num))
    norm_num
    linarith
  · refine le_trans ?_ (pow_le_pow_right₀ (by norm_num : (1 : ℝ) ≤ 2) (show 200 ≤ 1000 by norm_num))
    norm_num

section
variable {R : Rng} {sI : List Nat → List Nat} {k f numCPU : Nat} {pol : BuildPolicy} {trees workers : Int}

/-- **C89 for `float32`**: in a built angular index with vectors of at most `2^17` components, all finite and at most `2^54`, the
margins of a query with finite components of at most `2^90` are finite, whatever the generator, the number of trees and of workers.  (Given
that inner nodes survive being written.) -/
theorem C89_float32 {sP : List (ieee32.V × Nat) → List (ieee32.V × Nat)} {adds : List (Nat × List ieee32.V)}
    {s s' : Idx (angularCfg ieee32 (bvCodec 4) R sI sP k f)}
    (h : Session (angularCfg ieee32 (bvCodec 4) R sI sP k f) numCPU pol adds trees workers s s')
    (hs : SplitsKept (angularCfg ieee32 (bvCodec 4) R sI sP k f) numCPU pol (slotCount adds) trees workers) (h0 : 0 < f) (hf : f ≤ 2 ^ 17)
    (hitems : ∀ i v, lastAdded adds i = some v → ∀ x ∈ v, fin32 x ∧ |val32 x| ≤ 2 ^ 54) (w : World) {q : List ieee32.V} (hq : q.length = f)
    (hqs : ∀ x ∈ q, fin32 x ∧ |val32 x| ≤ 2 ^ 90) : FiniteMargins s' w q := by
  refine ieee32_steady.finiteMargins cutTiny32 (room32 hf) (by norm_num) (Q := 2 ^ 90) (by positivity) ?_ h hs hitems w h0 hq hqs
  have h1 : (f : ℝ) ≤ 2 ^ 17 := by exact_mod_cast hf
  have h1' : (f : ℝ) ≤ 131072 := h1.trans (by norm_num)
  norm_num
  linarith

/-- **C89 for `float64`**: the same with up to `2^46` components, items of at most `2^476`, queries of at most `2^900`. -/
theorem C89_float64 {sP : List (ieee64.V × Nat) → List (ieee64.V × Nat)} {adds : List (Nat × List ieee64.V)}
    {s s' : Idx (angularCfg ieee64 (bvCodec 8) R sI sP k f)}
    (h : Session (angularCfg ieee64 (bvCodec 8) R sI sP k f) numCPU pol adds trees workers s s')
    (hs : SplitsKept (angularCfg ieee64 (bvCodec 8) R sI sP k f) numCPU pol (slotCount adds) trees workers) (h0 : 0 < f) (hf : f ≤ 2 ^ 46)
    (hitems : ∀ i v, lastAdded adds i = some v → ∀ x ∈ v, fin64 x ∧ |val64 x| ≤ 2 ^ 476) (w : World) {q : List ieee64.V} (hq : q.length = f)
    (hqs : ∀ x ∈ q, fin64 x ∧ |val64 x| ≤ 2 ^ 900) : FiniteMargins s' w q := by
  refine ieee64_steady.finiteMargins cutTiny64 (room64 hf) (one_le_pow₀ (by norm_num)) (Q := 2 ^ 900) (by positivity) ?_ h hs hitems w h0 hq hqs
  have h1 : (f : ℝ) ≤ 2 ^ 46 := by exact_mod_cast hf
  have h2 : (f : ℝ) * (2 ^ 27 * 2 ^ 900) ≤ 2 ^ 46 * (2 ^ 27 * 2 ^ 900) := mul_le_mul_of_nonneg_right h1 (by positivity)
  have e : (2 : ℝ) ^ 46 * (2 ^ 27 * 2 ^ 900) = 2 ^ 973 := by rw [← pow_add, ← pow_add]
  have h3 : (2 : ℝ) ≤ 2 ^ 973 := le_self_pow₀ (by norm_num) (by norm_num)
  have h4 : (2 : ℝ) ^ 1000 = 2 ^ 27 * 2 ^ 973 := by rw [← pow_add]
  rw [e] at h2
  rw [h4]
  generalize (f : ℝ) * (2 ^ 27 * 2 ^ 900) = x at h2 ⊢
  generalize (2 : ℝ) ^ 973 = y at h2 h3 ⊢
  norm_num
  linarith

end

/-! ## Searches of ordinary data

`float32` and `float64` angular indexes with vectors of at least `3 * sizeof(TIX)` components, so that inner nodes survive; nothing is
assumed but the sizes of numbers. -/

theorem Moderate.bound {N : Num} {val : N.V → ℝ} {Fin : N.V → Prop} {lo hi : ℝ} {n : Nat} {v : List N.V} (h : Moderate val Fin lo hi n v) {B : ℝ}
    (hB : hi ≤ B) : ∀ x ∈ v, Fin x ∧ |val x| ≤ B := by
  intro x hx
  refine ⟨h.finite x hx, ?_⟩
  obtain ⟨i, hi, rfl⟩ := List.mem_iff_getElem.1 hx
  have := PiLp.norm_apply_le (p := 2) (pt n (v.map val)) ⟨i, by rw [← h.length]; exact hi⟩
  refine le_trans (le_trans (le_of_eq ?_) this) (h.upper.trans hB)
  rw [Real.norm_eq_abs]
  congr 1
  simp [pt, hi]

theorem Session.countKept {c : Cfg} {numCPU : Nat} {pol : BuildPolicy} {adds : List (Nat × List c.N.V)} {trees workers : Int} {s s' : Idx c}
    (h : Session c numCPU pol adds trees workers s s') (hf : c.L.szIX ≤ c.L.f) : c.L.CountKept (slotCount adds) := by
  obtain ⟨N0, B, hN, _⟩ := h.built
  have h1 := B.n_le
  have h2 := B.nNodes
  have h3 : slotCount adds ≤ treeRoom numCPU pol (slotCount adds) trees workers := by omega
  have hfit := h.fits
  unfold Layout.Fits at hfit
  have hsz := h.wf.layout.size_eq
  have hpos : 0 < c.L.nodeSize := by have := h.wf.layout.K_fits; have := h.wf.layout.szIX_pos; omega
  have h4 : 3 * treeRoom numCPU pol (slotCount adds) trees workers * 1 ≤ 3 * treeRoom numCPU pol (slotCount adds) trees workers * c.L.nodeSize :=
    Nat.mul_le_mul_left _ hpos
  have h5 : c.L.range ≤ 2 ^ (8 * c.L.f) := Nat.pow_le_pow_right (by norm_num) (by omega)
  unfold Layout.CountKept
  omega

section
variable {N : Num} {val : N.V → ℝ} {Fin : N.V → Prop} {u t M lo hi : ℝ} {n : Nat} {C : Codec N.V} {R : Rng} {sI : List Nat → List Nat}
  {sP : List (N.V × Nat) → List (N.V × Nat)} {ix numCPU : Nat} {pol : BuildPolicy} {adds : List (Nat × List N.V)} {trees workers : Int}
  {s s' : Idx (angularCfg N C R sI sP ix n)}

theorem Arith.items_suffice (A : Arith N val Fin u t M lo hi n) (hk : N.KeyLaws)
    (h : Session (angularCfg N C R sI sP ix n) numCPU pol adds trees workers s s')
    (hs : SplitsKept (angularCfg N C R sI sP ix n) numCPU pol (slotCount adds) trees workers) (w : World) (hn : 0 < n) {q : List N.V}
    (hq : Moderate val Fin lo hi n q) (hv : ∀ i v, lastAdded adds i = some v → Moderate val Fin lo hi n v) (hroots : s'.roots ≠ [])
    (hfin : FiniteMargins s' w q)
    {k b : Int} {fuel : Nat} {ctx ctx' : Ctx (angularCfg N C R sI sP ix n)} {ids : List Nat} {ds : List N.V}
    (hb : ((addedIds adds).length : Int) ≤ (if b = -1 then k * s'.roots.length else b))
    (hr : s'.getNnsByVector fuel w q k b ctx = .ok (ids, ds, ctx')) :
    AlmostTopK N val Fin n u (trueDist val n (lastAdded adds) q) (addedIds adds) k.toNat ids ds :=
  A.topK h.wf hq (fun _ hi => mem_addedIds.1 hi) (fun i _ => hv i)
    (h.C86_items_suffice hs hk angular_minKeys w ⟨hq.length, angular_marginOk hq.length hn⟩ (h.finiteBelow hs hfin) hroots hb hr).1

theorem Arith.items_suffice_loaded (A : Arith N val Fin u t M lo hi n) (hk : N.KeyLaws)
    (h : Session (angularCfg N C R sI sP ix n) numCPU pol adds trees workers s s')
    (hs : SplitsKept (angularCfg N C R sI sP ix n) numCPU pol (slotCount adds) trees workers) (hn : 0 < n) {q : List N.V}
    (hq : Moderate val Fin lo hi n q) (hv : ∀ i v, lastAdded adds i = some v → Moderate val Fin lo hi n v) (hroots : s'.roots ≠ [])
    (h2 : 2 ≤ slotCount adds) (hck : (angularCfg N C R sI sP ix n).L.CountKept (slotCount adds))
    (hcp : (angularCfg N C R sI sP ix n).L.CopiesKept (slotCount adds)) {w0 w : World} {path : String} (hf : FileOf s' w path)
    (hfin : FiniteMargins s' w0 q) {bk : Backend} {x y : Idx (angularCfg N C R sI sP ix n)} (hl : x.load bk w path = .ok (.nil, y))
    {k b : Int} {fuel : Nat} {ctx ctx' : Ctx (angularCfg N C R sI sP ix n)} {ids : List Nat} {ds : List N.V}
    (hb : ((addedIds adds).length : Int) ≤ (if b = -1 then k * y.roots.length else b))
    (hr : y.getNnsByVector fuel w q k b ctx = .ok (ids, ds, ctx')) :
    AlmostTopK N val Fin n u (trueDist val n (lastAdded adds) q) (addedIds adds) k.toNat ids ds :=
  A.topK h.wf hq (fun _ hi => mem_addedIds.1 hi) (fun i _ => hv i)
    (h.C86_items_suffice_loaded h2 hroots hck hs hcp hk angular_minKeys hf hl ⟨hq.length, angular_marginOk hq.length hn⟩
      (h.finiteBelow_loaded h2 hroots hck hs hcp hf hl hfin) hb hr).1
end

section
variable {R : Rng} {sI : List Nat → List Nat} {ix n numCPU : Nat} {pol : BuildPolicy} {trees workers : Int}

section
variable {sP : List (ieee32.V × Nat) → List (ieee32.V × Nat)} {adds : List (Nat × List ieee32.V)}
  {s s' : Idx (angularCfg ieee32 (bvCodec 4) R sI sP ix n)}

/-- The margins of moderate queries are finite. -/
theorem margins32 (h : Session (angularCfg ieee32 (bvCodec 4) R sI sP ix n) numCPU pol adds trees workers s s')
    (hix : 3 * ix ≤ n) (hn : n ≤ 2 ^ 17) (hv : ∀ i v, lastAdded adds i = some v → Moderate32 n v) {q : List ieee32.V} (hq : Moderate32 n q)
    (w : World) : FiniteMargins s' w q := by
  have hpos : 0 < ix := h.wf.layout.szIX_pos
  exact C89_float32 h (splitsKept_of_length h.wf hix h.fits) (by omega) hn (fun i v hi => (hv i v hi).bound (by norm_num)) w hq.length
    (hq.bound (by norm_num))

/-- **C90 for `float32`**: a built angular index with at least `3 * sizeof(TIX)` and at most `2^17` components per vector, at least one
tree, items and query with norms from `2^-31` to `2^31`.  A search with a budget (`searchK`, or `numReturn * len(roots)` for -1)
of at least the number of items returns the nearest of all added items by the real distance, in ascending order, where squared
distances that differ by at most `10(n+9)·2^-24` may be taken for equal.  Whatever the generator, the number of trees and of workers. -/
theorem C90_float32 (h : Session (angularCfg ieee32 (bvCodec 4) R sI sP ix n) numCPU pol adds trees workers s s')
    (hix : 3 * ix ≤ n) (hn : n ≤ 2 ^ 17) (hv : ∀ i v, lastAdded adds i = some v → Moderate32 n v) {q : List ieee32.V} (hq : Moderate32 n q)
    (hroots : s'.roots ≠ []) (w : World) {k b : Int} {fuel : Nat} {ctx ctx' : Ctx (angularCfg ieee32 (bvCodec 4) R sI sP ix n)} {ids : List Nat}
    {ds : List ieee32.V} (hb : ((addedIds adds).length : Int) ≤ (if b = -1 then k * s'.roots.length else b))
    (hr : s'.getNnsByVector fuel w q k b ctx = .ok (ids, ds, ctx')) :
    AlmostTopK ieee32 val32 fin32 n (2 ^ (-24 : Int)) (trueDist val32 n (lastAdded adds) q) (addedIds adds) k.toNat ids ds :=
  (arith32 hn).items_suffice ieee32_keyLaws h (splitsKept_of_length h.wf hix h.fits) w (by have hpos : 0 < ix := h.wf.layout.szIX_pos; omega)
    hq hv hroots (margins32 h hix hn hv hq w) hb hr

/-- **C90 for `float32`, loaded indexes**: the same of the index loaded from the file of the built one, if its trees have inner nodes (or the
vectors are long enough for a bucket of all items to be copied). -/
theorem C90_loaded_float32 (h : Session (angularCfg ieee32 (bvCodec 4) R sI sP ix n) numCPU pol adds trees workers s s')
    (hix : 3 * ix ≤ n) (hn : n ≤ 2 ^ 17) (hv : ∀ i v, lastAdded adds i = some v → Moderate32 n v) {q : List ieee32.V} (hq : Moderate32 n q)
    (hroots : s'.roots ≠ []) (h2 : 2 ≤ slotCount adds)
    (hcp : (angularCfg ieee32 (bvCodec 4) R sI sP ix n).L.CopiesKept (slotCount adds)) {w : World} {path : String} (hf : FileOf s' w path)
    {bk : Backend} {x y : Idx (angularCfg ieee32 (bvCodec 4) R sI sP ix n)} (hl : x.load bk w path = .ok (.nil, y))
    {k b : Int} {fuel : Nat} {ctx ctx' : Ctx (angularCfg ieee32 (bvCodec 4) R sI sP ix n)} {ids : List Nat}
    {ds : List ieee32.V} (hb : ((addedIds adds).length : Int) ≤ (if b = -1 then k * y.roots.length else b))
    (hr : y.getNnsByVector fuel w q k b ctx = .ok (ids, ds, ctx')) :
    AlmostTopK ieee32 val32 fin32 n (2 ^ (-24 : Int)) (trueDist val32 n (lastAdded adds) q) (addedIds adds) k.toNat ids ds :=
  (arith32 hn).items_suffice_loaded ieee32_keyLaws h (splitsKept_of_length h.wf hix h.fits) (by have hpos : 0 < ix := h.wf.layout.szIX_pos; omega)
    hq hv hroots h2 (h.countKept (show ix ≤ n by omega)) hcp hf (margins32 h hix hn hv hq w) hl hb hr

/-- **C90 for `float32`, trees**: two indexes built by one worker from the same items with the same generator, with different numbers of
trees, give the same answer to every such query with the same budget. -/
theorem C90_trees_float32 {numCPU' : Nat} {trees' workers' : Int} {s'' : Idx (angularCfg ieee32 (bvCodec 4) R sI sP ix n)}
    (h : Session (angularCfg ieee32 (bvCodec 4) R sI sP ix n) numCPU .single adds trees workers s s')
    (h' : Session (angularCfg ieee32 (bvCodec 4) R sI sP ix n) numCPU' .single adds trees' workers' s s'')
    (hix : 3 * ix ≤ n) (hn : n ≤ 2 ^ 17) (hv : ∀ i v, lastAdded adds i = some v → Moderate32 n v) {q : List ieee32.V} (hq : Moderate32 n q)
    (hne : s'.roots ≠ []) (hne' : s''.roots ≠ []) {w w' : World} {k b b' : Int} {fuel fuel' : Nat}
    (h0 : 0 ≤ (if b = -1 then k * s'.roots.length else b))
    (hbb : (if b' = -1 then k * (s''.roots.length : Int) else b') = (if b = -1 then k * (s'.roots.length : Int) else b))
    {ctx ctx' o o' : Ctx (angularCfg ieee32 (bvCodec 4) R sI sP ix n)} {ids ids' : List Nat} {ds ds' : List ieee32.V}
    (hrun : s'.getNnsByVector fuel w q k b ctx = .ok (ids, ds, o))
    (hrun' : s''.getNnsByVector fuel' w' q k b' ctx' = .ok (ids', ds', o')) : ids' = ids ∧ ds' = ds := by
  have hs := splitsKept_of_length h.wf hix h.fits
  have hs' := splitsKept_of_length h'.wf hix h'.fits
  exact h.C88_trees_change_nothing h' hs hs' ieee32_keyLaws angular_minKeys hne hne'
    ⟨hq.length, angular_marginOk hq.length (by have hpos : 0 < ix := h.wf.layout.szIX_pos; omega)⟩
    (h.finiteBelow hs (margins32 h hix hn hv hq w)) (h'.finiteBelow hs' (margins32 h' hix hn hv hq w')) h0 hbb hrun hrun'
end

section
variable {sP : List (ieee64.V × Nat) → List (ieee64.V × Nat)} {adds : List (Nat × List ieee64.V)}
  {s s' : Idx (angularCfg ieee64 (bvCodec 8) R sI sP ix n)}

/-- The margins of moderate queries are finite. -/
theorem margins64 (h : Session (angularCfg ieee64 (bvCodec 8) R sI sP ix n) numCPU pol adds trees workers s s')
    (hix : 3 * ix ≤ n) (hn : n ≤ 2 ^ 46) (hv : ∀ i v, lastAdded adds i = some v → Moderate64 n v) {q : List ieee64.V} (hq : Moderate64 n q)
    (w : World) : FiniteMargins s' w q := by
  have hpos : 0 < ix := h.wf.layout.szIX_pos
  exact C89_float64 h (splitsKept_of_length h.wf hix h.fits) (by omega) hn
    (fun i v hi => (hv i v hi).bound (pow_le_pow_right₀ (by norm_num) (by norm_num))) w hq.length
    (hq.bound (pow_le_pow_right₀ (by norm_num) (by norm_num)))

/-- **C90 for `float64`**: the same with `2^-53` for `2^-24`, norms from `2^-249` to `2^249` and up to `2^46` components. -/
theorem C90_float64 (h : Session (angularCfg ieee64 (bvCodec 8) R sI sP ix n) numCPU pol adds trees workers s s')
    (hix : 3 * ix ≤ n) (hn : n ≤ 2 ^ 46) (hv : ∀ i v, lastAdded adds i = some v → Moderate64 n v) {q : List ieee64.V} (hq : Moderate64 n q)
    (hroots : s'.roots ≠ []) (w : World) {k b : Int} {fuel : Nat} {ctx ctx' : Ctx (angularCfg ieee64 (bvCodec 8) R sI sP ix n)} {ids : List Nat}
    {ds : List ieee64.V} (hb : ((addedIds adds).length : Int) ≤ (if b = -1 then k * s'.roots.length else b))
    (hr : s'.getNnsByVector fuel w q k b ctx = .ok (ids, ds, ctx')) :
    AlmostTopK ieee64 val64 fin64 n (2 ^ (-53 : Int)) (trueDist val64 n (lastAdded adds) q) (addedIds adds) k.toNat ids ds :=
  (arith64 hn).items_suffice ieee64_keyLaws h (splitsKept_of_length h.wf hix h.fits) w (by have hpos : 0 < ix := h.wf.layout.szIX_pos; omega)
    hq hv hroots (margins64 h hix hn hv hq w) hb hr

/-- **C90 for `float64`, loaded indexes.** -/
theorem C90_loaded_float64 (h : Session (angularCfg ieee64 (bvCodec 8) R sI sP ix n) numCPU pol adds trees workers s s')
    (hix : 3 * ix ≤ n) (hn : n ≤ 2 ^ 46) (hv : ∀ i v, lastAdded adds i = some v → Moderate64 n v) {q : List ieee64.V} (hq : Moderate64 n q)
    (hroots : s'.roots ≠ []) (h2 : 2 ≤ slotCount adds)
    (hcp : (angularCfg ieee64 (bvCodec 8) R sI sP ix n).L.CopiesKept (slotCount adds)) {w : World} {path : String} (hf : FileOf s' w path)
    {bk : Backend} {x y : Idx (angularCfg ieee64 (bvCodec 8) R sI sP ix n)} (hl : x.load bk w path = .ok (.nil, y))
    {k b : Int} {fuel : Nat} {ctx ctx' : Ctx (angularCfg ieee64 (bvCodec 8) R sI sP ix n)} {ids : List Nat}
    {ds : List ieee64.V} (hb : ((addedIds adds).length : Int) ≤ (if b = -1 then k * y.roots.length else b))
    (hr : y.getNnsByVector fuel w q k b ctx = .ok (ids, ds, ctx')) :
    AlmostTopK ieee64 val64 fin64 n (2 ^ (-53 : Int)) (trueDist val64 n (lastAdded adds) q) (addedIds adds) k.toNat ids ds :=
  (arith64 hn).items_suffice_loaded ieee64_keyLaws h (splitsKept_of_length h.wf hix h.fits) (by have hpos : 0 < ix := h.wf.layout.szIX_pos; omega)
    hq hv hroots h2 (h.countKept (show ix ≤ n by omega)) hcp hf (margins64 h hix hn hv hq w) hl hb hr

/-- **C90 for `float64`, trees.** -/
theorem C90_trees_float64 {numCPU' : Nat} {trees' workers' : Int} {s'' : Idx (angularCfg ieee64 (bvCodec 8) R sI sP ix n)}
    (h : Session (angularCfg ieee64 (bvCodec 8) R sI sP ix n) numCPU .single adds trees workers s s')
    (h' : Session (angularCfg ieee64 (bvCodec 8) R sI sP ix n) numCPU' .single adds trees' workers' s s'')
    (hix : 3 * ix ≤ n) (hn : n ≤ 2 ^ 46) (hv : ∀ i v, lastAdded adds i = some v → Moderate64 n v) {q : List ieee64.V} (hq : Moderate64 n q)
    (hne : s'.roots ≠ []) (hne' : s''.roots ≠ []) {w w' : World} {k b b' : Int} {fuel fuel' : Nat}
    (h0 : 0 ≤ (if b = -1 then k * s'.roots.length else b))
    (hbb : (if b' = -1 then k * (s''.roots.length : Int) else b') = (if b = -1 then k * (s'.roots.length : Int) else b))
    {ctx ctx' o o' : Ctx (angularCfg ieee64 (bvCodec 8) R sI sP ix n)} {ids ids' : List Nat} {ds ds' : List ieee64.V}
    (hrun : s'.getNnsByVector fuel w q k b ctx = .ok (ids, ds, o))
    (hrun' : s''.getNnsByVector fuel' w' q k b' ctx' = .ok (ids', ds', o')) : ids' = ids ∧ ds' = ds := by
  have hs := splitsKept_of_length h.wf hix h.fits
  have hs' := splitsKept_of_length h'.wf hix h'.fits
  exact h.C88_trees_change_nothing h' hs hs' ieee64_keyLaws angular_minKeys hne hne'
    ⟨hq.length, angular_marginOk hq.length (by have hpos : 0 < ix := h.wf.layout.szIX_pos; omega)⟩
    (h.finiteBelow hs (margins64 h hix hn hv hq w)) (h'.finiteBelow hs' (margins64 h' hix hn hv hq w')) h0 hbb hrun hrun'
end
end

/-! ### concrete case -/

/-- C89, C90: the index of C83 - C85, built and loaded from its file.  It answers a query with the budget 2, the number of its items. -/
example : ∃ s s', Session (angular32 4 12) 1 .single farAdds 1 1 s s' ∧
    (∀ i v, lastAdded farAdds i = some v → ∀ x ∈ v, fin32 x ∧ |val32 x| ≤ 2 ^ 54) ∧ (∀ x ∈ query12, fin32 x ∧ |val32 x| ≤ 2 ^ 90) ∧
    3 * 4 ≤ 12 ∧ (∀ i v, lastAdded farAdds i = some v → Moderate32 12 v) ∧ Moderate32 12 query12 ∧ s'.roots ≠ [] ∧
    2 ≤ slotCount farAdds ∧ (angular32 4 12).L.CopiesKept (slotCount farAdds) ∧ (addedIds farAdds).length = 2 ∧
    (∀ w, ∃ ds o, s'.getNnsByVector 100 w query12 2 2 (wideCtx _) = .ok ([0, 20], ds, o)) ∧
    ∃ w y, FileOf s' w "x" ∧ s'.load .mmap w "x" = .ok (.nil, y) ∧ ∃ fuel ctx z, y.getNnsByVector fuel w query12 2 2 ctx = .ok z := by
  obtain ⟨s, s', h, hs, hq, hv, hr, -, -, -, -, hw⟩ := C83_C85_case
  have hn : 2 ≤ slotCount farAdds := by decide +kernel
  have hck : (angular32 4 12).L.CopiesKept (slotCount farAdds) := Or.inl (by decide +kernel)
  have hk : (angular32 4 12).L.CountKept (slotCount farAdds) := by unfold Layout.CountKept; decide +kernel
  have hf := h.fileOf.2 (oneFile_read "x" _)
  obtain ⟨t, l1, _⟩ := h.reload hn hr hk hf .mmap s'
  obtain ⟨F, hF⟩ := C20_answers_loaded_partial h ieee32_lawful hn hr hk hs hck hf l1
  obtain ⟨x, e'⟩ := hF query12 ⟨hq.length, angular_marginOk hq.length (by decide)⟩ 2 2 ⟨List.replicate (t.roots.length * slotCount farAdds) 0, []⟩ F le_rfl
    (by simp only [List.length_replicate]; exact le_rfl)
  exact ⟨s, s', h, fun i v hi => (hv i v hi).bound (by norm_num), hq.bound (by norm_num), le_rfl, hv, hq, hr, hn, hck, by decide +kernel,
    fun w => (hw w).1, _, t, hf, l1, _, _, x, e'⟩

end Annoy
