import Verif.Props.Margins
import Verif.Props.Room
import Verif.Props.DataBlind
/-!
# C122: hyperplanes really separate the items, up to rounding

C68 is about the computed margins.  Here: the real inner product of the hyperplane that `CreateSplit` made and the vector of an item has the sign of
the side the item is on, unless it is so small that rounding may have changed the sign.  The same for what a search computes at an inner node.
-/
namespace Annoy
open Ieee
open scoped RealInnerProductSpace

/-- How far a computed inner product of two vectors of length `n` may be from the real one; `A` is the product of the norms, `u` the relative and `t` the absolute error of
one operation. -/
noncomputable def dotErr (n : Nat) (u t A : ℝ) : ℝ := 17 / 16 * ((n + 3) * u * A + 3 * (n * t))

/-- Hyperplanes made from added items are moderate, if those made of moderate vectors are. -/
theorem Session.cut_small {c : Cfg} {val : c.N.V → ℝ} {Fin : c.N.V → Prop} {B X : ℝ}
    (hsplit : ∀ mem addrs r m m' r', (∀ a ∈ addrs, Small val Fin B (Node.vec c.L c.C mem a)) →
      c.D.createSplit mem addrs r m = .ok (m', r') → Small val Fin X (Node.vec c.L c.C m' 0))
    {numCPU : Nat} {pol : BuildPolicy} {adds : List (Nat × List c.N.V)} {trees workers : Int} {s s' : Idx c}
    (h : Session c numCPU pol adds trees workers s s') (hitems : ∀ i v, lastAdded adds i = some v → Small val Fin B v) {ids : List Nat} {m : Bytes}
    (hcut : CutFor c s'.alloc.data s'.nItems ids m) (hids : ∀ x ∈ ids, ∃ v, lastAdded adds x = some v) :
    Small val Fin X (Node.vec c.L c.C m 0) := by
  obtain ⟨N0, B0, hN, _⟩ := h.built
  have hL := h.wf.layout
  obtain ⟨d, r1, m1, r2, e2, e0, e3⟩ := hcut
  rw [B0.nItems] at e2
  refine hsplit _ _ _ _ _ _ ?_ e3
  intro a ha
  obtain ⟨x, hx, rfl⟩ := List.mem_map.1 ha
  obtain ⟨v, hv⟩ := hids x hx
  have hvec := (B0.items x v hv).vec
  have hlt := B0.bound x v hv
  have e : Node.vec c.L c.C d (x * c.L.nodeSize) = v := by
    refine Eq.trans ?_ hvec
    apply Node.vec_congr
    intro j hj
    apply e2
    have := hL.size_eq
    have h3 : (x + 1) * c.L.nodeSize ≤ slotCount adds * c.L.nodeSize := Nat.mul_le_mul_right _ hlt
    rw [Nat.succ_mul] at h3
    omega
  rw [e]
  exact hitems x v hv

section
variable {N : Num} {val : N.V → ℝ} {Fin : N.V → Prop} {u t M : ℝ}

/-- A computed inner product of moderate vectors. -/
theorem Steady.dot_true (K : Steady N val Fin u t M) {n : Nat} {B R Q : ℝ} (P : Room u t M n B R) (hQ : 0 ≤ Q)
    (hQM : 3 * (n * (R * Q)) + 2 ≤ M) {v q : List N.V} (hv : v.length = n) (hq : q.length = n) (h1 : Small val Fin R v) (h2 : Small val Fin Q q) :
    Fin (Vec.dot N v q) ∧ |val (Vec.dot N v q) - ⟪pt n (v.map val), pt n (q.map val)⟫| ≤ dotErr n u t (‖pt n (v.map val)‖ * ‖pt n (q.map val)‖) := by
  have hR := P.R1
  have hu := K.u_small
  have ht := K.t_small
  have h3 := dotAbs_le (X := R) (Y := Q) (v.map val) (q.map val) (by
      intro x hx
      obtain ⟨y, hy, rfl⟩ := List.mem_map.1 hx
      exact (h1 y hy).2) (by
      intro x hx
      obtain ⟨y, hy, rfl⟩ := List.mem_map.1 hx
      exact (h2 y hy).2) (by linarith) hQ
  rw [List.length_map] at h3
  have hn := P.n_u
  have hnt := P.n_t
  subst hv
  -- the sum of the absolute values is at most the product of the norms
  have hl : (v.map val).length = (q.map val).length := by simp [hq]
  have h4 := dotAbs_sq_le (v.map val) (q.map val) hl
  rw [dotR_eq, dotR_eq, Annoy.dot_self (n := v.length) (by simp), Annoy.dot_self (n := v.length) (by simpa using hq), ← mul_pow] at h4
  have h5 : dotAbs (v.map val) (q.map val) ≤ ‖pt v.length (v.map val)‖ * ‖pt v.length (q.map val)‖ := by
    have := abs_le_of_sq_le_sq h4 (by positivity)
    exact (le_abs_self _).trans this
  have hA : 3 * min (‖pt v.length (v.map val)‖ * ‖pt v.length (q.map val)‖) (v.length * (R * Q)) + 2 ≤ M := by
    have := min_le_right (‖pt v.length (v.map val)‖ * ‖pt v.length (q.map val)‖) (v.length * (R * Q))
    linarith
  obtain ⟨k1, k2⟩ := K.approx.dot K.u0 K.t0.le (by linarith [show (1 : ℝ) / 2 ^ 19 ≤ 1 / 128 by norm_num])
    (by linarith [show (1 : ℝ) / 2 ^ 20 ≤ 1 / 8 by norm_num]) hq.symm (fun x hx => (h1 x hx).1) (fun x hx => (h2 x hx).1)
    hn (by linarith) hA (le_min h5 h3)
  refine ⟨k1, ?_⟩
  rw [dotR_eq, dot_inner (n := v.length) (by simp) (by simpa using hq)] at k2
  refine k2.trans ?_
  unfold dotErr
  have h6 := min_le_left (‖pt v.length (v.map val)‖ * ‖pt v.length (q.map val)‖) (v.length * (R * Q))
  have h7 : (0 : ℝ) ≤ (v.length + 3) * u := mul_nonneg (by positivity) K.u0
  have := mul_le_mul_of_nonneg_left h6 h7
  linarith

variable {C : Codec N.V} {R : Rng} {sI : List Nat → List Nat} {sP : List (N.V × Nat) → List (N.V × Nat)} {k f numCPU : Nat} {pol : BuildPolicy}
  {adds : List (Nat × List N.V)} {trees workers : Int} {s s' : Idx (angularCfg N C R sI sP k f)}

/-- The vector `x` of an item is on the left of the hyperplane with normal vector `w`, up to rounding. -/
def TrulyLeft (val : N.V → ℝ) (n : Nat) (u t : ℝ) (w x : List N.V) : Prop :=
  ⟪pt n (w.map val), pt n (x.map val)⟫ ≤ dotErr n u t (‖pt n (w.map val)‖ * ‖pt n (x.map val)‖)

/-- The vector `x` of an item is on the right of the hyperplane with normal vector `w`, up to rounding. -/
def TrulyRight (val : N.V → ℝ) (n : Nat) (u t : ℝ) (w x : List N.V) : Prop :=
  -dotErr n u t (‖pt n (w.map val)‖ * ‖pt n (x.map val)‖) ≤ ⟪pt n (w.map val), pt n (x.map val)⟫

/-- What below a split of a tree is where, for a hyperplane that has the signs of margins that inner products have. -/
theorem Steady.sides_of {c : Cfg} {val : c.N.V → ℝ} {Fin : c.N.V → Prop} (K : Steady c.N val Fin u t M) (hN : c.N.Lawful) {B X : ℝ}
    (P : Room u t M c.L.f B X) (hB : 1 ≤ B) (hQM : 3 * (c.L.f * (X * B)) + 2 ≤ M) (hS : SignSides c)
    (hsplit : ∀ mem addrs r m m' r', (∀ a ∈ addrs, Small val Fin B (Node.vec c.L c.C mem a)) →
      c.D.createSplit mem addrs r m = .ok (m', r') → Small val Fin X (Node.vec c.L c.C m' 0))
    (hsign : ∀ m v y, Scratch c m → c.D.margin m 0 v = .ok y →
      c.N.lt c.N.zero y = c.N.lt c.N.zero (Vec.dot c.N (Node.vec c.L c.C m 0) v) ∧ c.N.lt y c.N.zero = c.N.lt (Vec.dot c.N (Node.vec c.L c.C m 0) v) c.N.zero)
    {numCPU : Nat} {pol : BuildPolicy} {adds : List (Nat × List c.N.V)} {trees workers : Int} {s s' : Idx c}
    (h : Session c numCPU pol adds trees workers s s') (hs : SplitsKept c numCPU pol (slotCount adds) trees workers)
    (hitems : ∀ i v, lastAdded adds i = some v → Small val Fin B v) :
    ∃ ts : List Tree, ts.map Tree.root = s'.roots ∧
      (∀ t ∈ ts, RootTree c.L s'.alloc.data s'.nItems (addedIds adds) t) ∧
      ∀ T ∈ ts, ∀ i l r, (i, l, r) ∈ T.splits →
        (∃ m, KeptFrom c s'.alloc.data i m ∧ Small val Fin X (Node.vec c.L c.C m 0) ∧
          (((∀ x ∈ l.items, ∃ v, lastAdded adds x = some v ∧ TrulyLeft val c.L.f u t (Node.vec c.L c.C m 0) v) ∧
            (∀ x ∈ r.items, ∃ v, lastAdded adds x = some v ∧ TrulyRight val c.L.f u t (Node.vec c.L c.C m 0) v)) ∨
          Node.vec c.L c.C m 0 = List.replicate c.L.f c.N.zero)) ∨
        (∃ j j', l = .item j ∧ r = .hole j') := by
  obtain ⟨ts, t1, t2, t3⟩ := h.C68_divisions_partial hs hS
  obtain ⟨N0, B0, -⟩ := h.built
  refine ⟨ts, t1, t2, fun T hT i l r hp => ?_⟩
  rcases t3 T hT i l r hp with ⟨m, ids, p1, p2, p3⟩ | ⟨j, j', e1, e2, -⟩
  · refine Or.inl ⟨m, p2, ?_⟩
    rcases p3 with ⟨⟨d, r0, m0, r0', e2, e2', e3⟩, p4, p5⟩ | p3
    · -- the hyperplane is moderate
      have hm : Small val Fin X (Node.vec c.L c.C m 0) := by
        refine h.cut_small hsplit hitems ⟨d, r0, m0, r0', e2, e2', e3⟩ ?_
        intro x hx
        rcases List.mem_append.1 (p1.mem_iff.1 hx) with hx | hx
        · obtain ⟨v, -, hv, -⟩ := p4 x hx
          exact ⟨v, hv⟩
        · obtain ⟨v, -, hv, -⟩ := p5 x hx
          exact ⟨v, hv⟩
      refine ⟨hm, Or.inl ⟨fun x hx => ?_, fun x hx => ?_⟩⟩
      · obtain ⟨v, y, hv, hy, hl⟩ := p4 x hx
        refine ⟨v, hv, ?_⟩
        obtain ⟨d1, d2⟩ := K.dot_true P (by linarith) hQM (Node.vec_length _ _ _) (h.legal _ (lastAdded_mem hv)).1 hm (hitems x v hv)
        rw [(hsign m v y (e2'.used e3) hy).1] at hl
        have h0 : ¬ 0 < val (Vec.dot c.N (Node.vec c.L c.C m 0) v) := by
          rw [← K.approx.zero.2, ← K.approx.lt _ _ K.approx.zero.1 d1]
          exact Bool.eq_false_iff.1 hl
        unfold TrulyLeft
        have := (abs_le.1 d2).1
        linarith
      · obtain ⟨v, y, hv, hy, hl⟩ := p5 x hx
        refine ⟨v, hv, ?_⟩
        obtain ⟨d1, d2⟩ := K.dot_true P (by linarith) hQM (Node.vec_length _ _ _) (h.legal _ (lastAdded_mem hv)).1 hm (hitems x v hv)
        have h0 : ¬ val (Vec.dot c.N (Node.vec c.L c.C m 0) v) < 0 := by
          rw [← K.approx.zero.2, ← K.approx.lt _ _ d1 K.approx.zero.1, ← (hsign m v y (e2'.used e3) hy).2]
          intro hlt
          rcases hl with hl | hl
          · have := hN.lt_trans _ _ _ hl hlt
            exact absurd this (Bool.eq_false_iff.1 (hN.lt_irrefl _))
          · have := hN.lt_of_lt_of_eq _ _ _ hlt (hN.eq_symm _ _ hl)
            exact absurd this (Bool.eq_false_iff.1 (hN.lt_irrefl _))
        unfold TrulyRight
        have := (abs_le.1 d2).2
        linarith
    · refine ⟨?_, Or.inr p3⟩
      intro x hx
      have e : Node.vec c.L c.C m 0 = List.replicate c.L.f c.N.zero := p3
      rw [e] at hx
      rw [List.eq_of_mem_replicate hx]
      refine ⟨K.approx.zero.1, ?_⟩
      rw [K.approx.zero.2, abs_zero]
      linarith [P.R1]
  · exact Or.inr ⟨j, j', e1, e2⟩

/-- **C122**, in terms of an arithmetic. -/
theorem Steady.true_sides (K : Steady N val Fin u t M) (hN : N.Lawful) (hC : CutTiny C val Fin) {B X : ℝ} (P : Room u t M f B X) (hB : 1 ≤ B)
    (hQM : 3 * (f * (X * B)) + 2 ≤ M) (h : Session (angularCfg N C R sI sP k f) numCPU pol adds trees workers s s')
    (hs : SplitsKept (angularCfg N C R sI sP k f) numCPU pol (slotCount adds) trees workers)
    (hitems : ∀ i v, lastAdded adds i = some v → Small val Fin B v) :
    ∃ ts : List Tree, ts.map Tree.root = s'.roots ∧
      (∀ t ∈ ts, RootTree (angularCfg N C R sI sP k f).L s'.alloc.data s'.nItems (addedIds adds) t) ∧
      ∀ T ∈ ts, ∀ i l r, (i, l, r) ∈ T.splits →
        (∃ m, KeptFrom (angularCfg N C R sI sP k f) s'.alloc.data i m ∧ Small val Fin X (Node.vec (angularCfg N C R sI sP k f).L C m 0) ∧
          (((∀ x ∈ l.items, ∃ v, lastAdded adds x = some v ∧ TrulyLeft val f u t (Node.vec (angularCfg N C R sI sP k f).L C m 0) v) ∧
            (∀ x ∈ r.items, ∃ v, lastAdded adds x = some v ∧ TrulyRight val f u t (Node.vec (angularCfg N C R sI sP k f).L C m 0) v)) ∨
          Node.vec (angularCfg N C R sI sP k f).L C m 0 = List.replicate f N.zero)) ∨
        (∃ j j', l = .item j ∧ r = .hole j') :=
  K.sides_of (c := angularCfg N C R sI sP k f) hN P hB hQM (angular_signSides hN)
    (fun _ _ _ _ _ _ ha he => K.createSplit h.wf.layout hC P hB ha he)
    (fun m v y _ hy => by rw [angular_margin_eq hy]; exact ⟨rfl, rfl⟩) h hs hitems

/-- **C122 for searches**, in terms of an arithmetic: the margin of a query at an inner node is the inner product with the stored vector, up to rounding. -/
theorem Steady.margin_true (K : Steady N val Fin u t M) (hC : CutTiny C val Fin) {B X Q : ℝ} (P : Room u t M f B X) (hB : 1 ≤ B)
    (hQ : 0 ≤ Q) (hQM : 3 * (f * (X * Q)) + 2 ≤ M) (h : Session (angularCfg N C R sI sP k f) numCPU pol adds trees workers s s')
    (hs : SplitsKept (angularCfg N C R sI sP k f) numCPU pol (slotCount adds) trees workers)
    (hitems : ∀ i v, lastAdded adds i = some v → Small val Fin B v) {q : List N.V} (hf : 0 < f) (hq : q.length = f) (hqs : Small val Fin Q q) {i : Nat}
    (h1 : s'.nItems ≤ i) (h2 : i + s'.roots.length < s'.nNodes) (hK : (angularCfg N C R sI sP k f).L.K < ndAt (angularCfg N C R sI sP k f).L s'.alloc.data i) :
    ∃ y, (angularCfg N C R sI sP k f).D.margin s'.alloc.data (i * (angularCfg N C R sI sP k f).L.nodeSize) q = .ok y ∧ Fin y ∧
      |val y - ⟪pt f ((Node.vec (angularCfg N C R sI sP k f).L C s'.alloc.data (i * (angularCfg N C R sI sP k f).L.nodeSize)).map val), pt f (q.map val)⟫| ≤
        dotErr f u t (‖pt f ((Node.vec (angularCfg N C R sI sP k f).L C s'.alloc.data (i * (angularCfg N C R sI sP k f).L.nodeSize)).map val)‖ *
          ‖pt f (q.map val)‖) := by
  obtain ⟨y, hy⟩ := angular_marginOk (C := C) (R := R) (sI := sI) (sP := sP) (k := k) hq hf s'.alloc.data (i * (angularCfg N C R sI sP k f).L.nodeSize)
  refine ⟨y, hy, ?_⟩
  rw [angular_margin_eq hy]
  exact K.dot_true P hQ hQM (Node.vec_length _ _ _) hq (h.stored K.approx.zero hC P.R1
    (fun _ _ _ _ _ _ ha he => K.createSplit h.wf.layout hC P hB ha he) hs hitems h1 h2 hK) hqs
end

/-! ## `float32` and `float64` -/

section
variable {R : Rng} {sI : List Nat → List Nat} {k f numCPU : Nat} {pol : BuildPolicy} {trees workers : Int}

/-- **C122 for `float32`**: vectors of at most `2^17` finite components of at most `2^54`.  Below every inner node of every tree, with the
hyperplane `m` that was made for it: the items of the left subtree are on the left of it, those of the right subtree on the right, by real inner products and up to
`1.07 ((f+3) 2^-24 |w| |x| + 3 f 2^-149)`.  Otherwise the items were divided by coin and the hyperplane is zero, or there is one item only. -/
theorem C122_float32 {sP : List (ieee32.V × Nat) → List (ieee32.V × Nat)} {adds : List (Nat × List ieee32.V)}
    {s s' : Idx (angularCfg ieee32 (bvCodec 4) R sI sP k f)}
    (h : Session (angularCfg ieee32 (bvCodec 4) R sI sP k f) numCPU pol adds trees workers s s')
    (hs : SplitsKept (angularCfg ieee32 (bvCodec 4) R sI sP k f) numCPU pol (slotCount adds) trees workers) (hf : f ≤ 2 ^ 17)
    (hitems : ∀ i v, lastAdded adds i = some v → ∀ x ∈ v, fin32 x ∧ |val32 x| ≤ 2 ^ 54) :
    ∃ ts : List Tree, ts.map Tree.root = s'.roots ∧
      (∀ t ∈ ts, RootTree (angularCfg ieee32 (bvCodec 4) R sI sP k f).L s'.alloc.data s'.nItems (addedIds adds) t) ∧
      ∀ T ∈ ts, ∀ i l r, (i, l, r) ∈ T.splits →
        (∃ m, KeptFrom (angularCfg ieee32 (bvCodec 4) R sI sP k f) s'.alloc.data i m ∧
          (∀ x ∈ Node.vec (angularCfg ieee32 (bvCodec 4) R sI sP k f).L (bvCodec 4) m 0, fin32 x ∧ |val32 x| ≤ 2 ^ 12) ∧
          (((∀ x ∈ l.items, ∃ v, lastAdded adds x = some v ∧
              TrulyLeft (N := ieee32) val32 f (2 ^ (-24 : Int)) (2 ^ (-149 : Int)) (Node.vec (angularCfg ieee32 (bvCodec 4) R sI sP k f).L (bvCodec 4) m 0) v) ∧
            (∀ x ∈ r.items, ∃ v, lastAdded adds x = some v ∧
              TrulyRight (N := ieee32) val32 f (2 ^ (-24 : Int)) (2 ^ (-149 : Int)) (Node.vec (angularCfg ieee32 (bvCodec 4) R sI sP k f).L (bvCodec 4) m 0) v)) ∨
          Node.vec (angularCfg ieee32 (bvCodec 4) R sI sP k f).L (bvCodec 4) m 0 = List.replicate f ieee32.zero)) ∨
        (∃ j j', l = .item j ∧ r = .hole j') := by
  refine ieee32_steady.true_sides ieee32_lawful cutTiny32 (room32 hf) (by norm_num) ?_ h hs hitems
  have h1 : (f : ℝ) ≤ 2 ^ 17 := by exact_mod_cast hf
  have h1' : (f : ℝ) ≤ 131072 := h1.trans (by norm_num)
  norm_num
  linarith

/-- **C122 for searches of `float32`**: what is computed of a query with finite components of at most `2^90` at an inner node is the inner product with the stored
vector, up to rounding. -/
theorem C122_margin32 {sP : List (ieee32.V × Nat) → List (ieee32.V × Nat)} {adds : List (Nat × List ieee32.V)}
    {s s' : Idx (angularCfg ieee32 (bvCodec 4) R sI sP k f)}
    (h : Session (angularCfg ieee32 (bvCodec 4) R sI sP k f) numCPU pol adds trees workers s s')
    (hs : SplitsKept (angularCfg ieee32 (bvCodec 4) R sI sP k f) numCPU pol (slotCount adds) trees workers) (h0 : 0 < f) (hf : f ≤ 2 ^ 17)
    (hitems : ∀ i v, lastAdded adds i = some v → ∀ x ∈ v, fin32 x ∧ |val32 x| ≤ 2 ^ 54) {q : List ieee32.V} (hq : q.length = f)
    (hqs : ∀ x ∈ q, fin32 x ∧ |val32 x| ≤ 2 ^ 90) {i : Nat}
    (h1 : s'.nItems ≤ i) (h2 : i + s'.roots.length < s'.nNodes)
    (hK : (angularCfg ieee32 (bvCodec 4) R sI sP k f).L.K < ndAt (angularCfg ieee32 (bvCodec 4) R sI sP k f).L s'.alloc.data i) :
    ∃ y, (angularCfg ieee32 (bvCodec 4) R sI sP k f).D.margin s'.alloc.data (i * (angularCfg ieee32 (bvCodec 4) R sI sP k f).L.nodeSize) q = .ok y ∧ fin32 y ∧
      |val32 y - ⟪pt f ((Node.vec (angularCfg ieee32 (bvCodec 4) R sI sP k f).L (bvCodec 4) s'.alloc.data
          (i * (angularCfg ieee32 (bvCodec 4) R sI sP k f).L.nodeSize)).map val32), pt f (q.map val32)⟫| ≤
        dotErr f (2 ^ (-24 : Int)) (2 ^ (-149 : Int)) (‖pt f ((Node.vec (angularCfg ieee32 (bvCodec 4) R sI sP k f).L (bvCodec 4) s'.alloc.data
          (i * (angularCfg ieee32 (bvCodec 4) R sI sP k f).L.nodeSize)).map val32)‖ * ‖pt f (q.map val32)‖) := by
  refine ieee32_steady.margin_true cutTiny32 (room32 hf) (by norm_num) (Q := 2 ^ 90) (by positivity) ?_ h hs hitems h0 hq hqs h1 h2 hK
  have h1 : (f : ℝ) ≤ 2 ^ 17 := by exact_mod_cast hf
  have h1' : (f : ℝ) ≤ 131072 := h1.trans (by norm_num)
  norm_num
  linarith

/-- **C122 for `float64`**: at most `2^46` finite components of at most `2^476`; up to `1.07 ((f+3) 2^-53 |w| |x| + 3 f 2^-1074)`. -/
theorem C122_float64 {sP : List (ieee64.V × Nat) → List (ieee64.V × Nat)} {adds : List (Nat × List ieee64.V)}
    {s s' : Idx (angularCfg ieee64 (bvCodec 8) R sI sP k f)}
    (h : Session (angularCfg ieee64 (bvCodec 8) R sI sP k f) numCPU pol adds trees workers s s')
    (hs : SplitsKept (angularCfg ieee64 (bvCodec 8) R sI sP k f) numCPU pol (slotCount adds) trees workers) (hf : f ≤ 2 ^ 46)
    (hitems : ∀ i v, lastAdded adds i = some v → ∀ x ∈ v, fin64 x ∧ |val64 x| ≤ 2 ^ 476) :
    ∃ ts : List Tree, ts.map Tree.root = s'.roots ∧
      (∀ t ∈ ts, RootTree (angularCfg ieee64 (bvCodec 8) R sI sP k f).L s'.alloc.data s'.nItems (addedIds adds) t) ∧
      ∀ T ∈ ts, ∀ i l r, (i, l, r) ∈ T.splits →
        (∃ m, KeptFrom (angularCfg ieee64 (bvCodec 8) R sI sP k f) s'.alloc.data i m ∧
          (∀ x ∈ Node.vec (angularCfg ieee64 (bvCodec 8) R sI sP k f).L (bvCodec 8) m 0, fin64 x ∧ |val64 x| ≤ 2 ^ 27) ∧
          (((∀ x ∈ l.items, ∃ v, lastAdded adds x = some v ∧
              TrulyLeft (N := ieee64) val64 f (2 ^ (-53 : Int)) (2 ^ (-1074 : Int)) (Node.vec (angularCfg ieee64 (bvCodec 8) R sI sP k f).L (bvCodec 8) m 0) v) ∧
            (∀ x ∈ r.items, ∃ v, lastAdded adds x = some v ∧
              TrulyRight (N := ieee64) val64 f (2 ^ (-53 : Int)) (2 ^ (-1074 : Int)) (Node.vec (angularCfg ieee64 (bvCodec 8) R sI sP k f).L (bvCodec 8) m 0) v)) ∨
          Node.vec (angularCfg ieee64 (bvCodec 8) R sI sP k f).L (bvCodec 8) m 0 = List.replicate f ieee64.zero)) ∨
        (∃ j j', l = .item j ∧ r = .hole j') := by
  refine ieee64_steady.true_sides ieee64_lawful cutTiny64 (room64 hf) (one_le_pow₀ (by norm_num)) ?_ h hs hitems
  have h1 : (f : ℝ) ≤ 2 ^ 46 := by exact_mod_cast hf
  have h2 : (f : ℝ) * (2 ^ 27 * 2 ^ 476) ≤ 2 ^ 46 * (2 ^ 27 * 2 ^ 476) := mul_le_mul_of_nonneg_right h1 (by positivity)
  have e : (2 : ℝ) ^ 46 * (2 ^ 27 * 2 ^ 476) = 2 ^ 549 := by rw [← pow_add, ← pow_add]
  have h3 : (2 : ℝ) ≤ 2 ^ 549 := le_self_pow₀ (by norm_num) (by norm_num)
  have h4 : (2 : ℝ) ^ 1000 = 2 ^ 451 * 2 ^ 549 := by rw [← pow_add]
  have h5 : (4 : ℝ) ≤ 2 ^ 451 := by
    calc (4 : ℝ) = 2 ^ 2 := by norm_num
      _ ≤ _ := pow_le_pow_right₀ (by norm_num) (by norm_num)
  rw [e] at h2
  rw [h4]
  have h6 : (4 : ℝ) * 2 ^ 549 ≤ 2 ^ 451 * 2 ^ 549 := mul_le_mul_of_nonneg_right h5 (by positivity)
  generalize (f : ℝ) * (2 ^ 27 * 2 ^ 476) = x at h2 ⊢
  generalize (2 : ℝ) ^ 451 * 2 ^ 549 = z at h6 ⊢
  generalize (2 : ℝ) ^ 549 = y at h2 h3 h6 ⊢
  linarith

/-- **C122 for searches of `float64`**: what is computed of a query with finite components of at most `2^900` at an inner node is the inner product with the stored
vector, up to rounding. -/
theorem C122_margin64 {sP : List (ieee64.V × Nat) → List (ieee64.V × Nat)} {adds : List (Nat × List ieee64.V)}
    {s s' : Idx (angularCfg ieee64 (bvCodec 8) R sI sP k f)}
    (h : Session (angularCfg ieee64 (bvCodec 8) R sI sP k f) numCPU pol adds trees workers s s')
    (hs : SplitsKept (angularCfg ieee64 (bvCodec 8) R sI sP k f) numCPU pol (slotCount adds) trees workers) (h0 : 0 < f) (hf : f ≤ 2 ^ 46)
    (hitems : ∀ i v, lastAdded adds i = some v → ∀ x ∈ v, fin64 x ∧ |val64 x| ≤ 2 ^ 476) {q : List ieee64.V} (hq : q.length = f)
    (hqs : ∀ x ∈ q, fin64 x ∧ |val64 x| ≤ 2 ^ 900) {i : Nat}
    (h1 : s'.nItems ≤ i) (h2 : i + s'.roots.length < s'.nNodes)
    (hK : (angularCfg ieee64 (bvCodec 8) R sI sP k f).L.K < ndAt (angularCfg ieee64 (bvCodec 8) R sI sP k f).L s'.alloc.data i) :
    ∃ y, (angularCfg ieee64 (bvCodec 8) R sI sP k f).D.margin s'.alloc.data (i * (angularCfg ieee64 (bvCodec 8) R sI sP k f).L.nodeSize) q = .ok y ∧ fin64 y ∧
      |val64 y - ⟪pt f ((Node.vec (angularCfg ieee64 (bvCodec 8) R sI sP k f).L (bvCodec 8) s'.alloc.data
          (i * (angularCfg ieee64 (bvCodec 8) R sI sP k f).L.nodeSize)).map val64), pt f (q.map val64)⟫| ≤
        dotErr f (2 ^ (-53 : Int)) (2 ^ (-1074 : Int)) (‖pt f ((Node.vec (angularCfg ieee64 (bvCodec 8) R sI sP k f).L (bvCodec 8) s'.alloc.data
          (i * (angularCfg ieee64 (bvCodec 8) R sI sP k f).L.nodeSize)).map val64)‖ * ‖pt f (q.map val64)‖) := by
  refine ieee64_steady.margin_true cutTiny64 (room64 hf) (one_le_pow₀ (by norm_num)) (Q := 2 ^ 900) (by positivity) ?_ h hs hitems h0 hq hqs h1 h2 hK
  have h1 : (f : ℝ) ≤ 2 ^ 46 := by exact_mod_cast hf
  have h2 : (f : ℝ) * (2 ^ 27 * 2 ^ 900) ≤ 2 ^ 46 * (2 ^ 27 * 2 ^ 900) := mul_le_mul_of_nonneg_right h1 (by positivity)
  have e : (2 : ℝ) ^ 46 * (2 ^ 27 * 2 ^ 900) = 2 ^ 973 := by rw [← pow_add, ← pow_add]
  have h3 : (2 : ℝ) ≤ 2 ^ 973 := le_self_pow₀ (by norm_num) (by norm_num)
  have h4 : (2 : ℝ) ^ 1000 = 2 ^ 27 * 2 ^ 973 := by rw [← pow_add]
  rw [e] at h2
  rw [h4]
  generalize (f : ℝ) * (2 ^ 27 * 2 ^ 900) = x at h2 ⊢
  generalize (2 : ℝ) ^ 973 = y at h2 h3 ⊢
  norm_num
  linarith

end

/-- Twenty items of length 12, three trees with inner nodes, two workers: whatever the workers do, the hypotheses of `C122_float32` and
`C122_margin32` hold. -/
example : ∃ s s', Session (oracle32 12) 8 .multi (longAdds 20) 3 2 s s' ∧ SplitsKept (oracle32 12) 8 .multi (slotCount (longAdds 20)) 3 2 ∧
    (∀ i v, lastAdded (longAdds 20) i = some v → ∀ x ∈ v, fin32 x ∧ |val32 x| ≤ 2 ^ 54) ∧ (∀ x ∈ query12, fin32 x ∧ |val32 x| ≤ 2 ^ 90) ∧
    s'.roots.length = 3 ∧ (oracle32 12).L.K < slotCount (longAdds 20) := by
  have hc : (oracle32 12).WF := oracle32_wf (by decide)
  have hf : (oracle32 12).L.Fits (treeRoom 8 .multi (slotCount (longAdds 20)) 3 2) := by decide +kernel
  obtain ⟨s, s', h⟩ := multi_session hc (Conc.angular_total oracle_inRange (by decide))
    (Conc.angular_canBalance (by decide)) (fun _ => 0) (longAdds 20) (legalAdds_of (by decide +kernel)) 8 3 2 (W := 2) (by decide) hf
  have hq : Moderate32 12 query12 := moderate32_of_bits (by decide) (by decide) (by decide +kernel) ⟨0, by decide +kernel⟩
  exact ⟨s, s', h, splitsKept_of_length h.wf (show 3 * 4 ≤ 12 by decide) h.fits, fun i v hi => (longAdds_moderate i v hi).bound (by norm_num),
    hq.bound (by norm_num), (C10_tree_count h (by simp)).1 (by decide), by decide +kernel⟩

end Annoy
