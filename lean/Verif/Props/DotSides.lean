import Verif.Props.TrueSides
import Verif.Props.DotIndex
/-!
# C122 for the dot product: its hyperplanes separate the items too

The temporary node of a dot product index has no dot factor (C99), so the margin of an item has the sign of its inner product with the normal vector.
-/
namespace Annoy
open Ieee
open scoped RealInnerProductSpace

section
variable {N : Num} {val : N.V → ℝ} {Fin : N.V → Prop} {u t M : ℝ} {C : Codec N.V} {R : Rng} {sI : List Nat → List Nat}
  {sP : List (N.V × Nat) → List (N.V × Nat)} {k f numCPU : Nat} {pol : BuildPolicy} {adds : List (Nat × List N.V)} {trees workers : Int}
  {s s' : Idx (dotCfg N C R sI sP k f)}

/-- **C122 for the dot product**, in terms of an arithmetic. -/
theorem Steady.true_sides_dot (K : Steady N val Fin u t M) (hN : N.Lawful) (Kc : N.Canon) (hz : ZeroOver N C)
    (h0 : C.dec (List.replicate C.sz 0) = N.zero) (hf0 : Kc.fin N.zero) (hC : CutTiny C val Fin) {B X : ℝ} (P : Room u t M f B X) (hB : 1 ≤ B)
    (hQM : 3 * (f * (X * B)) + 2 ≤ M) (h : Session (dotCfg N C R sI sP k f) numCPU pol adds trees workers s s')
    (hs : SplitsKept (dotCfg N C R sI sP k f) numCPU pol (slotCount adds) trees workers)
    (hitems : ∀ i v, lastAdded adds i = some v → Small val Fin B v) :
    ∃ ts : List Tree, ts.map Tree.root = s'.roots ∧
      (∀ t ∈ ts, RootTree (dotCfg N C R sI sP k f).L s'.alloc.data s'.nItems (addedIds adds) t) ∧
      ∀ T ∈ ts, ∀ i l r, (i, l, r) ∈ T.splits →
        (∃ m, KeptFrom (dotCfg N C R sI sP k f) s'.alloc.data i m ∧ Small val Fin X (Node.vec (dotCfg N C R sI sP k f).L C m 0) ∧
          (((∀ x ∈ l.items, ∃ v, lastAdded adds x = some v ∧ TrulyLeft val f u t (Node.vec (dotCfg N C R sI sP k f).L C m 0) v) ∧
            (∀ x ∈ r.items, ∃ v, lastAdded adds x = some v ∧ TrulyRight val f u t (Node.vec (dotCfg N C R sI sP k f).L C m 0) v)) ∨
          Node.vec (dotCfg N C R sI sP k f).L C m 0 = List.replicate f N.zero)) ∨
        (∃ j j', l = .item j ∧ r = .hole j') := by
  have hL : (dotLayout k C.sz f).Ok C.sz := h.wf.layout
  have hoff := dotLayout_off (k := k) (f := f) hL.sz_pos
  refine K.sides_of (c := dotCfg N C R sI sP k f) hN P hB hQM (dot_signSides hN)
    (fun _ _ _ _ _ _ ha he => K.createSplitDot hL (by omega) hC P hB ha he) (fun m v y hm hy => ?_) h hs hitems
  have e := (hm.blankFactor hz (by omega)).dotFactor (by omega)
  have hcan : Kc.can y = Kc.can (Vec.dot N (Node.vec (dotLayout k C.sz f) C m 0) v) := by
    rw [dot_margin_eq hy]
    refine (congrArg (fun z => Kc.can (N.add _ (N.mul z z))) (e.trans h0)).trans ?_
    exact Kc.add_zero _ (Kc.mul_zero hf0)
  exact ⟨(Kc.lt N.zero y).symm.trans ((congrArg (fun z => N.lt (Kc.can N.zero) z) hcan).trans (Kc.lt _ _)),
    (Kc.lt y N.zero).symm.trans ((congrArg (fun z => N.lt z (Kc.can N.zero)) hcan).trans (Kc.lt _ _))⟩

/-- **C122 for searches of dot product indexes**, in terms of an arithmetic.  `hval`: what comparisons cannot tell apart are the same numbers. -/
theorem Steady.margin_true_dot (K : Steady N val Fin u t M) (Kc : N.Canon) (hz : ZeroOver N C) (h0 : C.dec (List.replicate C.sz 0) = N.zero)
    (hf0 : Kc.fin N.zero) (hval : ∀ {x y : N.V}, Kc.can x = Kc.can y → Fin y → Fin x ∧ val x = val y) (hC : CutTiny C val Fin) {B X Q : ℝ}
    (P : Room u t M f B X) (hB : 1 ≤ B) (hQ : 0 ≤ Q) (hQM : 3 * (f * (X * Q)) + 2 ≤ M)
    (h : Session (dotCfg N C R sI sP k f) numCPU pol adds trees workers s s')
    (hs : SplitsKept (dotCfg N C R sI sP k f) numCPU pol (slotCount adds) trees workers)
    (hitems : ∀ i v, lastAdded adds i = some v → Small val Fin B v) {q : List N.V} (hf : 0 < f) (hq : q.length = f) (hqs : Small val Fin Q q) {i : Nat}
    (h1 : s'.nItems ≤ i) (h2 : i + s'.roots.length < s'.nNodes) (hK : (dotCfg N C R sI sP k f).L.K < ndAt (dotCfg N C R sI sP k f).L s'.alloc.data i) :
    ∃ y, (dotCfg N C R sI sP k f).D.margin s'.alloc.data (i * (dotCfg N C R sI sP k f).L.nodeSize) q = .ok y ∧ Fin y ∧
      |val y - ⟪pt f ((Node.vec (dotCfg N C R sI sP k f).L C s'.alloc.data (i * (dotCfg N C R sI sP k f).L.nodeSize)).map val), pt f (q.map val)⟫| ≤
        dotErr f u t (‖pt f ((Node.vec (dotCfg N C R sI sP k f).L C s'.alloc.data (i * (dotCfg N C R sI sP k f).L.nodeSize)).map val)‖ *
          ‖pt f (q.map val)‖) := by
  obtain ⟨y, hy⟩ := dot_marginOk (C := C) (R := R) (sI := sI) (sP := sP) (k := k) hq hf s'.alloc.data (i * (dotCfg N C R sI sP k f).L.nodeSize)
  have hL : (dotLayout k C.sz f).Ok C.sz := h.wf.layout
  have hoff := dotLayout_off (k := k) (f := f) hL.sz_pos
  have hd := K.dot_true P hQ hQM (Node.vec_length _ _ _) hq (h.stored K.approx.zero hC P.R1
    (fun _ _ _ _ _ _ ha he => K.createSplitDot hL (by omega) hC P hB ha he) hs hitems h1 h2 hK) hqs
  obtain ⟨hy1, hy2⟩ := hval (C99_margin Kc hz h0 hf0 h hs h1 h2 hK hy) hd.1
  refine ⟨y, hy, hy1, ?_⟩
  rw [hy2]
  exact hd.2

/-- Patterns that comparisons cannot tell apart are patterns of one number. -/
theorem Ieee.Fmt.Alike.real {F : Fmt} {x y : Nat} (h : F.Alike x y) (hy : F.Finite y) : F.Finite x ∧ F.real x = F.real y := by
  have key : ∀ z, F.mag z = 0 → F.real z = 0 := fun z hz => by unfold Fmt.real; rw [hz, Fmt.value_zero]; simp
  rcases h with ⟨-, h2⟩ | ⟨h1, h2⟩ | rfl
  · unfold Fmt.isNaN at h2
    unfold Fmt.Finite at hy
    simp at h2
    omega
  · refine ⟨?_, (key x h1).trans (key y h2).symm⟩
    unfold Fmt.Finite at hy ⊢
    rw [h1]
    rwa [h2] at hy
  · exact ⟨hy, rfl⟩

theorem canon32_val {x y : ieee32.V} (h : canon32.can x = canon32.can y) (hy : fin32 y) : fin32 x ∧ val32 x = val32 y :=
  ((CanonBV.can_iff (w := 32) f32_ok rfl).1 h).real hy

theorem canon64_val {x y : ieee64.V} (h : canon64.can x = canon64.can y) (hy : fin64 y) : fin64 x ∧ val64 x = val64 y :=
  ((CanonBV.can_iff (w := 64) f64_ok rfl).1 h).real hy
end

section
variable {R : Rng} {sI : List Nat → List Nat} {k f numCPU : Nat} {pol : BuildPolicy} {trees workers : Int}

/-- **C122 for the dot product with `float32`**, with the bounds of `C122_float32`. -/
theorem C122_dot32 {sP : List (ieee32.V × Nat) → List (ieee32.V × Nat)} {adds : List (Nat × List ieee32.V)}
    {s s' : Idx (dotCfg ieee32 (bvCodec 4) R sI sP k f)}
    (h : Session (dotCfg ieee32 (bvCodec 4) R sI sP k f) numCPU pol adds trees workers s s')
    (hs : SplitsKept (dotCfg ieee32 (bvCodec 4) R sI sP k f) numCPU pol (slotCount adds) trees workers) (hf : f ≤ 2 ^ 17)
    (hitems : ∀ i v, lastAdded adds i = some v → ∀ x ∈ v, fin32 x ∧ |val32 x| ≤ 2 ^ 54) :
    ∃ ts : List Tree, ts.map Tree.root = s'.roots ∧
      (∀ t ∈ ts, RootTree (dotCfg ieee32 (bvCodec 4) R sI sP k f).L s'.alloc.data s'.nItems (addedIds adds) t) ∧
      ∀ T ∈ ts, ∀ i l r, (i, l, r) ∈ T.splits →
        (∃ m, KeptFrom (dotCfg ieee32 (bvCodec 4) R sI sP k f) s'.alloc.data i m ∧
          (∀ x ∈ Node.vec (dotCfg ieee32 (bvCodec 4) R sI sP k f).L (bvCodec 4) m 0, fin32 x ∧ |val32 x| ≤ 2 ^ 12) ∧
          (((∀ x ∈ l.items, ∃ v, lastAdded adds x = some v ∧
              TrulyLeft (N := ieee32) val32 f (2 ^ (-24 : Int)) (2 ^ (-149 : Int)) (Node.vec (dotCfg ieee32 (bvCodec 4) R sI sP k f).L (bvCodec 4) m 0) v) ∧
            (∀ x ∈ r.items, ∃ v, lastAdded adds x = some v ∧
              TrulyRight (N := ieee32) val32 f (2 ^ (-24 : Int)) (2 ^ (-149 : Int)) (Node.vec (dotCfg ieee32 (bvCodec 4) R sI sP k f).L (bvCodec 4) m 0) v)) ∨
          Node.vec (dotCfg ieee32 (bvCodec 4) R sI sP k f).L (bvCodec 4) m 0 = List.replicate f ieee32.zero)) ∨
        (∃ j j', l = .item j ∧ r = .hole j') := by
  refine ieee32_steady.true_sides_dot ieee32_lawful canon32 zeroOver32 dotArith32.blank (by show f32.mag 0 < _; decide) cutTiny32 (room32 hf) (by norm_num) ?_
    h hs hitems
  have h1 : (f : ℝ) ≤ 2 ^ 17 := by exact_mod_cast hf
  have h1' : (f : ℝ) ≤ 131072 := h1.trans (by norm_num)
  norm_num
  linarith

/-- **C122 for the dot product with `float64`**, with the bounds of `C122_float64`. -/
theorem C122_dot64 {sP : List (ieee64.V × Nat) → List (ieee64.V × Nat)} {adds : List (Nat × List ieee64.V)}
    {s s' : Idx (dotCfg ieee64 (bvCodec 8) R sI sP k f)}
    (h : Session (dotCfg ieee64 (bvCodec 8) R sI sP k f) numCPU pol adds trees workers s s')
    (hs : SplitsKept (dotCfg ieee64 (bvCodec 8) R sI sP k f) numCPU pol (slotCount adds) trees workers) (hf : f ≤ 2 ^ 46)
    (hitems : ∀ i v, lastAdded adds i = some v → ∀ x ∈ v, fin64 x ∧ |val64 x| ≤ 2 ^ 476) :
    ∃ ts : List Tree, ts.map Tree.root = s'.roots ∧
      (∀ t ∈ ts, RootTree (dotCfg ieee64 (bvCodec 8) R sI sP k f).L s'.alloc.data s'.nItems (addedIds adds) t) ∧
      ∀ T ∈ ts, ∀ i l r, (i, l, r) ∈ T.splits →
        (∃ m, KeptFrom (dotCfg ieee64 (bvCodec 8) R sI sP k f) s'.alloc.data i m ∧
          (∀ x ∈ Node.vec (dotCfg ieee64 (bvCodec 8) R sI sP k f).L (bvCodec 8) m 0, fin64 x ∧ |val64 x| ≤ 2 ^ 27) ∧
          (((∀ x ∈ l.items, ∃ v, lastAdded adds x = some v ∧
              TrulyLeft (N := ieee64) val64 f (2 ^ (-53 : Int)) (2 ^ (-1074 : Int)) (Node.vec (dotCfg ieee64 (bvCodec 8) R sI sP k f).L (bvCodec 8) m 0) v) ∧
            (∀ x ∈ r.items, ∃ v, lastAdded adds x = some v ∧
              TrulyRight (N := ieee64) val64 f (2 ^ (-53 : Int)) (2 ^ (-1074 : Int)) (Node.vec (dotCfg ieee64 (bvCodec 8) R sI sP k f).L (bvCodec 8) m 0) v)) ∨
          Node.vec (dotCfg ieee64 (bvCodec 8) R sI sP k f).L (bvCodec 8) m 0 = List.replicate f ieee64.zero)) ∨
        (∃ j j', l = .item j ∧ r = .hole j') := by
  refine ieee64_steady.true_sides_dot ieee64_lawful canon64 zeroOver64 dotArith64.blank (by show f64.mag 0 < _; decide) cutTiny64 (room64 hf)
    (one_le_pow₀ (by norm_num)) ?_ h hs hitems
  have h1 : (f : ℝ) ≤ 2 ^ 46 := by exact_mod_cast hf
  have h2 : (f : ℝ) * (2 ^ 27 * 2 ^ 476) ≤ 2 ^ 46 * (2 ^ 27 * 2 ^ 476) := mul_le_mul_of_nonneg_right h1 (by positivity)
  have e : (2 : ℝ) ^ 46 * (2 ^ 27 * 2 ^ 476) = 2 ^ 549 := by rw [← pow_add, ← pow_add]
  have h3 : (2 : ℝ) ≤ 2 ^ 549 := le_self_pow₀ (by norm_num) (by norm_num)
  have h4 : (2 : ℝ) ^ 1000 = 2 ^ 451 * 2 ^ 549 := by rw [← pow_add]
  have h5 : (4 : ℝ) ≤ 2 ^ 451 := by
    calc (4 : ℝ) = 2 ^ 2 := by norm_num
      _ ≤ _ := pow_le_pow_right₀ (by norm_num) (by norm_num)
  rw [e] at h2
  rw [h4]
  have h6 : (4 : ℝ) * 2 ^ 549 ≤ 2 ^ 451 * 2 ^ 549 := mul_le_mul_of_nonneg_right h5 (by positivity)
  generalize (f : ℝ) * (2 ^ 27 * 2 ^ 476) = x at h2 ⊢
  generalize (2 : ℝ) ^ 451 * 2 ^ 549 = z at h6 ⊢
  generalize (2 : ℝ) ^ 549 = y at h2 h3 h6 ⊢
  linarith

/-- **C122 for searches of dot product indexes of `float32`**: what is computed of a query with finite components of at most `2^90` at an inner node is the inner product with the stored
vector, up to rounding. -/
theorem C122_margin_dot32 {sP : List (ieee32.V × Nat) → List (ieee32.V × Nat)} {adds : List (Nat × List ieee32.V)}
    {s s' : Idx (dotCfg ieee32 (bvCodec 4) R sI sP k f)}
    (h : Session (dotCfg ieee32 (bvCodec 4) R sI sP k f) numCPU pol adds trees workers s s')
    (hs : SplitsKept (dotCfg ieee32 (bvCodec 4) R sI sP k f) numCPU pol (slotCount adds) trees workers) (h0 : 0 < f) (hf : f ≤ 2 ^ 17)
    (hitems : ∀ i v, lastAdded adds i = some v → ∀ x ∈ v, fin32 x ∧ |val32 x| ≤ 2 ^ 54) {q : List ieee32.V} (hq : q.length = f)
    (hqs : ∀ x ∈ q, fin32 x ∧ |val32 x| ≤ 2 ^ 90) {i : Nat}
    (h1 : s'.nItems ≤ i) (h2 : i + s'.roots.length < s'.nNodes)
    (hK : (dotCfg ieee32 (bvCodec 4) R sI sP k f).L.K < ndAt (dotCfg ieee32 (bvCodec 4) R sI sP k f).L s'.alloc.data i) :
    ∃ y, (dotCfg ieee32 (bvCodec 4) R sI sP k f).D.margin s'.alloc.data (i * (dotCfg ieee32 (bvCodec 4) R sI sP k f).L.nodeSize) q = .ok y ∧ fin32 y ∧
      |val32 y - ⟪pt f ((Node.vec (dotCfg ieee32 (bvCodec 4) R sI sP k f).L (bvCodec 4) s'.alloc.data
          (i * (dotCfg ieee32 (bvCodec 4) R sI sP k f).L.nodeSize)).map val32), pt f (q.map val32)⟫| ≤
        dotErr f (2 ^ (-24 : Int)) (2 ^ (-149 : Int)) (‖pt f ((Node.vec (dotCfg ieee32 (bvCodec 4) R sI sP k f).L (bvCodec 4) s'.alloc.data
          (i * (dotCfg ieee32 (bvCodec 4) R sI sP k f).L.nodeSize)).map val32)‖ * ‖pt f (q.map val32)‖) := by
  refine ieee32_steady.margin_true_dot canon32 zeroOver32 dotArith32.blank (by show f32.mag 0 < _; decide) canon32_val cutTiny32 (room32 hf) (by norm_num)
    (Q := 2 ^ 90) (by positivity) ?_ h hs hitems h0 hq hqs h1 h2 hK
  have h1 : (f : ℝ) ≤ 2 ^ 17 := by exact_mod_cast hf
  have h1' : (f : ℝ) ≤ 131072 := h1.trans (by norm_num)
  norm_num
  linarith

/-- **C122 for searches of dot product indexes of `float64`**: what is computed of a query with finite components of at most `2^900` at an inner node is the inner product with the stored
vector, up to rounding. -/
theorem C122_margin_dot64 {sP : List (ieee64.V × Nat) → List (ieee64.V × Nat)} {adds : List (Nat × List ieee64.V)}
    {s s' : Idx (dotCfg ieee64 (bvCodec 8) R sI sP k f)}
    (h : Session (dotCfg ieee64 (bvCodec 8) R sI sP k f) numCPU pol adds trees workers s s')
    (hs : SplitsKept (dotCfg ieee64 (bvCodec 8) R sI sP k f) numCPU pol (slotCount adds) trees workers) (h0 : 0 < f) (hf : f ≤ 2 ^ 46)
    (hitems : ∀ i v, lastAdded adds i = some v → ∀ x ∈ v, fin64 x ∧ |val64 x| ≤ 2 ^ 476) {q : List ieee64.V} (hq : q.length = f)
    (hqs : ∀ x ∈ q, fin64 x ∧ |val64 x| ≤ 2 ^ 900) {i : Nat}
    (h1 : s'.nItems ≤ i) (h2 : i + s'.roots.length < s'.nNodes)
    (hK : (dotCfg ieee64 (bvCodec 8) R sI sP k f).L.K < ndAt (dotCfg ieee64 (bvCodec 8) R sI sP k f).L s'.alloc.data i) :
    ∃ y, (dotCfg ieee64 (bvCodec 8) R sI sP k f).D.margin s'.alloc.data (i * (dotCfg ieee64 (bvCodec 8) R sI sP k f).L.nodeSize) q = .ok y ∧ fin64 y ∧
      |val64 y - ⟪pt f ((Node.vec (dotCfg ieee64 (bvCodec 8) R sI sP k f).L (bvCodec 8) s'.alloc.data
          (i * (dotCfg ieee64 (bvCodec 8) R sI sP k f).L.nodeSize)).map val64), pt f (q.map val64)⟫| ≤
        dotErr f (2 ^ (-53 : Int)) (2 ^ (-1074 : Int)) (‖pt f ((Node.vec (dotCfg ieee64 (bvCodec 8) R sI sP k f).L (bvCodec 8) s'.alloc.data
          (i * (dotCfg ieee64 (bvCodec 8) R sI sP k f).L.nodeSize)).map val64)‖ * ‖pt f (q.map val64)‖) := by
  refine ieee64_steady.margin_true_dot canon64 zeroOver64 dotArith64.blank (by show f64.mag 0 < _; decide) canon64_val cutTiny64 (room64 hf)
    (one_le_pow₀ (by norm_num)) (Q := 2 ^ 900) (by positivity) ?_ h hs hitems h0 hq hqs h1 h2 hK
  have h1 : (f : ℝ) ≤ 2 ^ 46 := by exact_mod_cast hf
  have h2 : (f : ℝ) * (2 ^ 27 * 2 ^ 900) ≤ 2 ^ 46 * (2 ^ 27 * 2 ^ 900) := mul_le_mul_of_nonneg_right h1 (by positivity)
  have e : (2 : ℝ) ^ 46 * (2 ^ 27 * 2 ^ 900) = 2 ^ 973 := by rw [← pow_add, ← pow_add]
  have h3 : (2 : ℝ) ≤ 2 ^ 973 := le_self_pow₀ (by norm_num) (by norm_num)
  have h4 : (2 : ℝ) ^ 1000 = 2 ^ 27 * 2 ^ 973 := by rw [← pow_add]
  rw [e] at h2
  rw [h4]
  generalize (f : ℝ) * (2 ^ 27 * 2 ^ 900) = x at h2 ⊢
  generalize (2 : ℝ) ^ 973 = y at h2 h3 ⊢
  norm_num
  linarith

end

/-- Twenty items of length 12 in three trees of a dot product index: the hypotheses of `C122_dot32` and
`C122_margin_dot32` hold, and there are inner nodes. -/
example : ∃ s s', Session (dot32 4 12) 1 .single (longAdds 20) 3 1 s s' ∧ SplitsKept (dot32 4 12) 1 .single (slotCount (longAdds 20)) 3 1 ∧
    (∀ i v, lastAdded (longAdds 20) i = some v → ∀ x ∈ v, fin32 x ∧ |val32 x| ≤ 2 ^ 54) ∧ (∀ x ∈ query12, fin32 x ∧ |val32 x| ≤ 2 ^ 90) ∧ s'.roots.length = 3 ∧
    (dot32 4 12).L.K < slotCount (longAdds 20) := by
  obtain ⟨s, s', -, h, h1, -⟩ := C76_build (c := dot32 4 12) (.dot32 (by decide) (by decide)) 1 (longAdds 20) (legalAdds_of (by decide +kernel)) (Kiss32.new 0) 0 3 1
    (by decide +kernel)
  have hq : Moderate32 12 query12 := moderate32_of_bits (by decide) (by decide) (by decide +kernel) ⟨0, by decide +kernel⟩
  exact ⟨s, s', h, splitsKept_of_length h.wf (show 3 * 4 ≤ 12 by decide) h.fits, fun i v hi => (longAdds_moderate i v hi).bound (by norm_num),
    hq.bound (by norm_num), h1 (by decide), by decide +kernel⟩

end Annoy
