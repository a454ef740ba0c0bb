import Verif.Props.Distance
import Verif.Proof.IeeeSquare
/-!
# Equal vectors have distance zero (C82)

The code divides twice the inner product by the square root of the product of the squared norms (distance/angular/distance.go:80-105) in the
float type of the index.  For two items with the same vector all three products are the same rounded number `p`, and the reported distance is
`sqrt(2 - 2p/sqrt(p*p))`.  It is exactly zero iff the rounding of `p*p` is undone by the root.
-/
namespace Annoy
open Ieee

theorem Ieee.Fmt.bits_pos {F : Fmt} {x : Nat} (hx : x < 2 * F.signBit) (h : 0 < F.real x) : F.isNeg x = false ∧ F.mag x = x := by
  have hn : F.isNeg x = false := by
    by_contra hc
    rw [Bool.not_eq_false] at hc
    unfold Fmt.real at h
    rw [if_pos hc] at h
    have := F.value_nonneg (F.mag x)
    linarith
  refine ⟨hn, ?_⟩
  have := F.signed_mag hx
  rw [hn] at this
  simpa [Fmt.signed] using this

theorem value_pow (F : Fmt) (k : Nat) : F.value (k * 2 ^ F.mb + 2 ^ F.mb) = 2 ^ ((F.mb : Int) + F.emin + k) := by
  rw [F.value_eq (by omega) (fun _ => le_rfl)]
  push_cast
  rw [← zpow_natCast, ← zpow_add₀ (by norm_num : (2 : ℝ) ≠ 0)]
  congr 1
  ring

/-- A `float32` in `[2^-63, 2^64)`: its pattern. -/
theorem range32 {x : Nat} (hx : x < 2 * f32.signBit) (h1 : (2 : ℝ) ^ (-63 : Int) ≤ f32.real x) (h2 : f32.real x < 2 ^ (64 : Int)) :
    f32.SquareOk x ∧ x + 2 ^ f32.mb < f32.infBits := by
  obtain ⟨hn, hm⟩ := Fmt.bits_pos hx (lt_of_lt_of_le (two_zpow_pos _) h1)
  rw [Fmt.real_of_nonneg hn, hm] at h1 h2
  have e1 : f32.value (63 * 2 ^ f32.mb + 2 ^ f32.mb) = 2 ^ (-63 : Int) := by rw [value_pow]; congr 1
  have e2 : f32.value (190 * 2 ^ f32.mb + 2 ^ f32.mb) = 2 ^ (64 : Int) := by rw [value_pow]; congr 1
  rw [← e1, f32.value_strictMono.le_iff_le] at h1
  rw [← e2, f32.value_strictMono.lt_iff_lt] at h2
  have hmb : f32.mb = 23 := rfl
  have hemin : f32.emin = -149 := by decide
  have hinf : f32.infBits = 255 * 2 ^ 23 := by decide
  rw [hmb] at h1 h2
  obtain ⟨k, q, hb, hq, hk⟩ := f32.split_mag x
  rw [hmb] at hb hq hk
  have hk0 : 63 ≤ k := by omega
  have := hk (by omega)
  refine ⟨⟨k, q, 2 * k - 126, hb, this, hq, ?_, ?_⟩, ?_⟩
  · rw [hmb, hemin, Nat.cast_sub (by omega)]; push_cast; ring
  · rw [hmb, hinf]; exact Nat.mul_le_mul_right _ (by omega)
  · rw [hmb, hinf]; omega

/-- The same from the pattern. -/
theorem range32_of_bits {x : Nat} (h1 : 64 * 2 ^ f32.mb ≤ x) (h2 : x < 191 * 2 ^ f32.mb) :
    (2 : ℝ) ^ (-63 : Int) ≤ f32.real x ∧ f32.real x < 2 ^ (64 : Int) := by
  have e1 : f32.value (63 * 2 ^ f32.mb + 2 ^ f32.mb) = 2 ^ (-63 : Int) := by rw [value_pow]; congr 1
  have e2 : f32.value (190 * 2 ^ f32.mb + 2 ^ f32.mb) = 2 ^ (64 : Int) := by rw [value_pow]; congr 1
  have hs : f32.signBit = 256 * 2 ^ f32.mb := by decide
  have hm : f32.mag x = x := Nat.mod_eq_of_lt (by omega)
  have hn : f32.isNeg x = false := by
    unfold Fmt.isNeg
    simpa using (show x < f32.signBit by omega)
  rw [Fmt.real_of_nonneg hn, hm, ← e1, ← e2, f32.value_strictMono.le_iff_le, f32.value_strictMono.lt_iff_lt]
  omega

/-- A `float64` in `[2^-511, 2^512)`: its pattern. -/
theorem range64 {x : Nat} (hx : x < 2 * f64.signBit) (h1 : (2 : ℝ) ^ (-511 : Int) ≤ f64.real x) (h2 : f64.real x < 2 ^ (512 : Int)) :
    f64.SquareOk x ∧ x + 2 ^ f64.mb < f64.infBits := by
  obtain ⟨hn, hm⟩ := Fmt.bits_pos hx (lt_of_lt_of_le (two_zpow_pos _) h1)
  rw [Fmt.real_of_nonneg hn, hm] at h1 h2
  have e1 : f64.value (511 * 2 ^ f64.mb + 2 ^ f64.mb) = 2 ^ (-511 : Int) := by rw [value_pow]; congr 1
  have e2 : f64.value (1534 * 2 ^ f64.mb + 2 ^ f64.mb) = 2 ^ (512 : Int) := by rw [value_pow]; congr 1
  rw [← e1, f64.value_strictMono.le_iff_le] at h1
  rw [← e2, f64.value_strictMono.lt_iff_lt] at h2
  have hmb : f64.mb = 52 := rfl
  have hemin : f64.emin = -1074 := by decide
  have hinf : f64.infBits = 2047 * 2 ^ 52 := by decide
  rw [hmb] at h1 h2
  obtain ⟨k, q, hb, hq, hk⟩ := f64.split_mag x
  rw [hmb] at hb hq hk
  have hk0 : 511 ≤ k := by omega
  have := hk (by omega)
  refine ⟨⟨k, q, 2 * k - 1022, hb, this, hq, ?_, ?_⟩, ?_⟩
  · rw [hmb, hemin, Nat.cast_sub (by omega)]; push_cast; ring
  · rw [hmb, hinf]; exact Nat.mul_le_mul_right _ (by omega)
  · rw [hmb, hinf]; omega

theorem real_two32 : f32.real f32.two = 2 := by
  have e : f32.two = 127 * 2 ^ f32.mb + 2 ^ f32.mb := by decide
  rw [Fmt.real_of_nonneg (by decide), show f32.mag f32.two = f32.two by decide, e, value_pow]
  have : ((f32.mb : Int) + f32.emin + (127 : Nat)) = 1 := by decide
  rw [this]; norm_num

theorem real_two64 : f64.real f64.two = 2 := by
  have e : f64.two = 1023 * 2 ^ f64.mb + 2 ^ f64.mb := by decide
  rw [Fmt.real_of_nonneg (by decide), show f64.mag f64.two = f64.two by decide, e, value_pow]
  have : ((f64.mb : Int) + f64.emin + (1023 : Nat)) = 1 := by decide
  rw [this]; norm_num

/-- The parts of the formula for equal `float32` vectors. -/
theorem formula_parts32 {p : ieee32.V} (h1 : (2 : ℝ) ^ (-63 : Int) ≤ f32.real (BitVec.toNat p)) (h2 : f32.real (BitVec.toNat p) < 2 ^ (64 : Int)) :
    ieee32.lt ieee32.zero (ieee32.mul p p) = true ∧ ieee32.sqrt (ieee32.mul p p) = p ∧ ieee32.div (ieee32.mul ieee32.two p) p = ieee32.two := by
  obtain ⟨hs, hb⟩ := range32 (bv32_lt p) h1 h2
  have hx : BitVec.toNat p < f32.infBits := Nat.lt_of_le_of_lt (Nat.le_add_right _ _) hb
  have hroot : ieee32.sqrt (ieee32.mul p p) = p := by
    have hml : f32.mul (BitVec.toNat p) (BitVec.toNat p) < 2 ^ 32 := f32.mul_lt f32_ok _ _
    show BitVec.ofNat 32 (conv f64 f32 (f64.sqrt (conv f32 f64 (BitVec.ofNat 32 _).toNat))) = p
    rw [BitVec.toNat_ofNat, Nat.mod_eq_of_lt hml, sqrt32_square hx hs]
    exact (BitVec.ofNat_toNat _ _).trans (BitVec.setWidth_eq _)
  obtain ⟨k, q, j, e, hq1, hq2, hj, hinf⟩ := hs
  have hdiv : ieee32.div (ieee32.mul ieee32.two p) p = ieee32.two := by
    have hml : f32.mul f32.two (BitVec.toNat p) < 2 ^ 32 := f32.mul_lt f32_ok _ _
    show BitVec.ofNat 32 (f32.div (BitVec.ofNat 32 (f32.mul (BitVec.ofNat 32 f32.two).toNat (BitVec.toNat p))).toNat (BitVec.toNat p)) = _
    rw [show (BitVec.ofNat 32 f32.two).toNat = f32.two by decide, BitVec.toNat_ofNat, Nat.mod_eq_of_lt hml,
      f32.two_mul_div f32_ok e hq1 hq2 hb (by decide) real_two32]
    rfl
  have hpos : ieee32.lt ieee32.zero (ieee32.mul p p) = true := by
    have hml : f32.mul (BitVec.toNat p) (BitVec.toNat p) < 2 ^ 32 := f32.mul_lt f32_ok _ _
    have hsb := f32.infBits_lt
    have hmag : f32.mag (BitVec.toNat p) = k * 2 ^ f32.mb + q := by rw [← e]; exact Nat.mod_eq_of_lt (by omega)
    obtain ⟨s1, s2, s3, -, -⟩ := f32.square_spec f32_ok (by decide)
      (show f32.Finite (BitVec.toNat p) by unfold Fmt.Finite; rw [hmag, ← e]; exact hx) hmag hq1 hq2 hj hinf
    show f32.lt 0 (BitVec.ofNat 32 _).toNat = true
    rw [BitVec.toNat_ofNat, Nat.mod_eq_of_lt hml, Fmt.lt_correct (show f32.Finite 0 by unfold Fmt.Finite; decide) s1]
    refine lt_of_eq_of_lt ?_ s3
    rw [Fmt.real_of_nonneg (by decide), show f32.mag 0 = 0 by decide, Fmt.value_zero]
  exact ⟨hpos, hroot, hdiv⟩

/-- The formula for equal `float32` vectors. -/
theorem formula_self32 {v : List ieee32.V} (h1 : (2 : ℝ) ^ (-63 : Int) ≤ f32.real (BitVec.toNat (Vec.dot ieee32 v v)))
    (h2 : f32.real (BitVec.toNat (Vec.dot ieee32 v v)) < 2 ^ (64 : Int)) : angularFormula ieee32 v v = ieee32.zero := by
  obtain ⟨hpos, hroot, hdiv⟩ := formula_parts32 h1 h2
  unfold angularFormula
  rw [if_pos hpos, hroot, hdiv]
  decide +kernel

/-- The parts of the formula for equal `float64` vectors. -/
theorem formula_parts64 {p : ieee64.V} (h1 : (2 : ℝ) ^ (-511 : Int) ≤ f64.real (BitVec.toNat p)) (h2 : f64.real (BitVec.toNat p) < 2 ^ (512 : Int)) :
    ieee64.lt ieee64.zero (ieee64.mul p p) = true ∧ ieee64.sqrt (ieee64.mul p p) = p ∧ ieee64.div (ieee64.mul ieee64.two p) p = ieee64.two := by
  obtain ⟨hs, hb⟩ := range64 (BitVec.isLt p) h1 h2
  have hx : BitVec.toNat p < f64.infBits := Nat.lt_of_le_of_lt (Nat.le_add_right _ _) hb
  have hroot : ieee64.sqrt (ieee64.mul p p) = p := by
    have hml : f64.mul (BitVec.toNat p) (BitVec.toNat p) < 2 ^ 64 := f64.mul_lt f64_ok _ _
    show BitVec.ofNat 64 (f64.sqrt (BitVec.ofNat 64 _).toNat) = p
    rw [BitVec.toNat_ofNat, Nat.mod_eq_of_lt hml, f64.sqrt_square f64_ok (by decide) hx hs]
    exact (BitVec.ofNat_toNat _ _).trans (BitVec.setWidth_eq _)
  obtain ⟨k, q, j, e, hq1, hq2, hj, hinf⟩ := hs
  have hdiv : ieee64.div (ieee64.mul ieee64.two p) p = ieee64.two := by
    have hml : f64.mul f64.two (BitVec.toNat p) < 2 ^ 64 := f64.mul_lt f64_ok _ _
    show BitVec.ofNat 64 (f64.div (BitVec.ofNat 64 (f64.mul (BitVec.ofNat 64 f64.two).toNat (BitVec.toNat p))).toNat (BitVec.toNat p)) = _
    rw [show (BitVec.ofNat 64 f64.two).toNat = f64.two by decide, BitVec.toNat_ofNat, Nat.mod_eq_of_lt hml,
      f64.two_mul_div f64_ok e hq1 hq2 hb (by decide) real_two64]
    rfl
  have hpos : ieee64.lt ieee64.zero (ieee64.mul p p) = true := by
    have hml : f64.mul (BitVec.toNat p) (BitVec.toNat p) < 2 ^ 64 := f64.mul_lt f64_ok _ _
    have hsb := f64.infBits_lt
    have hmag : f64.mag (BitVec.toNat p) = k * 2 ^ f64.mb + q := by rw [← e]; exact Nat.mod_eq_of_lt (by omega)
    obtain ⟨s1, s2, s3, -, -⟩ := f64.square_spec f64_ok (by decide)
      (show f64.Finite (BitVec.toNat p) by unfold Fmt.Finite; rw [hmag, ← e]; exact hx) hmag hq1 hq2 hj hinf
    show f64.lt 0 (BitVec.ofNat 64 _).toNat = true
    rw [BitVec.toNat_ofNat, Nat.mod_eq_of_lt hml, Fmt.lt_correct (show f64.Finite 0 by unfold Fmt.Finite; decide) s1]
    refine lt_of_eq_of_lt ?_ s3
    rw [Fmt.real_of_nonneg (by decide), show f64.mag 0 = 0 by decide, Fmt.value_zero]
  exact ⟨hpos, hroot, hdiv⟩

/-- The formula for equal `float64` vectors. -/
theorem formula_self64 {v : List ieee64.V} (h1 : (2 : ℝ) ^ (-511 : Int) ≤ f64.real (BitVec.toNat (Vec.dot ieee64 v v)))
    (h2 : f64.real (BitVec.toNat (Vec.dot ieee64 v v)) < 2 ^ (512 : Int)) : angularFormula ieee64 v v = ieee64.zero := by
  obtain ⟨hpos, hroot, hdiv⟩ := formula_parts64 h1 h2
  unfold angularFormula
  rw [if_pos hpos, hroot, hdiv]
  decide +kernel

theorem root_zero32 : (ieee32.sqrt ieee32.zero : ieee32.V) = (0 : BitVec 32) := by
  change (BitVec.ofNat 32 _ : BitVec 32) = (0 : BitVec 32)
  decide +kernel

theorem root_zero64 : (ieee64.sqrt ieee64.zero : ieee64.V) = (0 : BitVec 64) := by
  change (BitVec.ofNat 64 _ : BitVec 64) = (0 : BitVec 64)
  decide +kernel

section
variable {R : Rng} {sortIds : List Nat → List Nat} {k f numCPU : Nat} {pol : BuildPolicy} {trees workers : Int} {i j : Nat}

/-- **C82 for `float32`, what holds**: on a built angular index `GetDistance` of two items with the same vector, and of an item and itself, is
exactly `+0` if the computed squared norm lies in `[2^-63, 2^64)`, whatever the rounding errors in that norm.  Missing for the full claim:
vectors outside, for which it is false, `C82_tiny_refuted`, `C82_huge_refuted`. -/
theorem C82_float32_partial {sortP} {C : Codec ieee32.V} {adds : List (Nat × List ieee32.V)} {s s' : Idx (angularCfg ieee32 C R sortIds sortP k f)}
    (h : Session (angularCfg ieee32 C R sortIds sortP k f) numCPU pol adds trees workers s s') (w : World) {v : List ieee32.V}
    (hi : lastAdded adds i = some v) (hj : lastAdded adds j = some v)
    (h1 : (2 : ℝ) ^ (-63 : Int) ≤ f32.real (BitVec.toNat (Vec.dot ieee32 v v)))
    (h2 : f32.real (BitVec.toNat (Vec.dot ieee32 v v)) < 2 ^ (64 : Int)) :
    s'.getDistance w i j = .ok (0 : BitVec 32) := by
  rw [C66_angular_value ieee32_mulLaws h w hi hj, formula_self32 h1 h2]
  exact congrArg Except.ok root_zero32

/-- **C82 for `float64`, what holds**: the same with the squared norm in `[2^-511, 2^512)`. -/
theorem C82_float64_partial {sortP} {C : Codec ieee64.V} {adds : List (Nat × List ieee64.V)} {s s' : Idx (angularCfg ieee64 C R sortIds sortP k f)}
    (h : Session (angularCfg ieee64 C R sortIds sortP k f) numCPU pol adds trees workers s s') (w : World) {v : List ieee64.V}
    (hi : lastAdded adds i = some v) (hj : lastAdded adds j = some v)
    (h1 : (2 : ℝ) ^ (-511 : Int) ≤ f64.real (BitVec.toNat (Vec.dot ieee64 v v)))
    (h2 : f64.real (BitVec.toNat (Vec.dot ieee64 v v)) < 2 ^ (512 : Int)) :
    s'.getDistance w i j = .ok (0 : BitVec 64) := by
  rw [C66_angular_value ieee64_mulLaws h w hi hj, formula_self64 h1 h2]
  exact congrArg Except.ok root_zero64

/-- **C82 is false for short vectors**: the item `(2^-40, 0)` of any built `float32` angular index has distance `√2` (as a `float32`) to itself:
the product of the squared norms underflows to zero. -/
theorem C82_tiny_refuted {sortP} {C : Codec ieee32.V} {adds : List (Nat × List ieee32.V)} {s s' : Idx (angularCfg ieee32 C R sortIds sortP k f)}
    (h : Session (angularCfg ieee32 C R sortIds sortP k f) numCPU pol adds trees workers s s') (w : World)
    (hi : lastAdded adds i = some [x32 0x2B800000, x32 0]) : s'.getDistance w i i = .ok (x32 0x3FB504F3) := by
  rw [C66_angular_value ieee32_mulLaws h w hi hi]
  exact congrArg Except.ok (show ieee32.sqrt (angularFormula ieee32 [x32 0x2B800000, x32 0] [x32 0x2B800000, x32 0]) = x32 0x3FB504F3 by decide +kernel)

/-- **C82 is false for long vectors**: the same for the item `(2^32, 0)`: the product of the squared norms overflows. -/
theorem C82_huge_refuted {sortP} {C : Codec ieee32.V} {adds : List (Nat × List ieee32.V)} {s s' : Idx (angularCfg ieee32 C R sortIds sortP k f)}
    (h : Session (angularCfg ieee32 C R sortIds sortP k f) numCPU pol adds trees workers s s') (w : World)
    (hi : lastAdded adds i = some [x32 0x4F800000, x32 0]) : s'.getDistance w i i = .ok (x32 0x3FB504F3) := by
  rw [C66_angular_value ieee32_mulLaws h w hi hi]
  exact congrArg Except.ok (show ieee32.sqrt (angularFormula ieee32 [x32 0x4F800000, x32 0] [x32 0x4F800000, x32 0]) = x32 0x3FB504F3 by decide +kernel)

/-- **C82, C45**: for `(2^64, 0)` the squared norm itself overflows and the distance of the item to itself is not a number. -/
theorem C82_nan_refuted {sortP} {C : Codec ieee32.V} {adds : List (Nat × List ieee32.V)} {s s' : Idx (angularCfg ieee32 C R sortIds sortP k f)}
    (h : Session (angularCfg ieee32 C R sortIds sortP k f) numCPU pol adds trees workers s s') (w : World)
    (hi : lastAdded adds i = some [x32 0x5F800000, x32 0]) :
    ∃ d : ieee32.V, s'.getDistance w i i = .ok d ∧ ¬ ieee32.Ordinary d :=
  ⟨_, C66_angular_value ieee32_mulLaws h w hi hi, by decide +kernel⟩

end

/-- Items for all of these: an ordinary vector twice (inexact squared norm), a short, a long and a very long one. -/
def selfAdds : List (Nat × List ieee32.V) :=
  [(0, [x32 0x3E99999A, x32 0x3F666666]), (1, [x32 0x3E99999A, x32 0x3F666666]), (2, [x32 0x2B800000, x32 0]), (3, [x32 0x4F800000, x32 0]),
    (4, [x32 0x5F800000, x32 0])]

example : ∃ s s', Session (alt32 2) 1 .single selfAdds 1 1 s s' ∧
    (∀ w, s'.getDistance w 0 1 = .ok (0 : BitVec 32)) ∧ (∀ w, s'.getDistance w 1 1 = .ok (0 : BitVec 32)) ∧
    (∀ w, s'.getDistance w 2 2 = .ok (x32 0x3FB504F3)) ∧ (∀ w, s'.getDistance w 3 3 = .ok (x32 0x3FB504F3)) ∧
    lastAdded selfAdds 4 = some [x32 0x5F800000, x32 0] := by
  obtain ⟨s, s', _, h, h1, _⟩ := C10_single (c := alt32 2) (alt32_wf (by decide))
    (Conc.angular_total altRng_inRange (by decide)) (alt32_balanced 2) 1 selfAdds
    (legalAdds_of (by decide +kernel)) false 0 1 1 (by decide +kernel)
  have hd : BitVec.toNat (Vec.dot ieee32 [x32 0x3E99999A, x32 0x3F666666] [x32 0x3E99999A, x32 0x3F666666]) = 0x3F666666 := by decide +kernel
  obtain ⟨l, u⟩ := range32_of_bits (x := 0x3F666666) (by decide) (by decide)
  rw [← hd] at l u
  exact ⟨s, s', h, fun w => C82_float32_partial h w (by decide +kernel) (by decide +kernel) l u,
    fun w => C82_float32_partial h w (by decide +kernel) (by decide +kernel) l u,
    fun w => C82_tiny_refuted h w (by decide +kernel), fun w => C82_huge_refuted h w (by decide +kernel), by decide +kernel⟩

end Annoy
