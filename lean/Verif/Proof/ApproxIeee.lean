import Verif.Proof.Approx
import Verif.Proof.IeeeSquare
/-!
The two IEEE formats satisfy `Approx`.
-/
namespace Annoy
namespace Ieee
variable {F : Fmt}

/-- A correctly rounded result: finite if the exact one is not too large, and close to it. -/
theorem Fmt.Correct.near {v : ℝ} {z b : Nat} (h : F.Correct v z) (hb : b < F.infBits) (hv : |v| ≤ F.value b) :
    F.Finite z ∧ |F.real z - v| ≤ 1 / 2 ^ (F.mb + 1) * |v| + 2 ^ F.emin / 2 := by
  obtain ⟨-, ⟨c, hc, hm⟩, hneg, hpos⟩ := h
  have hcb : c ≤ b := hc.mono (Fmt.RoundsTo.exact F b) hv
  rw [Fmt.cap_of_lt (by omega)] at hm
  refine ⟨by unfold Fmt.Finite; omega, ?_⟩
  have he : abs (F.value c - |v|) ≤ 1 / 2 ^ (F.mb + 1) * |v| + 2 ^ F.emin / 2 := by
    have hz := two_zpow_pos F.emin
    rcases le_or_gt (2 ^ F.mb * 2 ^ F.emin) |v| with h1 | h1
    · have := hc.error h1
      rw [one_div, inv_mul_eq_div]
      linarith
    · have := hc.error_unit (k := 0) (abs_nonneg v) (by
        simp only [Nat.cast_zero, _root_.add_zero]
        have : (0 : ℝ) < 2 ^ F.mb * 2 ^ F.emin := by positivity
        linarith)
      simp only [Nat.cast_zero, _root_.add_zero] at this
      have : 0 ≤ 1 / 2 ^ (F.mb + 1) * |v| := by positivity
      linarith
  rcases lt_trichotomy v 0 with h0 | h0 | h0
  · unfold Fmt.real
    rw [hneg h0, if_pos rfl, hm]
    rw [abs_of_neg h0] at he ⊢
    rw [show -F.value c - v = -(F.value c - -v) by ring, abs_neg]
    exact he
  · subst h0
    rw [abs_zero, sub_zero] at he ⊢
    rw [Fmt.abs_real, hm, ← abs_of_nonneg (F.value_nonneg c)]
    exact he
  · rw [Fmt.real_of_nonneg (hpos h0), hm]
    rw [abs_of_pos h0] at he ⊢
    exact he

theorem f32_huge : f32.value (253 * 2 ^ 23 + 2 ^ 23) = 2 ^ 127 := by
  rw [show (2 ^ 23 : Nat) = 2 ^ f32.mb from rfl, f32.value_eq (by omega) (fun _ => le_rfl)]
  have e1 : f32.emin = -149 := by decide
  have hm : f32.mb = 23 := rfl
  rw [e1, hm]
  norm_num

theorem f64_huge : f64.value (2022 * 2 ^ 52 + 2 ^ 52) = 2 ^ 1000 := by
  rw [show (2 ^ 52 : Nat) = 2 ^ f64.mb from rfl, f64.value_eq (by omega) (fun _ => le_rfl)]
  have e1 : f64.emin = -1074 := by decide
  have hm : f64.mb = 52 := rfl
  rw [e1, hm]
  have : ((2 ^ 52 : Nat) : ℝ) = 2 ^ (52 : Int) := by norm_num
  rw [this, ← zpow_add₀ (by norm_num), ← zpow_natCast]
  norm_num

theorem near32 {v : ℝ} {z : Nat} (h : f32.Correct v z) (hv : |v| ≤ 2 ^ 127) :
    f32.Finite z ∧ |f32.real z - v| ≤ 2 ^ (-24 : Int) * |v| + 2 ^ (-149 : Int) / 2 := by
  have := h.near (b := 253 * 2 ^ 23 + 2 ^ 23) (by decide) (by rw [f32_huge]; exact hv)
  have e1 : f32.emin = -149 := by decide
  have e2 : (1 : ℝ) / 2 ^ (f32.mb + 1) = 2 ^ (-24 : Int) := by
    rw [show f32.mb = 23 from rfl]; norm_num
  rwa [e1, e2] at this

theorem near64 {v : ℝ} {z : Nat} (h : f64.Correct v z) (hv : |v| ≤ 2 ^ 1000) :
    f64.Finite z ∧ |f64.real z - v| ≤ 2 ^ (-53 : Int) * |v| + 2 ^ (-1074 : Int) / 2 := by
  have := h.near (b := 2022 * 2 ^ 52 + 2 ^ 52) (by decide) (by rw [f64_huge]; exact hv)
  have e1 : f64.emin = -1074 := by decide
  have e2 : (1 : ℝ) / 2 ^ (f64.mb + 1) = 2 ^ (-53 : Int) := by
    rw [show f64.mb = 52 from rfl]; norm_num
  rwa [e1, e2] at this

theorem sqrt_le_half {x : ℝ} (h : 0 ≤ x) : Real.sqrt x ≤ (1 + x) / 2 := by
  have h1 := Real.sq_sqrt h
  nlinarith [sq_nonneg (Real.sqrt x - 1)]

/-- Two roundings of a root, as a real computation. -/
theorem twice {s r x a b c d : ℝ} (hx : 0 ≤ x) (h1 : |s - x| ≤ a * |x| + b) (h2 : |r - s| ≤ c * |s| + d)
    (hc : 0 ≤ c) (hac : a + c * (1 + a) ≤ 2 * c) (hb : 0 ≤ b) (hc1 : c ≤ 1) :
    |r - x| ≤ 2 * c * x + (2 * b + d) := by
  rw [abs_of_nonneg hx] at h1
  have hs : |s| ≤ (1 + a) * x + b := by
    have := abs_sub_abs_le_abs_sub s x
    rw [abs_of_nonneg hx] at this
    linarith
  have h3 : c * |s| ≤ c * ((1 + a) * x + b) := mul_le_mul_of_nonneg_left hs hc
  have h4 : c * b ≤ 1 * b := mul_le_mul_of_nonneg_right hc1 hb
  have h5 : (a + c * (1 + a)) * x ≤ 2 * c * x := mul_le_mul_of_nonneg_right hac hx
  have h6 : |r - x| ≤ |r - s| + |s - x| := by
    have := abs_add_le (r - s) (s - x)
    rwa [show r - s + (s - x) = r - x by ring] at this
  linarith

theorem sqrt32_near {x : Nat} (hx : f32.Finite x) (h0 : 0 ≤ f32.real x) (hM : f32.real x ≤ 2 ^ 127) :
    f32.Finite (conv f64 f32 (f64.sqrt (conv f32 f64 x))) ∧
    |f32.real (conv f64 f32 (f64.sqrt (conv f32 f64 x))) - Real.sqrt (f32.real x)| ≤
      2 * 2 ^ (-24 : Int) * Real.sqrt (f32.real x) + 2 ^ (-149 : Int) := by
  obtain ⟨u1, u2⟩ := conv_up hx
  have hsq := f64.sqrt_correct f64_ok (conv_lt f64_ok _) u1 (by rw [u2]; exact h0)
  rw [u2] at hsq
  have hr0 := Real.sqrt_nonneg (f32.real x)
  have hle := sqrt_le_half h0
  set g := Real.sqrt (f32.real x)
  have hg : g ≤ 2 ^ 126 + 1 := by
    have : (2 : ℝ) ^ 127 = 2 * 2 ^ 126 := by norm_num
    linarith
  obtain ⟨f1, n1⟩ := near64 hsq (by
    rw [abs_of_nonneg hr0]
    refine hg.trans ?_
    have : (2 : ℝ) ^ 126 + 1 ≤ 2 ^ 127 := by norm_num
    exact this.trans (pow_le_pow_right₀ (by norm_num) (by norm_num)))
  have tiny : (2 : ℝ) ^ (-1074 : Int) ≤ 2 ^ (-160 : Int) := zpow_le_zpow_right₀ (by norm_num) (by norm_num)
  have n1' : |f64.real (f64.sqrt (conv f32 f64 x)) - g| ≤ 2 ^ (-53 : Int) * |g| + 2 ^ (-160 : Int) / 2 := by
    refine n1.trans ?_
    have := div_le_div_of_nonneg_right tiny (by norm_num : (0 : ℝ) ≤ 2)
    exact add_le_add le_rfl this
  obtain ⟨f2, n2⟩ := near32 (conv_correct f32_ok f1) (by
    have h1 := abs_sub_abs_le_abs_sub (f64.real (f64.sqrt (conv f32 f64 x))) g
    rw [abs_of_nonneg hr0] at n1' h1
    have h2 : (2 : ℝ) ^ (-53 : Int) * g ≤ 1 / 2 * g := mul_le_mul_of_nonneg_right (by norm_num) hr0
    have h3 : (2 : ℝ) ^ (-160 : Int) ≤ 1 := by norm_num
    have h4 : (3 : ℝ) / 2 * (2 ^ 126 + 1) + 1 ≤ 2 ^ 127 := by norm_num
    linarith)
  refine ⟨f2, (twice hr0 n1' n2 (by positivity) (by norm_num) (by positivity) (by norm_num)).trans ?_⟩
  have : (2 : ℝ) * (2 ^ (-160 : Int) / 2) + 2 ^ (-149 : Int) / 2 ≤ 2 ^ (-149 : Int) := by norm_num
  linarith

end Ieee
open Ieee

theorem toNat32 {z : Nat} (h : z < 2 * f32.signBit) : (BitVec.ofNat 32 z).toNat = z := by
  rw [BitVec.toNat_ofNat]; exact Nat.mod_eq_of_lt h

theorem toNat64 {z : Nat} (h : z < 2 * f64.signBit) : (BitVec.ofNat 64 z).toNat = z := by
  rw [BitVec.toNat_ofNat]; exact Nat.mod_eq_of_lt h

/-- The value of a `float32`. -/
noncomputable def val32 (x : ieee32.V) : ℝ := f32.real (BitVec.toNat (w := 32) x)
/-- It is a number, and not infinite. -/
def fin32 (x : ieee32.V) : Prop := f32.Finite (BitVec.toNat (w := 32) x)
/-- The value of a `float64`. -/
noncomputable def val64 (x : ieee64.V) : ℝ := f64.real (BitVec.toNat (w := 64) x)
/-- It is a number, and not infinite. -/
def fin64 (x : ieee64.V) : Prop := f64.Finite (BitVec.toNat (w := 64) x)

theorem op32 {v : ℝ} {z : Nat} (h : f32.Correct v z) (hv : |v| ≤ 2 ^ 127) :
    fin32 (BitVec.ofNat 32 z) ∧ |val32 (BitVec.ofNat 32 z) - v| ≤ 2 ^ (-24 : Int) * |v| + 2 ^ (-149 : Int) := by
  obtain ⟨h1, h2⟩ := near32 h hv
  have h3 := two_zpow_pos (-149)
  unfold fin32 val32
  rw [toNat32 h.1]
  exact ⟨h1, h2.trans (add_le_add le_rfl (half_le_self h3.le))⟩

theorem op64 {v : ℝ} {z : Nat} (h : f64.Correct v z) (hv : |v| ≤ 2 ^ 1000) :
    fin64 (BitVec.ofNat 64 z) ∧ |val64 (BitVec.ofNat 64 z) - v| ≤ 2 ^ (-53 : Int) * |v| + 2 ^ (-1074 : Int) := by
  obtain ⟨h1, h2⟩ := near64 h hv
  have h3 := two_zpow_pos (-1074)
  unfold fin64 val64
  rw [toNat64 h.1]
  exact ⟨h1, h2.trans (add_le_add le_rfl (half_le_self h3.le))⟩

theorem bits_two32 : f32.real 0x40000000 = 2 := by
  have hn : f32.isNeg 0x40000000 = false := by decide
  have hm : f32.mag 0x40000000 = 127 * 2 ^ f32.mb + 2 ^ f32.mb := by decide
  have e1 : f32.emin = -149 := by decide
  rw [Fmt.real_of_nonneg hn, hm, f32.value_eq (by omega) (fun _ => le_rfl), e1, show f32.mb = 23 from rfl]
  norm_num

theorem ieee32_approx : Approx ieee32 val32 fin32 (2 ^ (-24 : Int)) (2 ^ (-149 : Int)) (2 ^ 127) where
  zero := ⟨by show f32.mag 0 < f32.infBits; decide, by show f32.real 0 = 0; simp [Fmt.real, Fmt.mag, Fmt.value_zero]⟩
  two := ⟨by show f32.mag 0x40000000 < f32.infBits; decide, bits_two32⟩
  add _ _ hx hy h := op32 (f32.add_correct f32_ok hx hy) h
  sub _ _ hx hy h := op32 (f32.sub_correct f32_ok hx hy) h
  mul _ _ hx hy h := op32 (f32.mul_correct f32_ok hx hy) h
  div _ _ hx hy h0 h := op32 (f32.div_correct f32_ok hx hy h0) h
  sqrt x hx h0 h := by
    obtain ⟨h1, h2⟩ := sqrt32_near hx h0 h
    show fin32 (BitVec.ofNat 32 _) ∧ |val32 (BitVec.ofNat 32 _) - _| ≤ _
    unfold fin32 val32
    rw [toNat32 (conv_lt f32_ok _)]
    exact ⟨h1, h2⟩
  lt _ _ hx hy := Fmt.lt_correct hx hy
  ordinary _ hx := (Fmt.eq_correct hx hx).2 rfl

theorem bits_two64 : f64.real 0x4000000000000000 = 2 := by
  have hn : f64.isNeg 0x4000000000000000 = false := by decide
  have hm : f64.mag 0x4000000000000000 = 1023 * 2 ^ f64.mb + 2 ^ f64.mb := by decide
  have e1 : f64.emin = -1074 := by decide
  rw [Fmt.real_of_nonneg hn, hm, f64.value_eq (by omega) (fun _ => le_rfl), e1, show f64.mb = 52 from rfl]
  have : ((2 ^ 52 : Nat) : ℝ) = 2 ^ (52 : Int) := by norm_num
  rw [this, ← zpow_add₀ (by norm_num)]
  norm_num

theorem ieee64_approx : Approx ieee64 val64 fin64 (2 ^ (-53 : Int)) (2 ^ (-1074 : Int)) (2 ^ 1000) where
  zero := ⟨by show f64.mag 0 < f64.infBits; decide, by show f64.real 0 = 0; simp [Fmt.real, Fmt.mag, Fmt.value_zero]⟩
  two := ⟨by show f64.mag 0x4000000000000000 < f64.infBits; decide, bits_two64⟩
  add _ _ hx hy h := op64 (f64.add_correct f64_ok hx hy) h
  sub _ _ hx hy h := op64 (f64.sub_correct f64_ok hx hy) h
  mul _ _ hx hy h := op64 (f64.mul_correct f64_ok hx hy) h
  div _ _ hx hy h0 h := op64 (f64.div_correct f64_ok hx hy h0) h
  sqrt x hx h0 h := by
    have hs := Real.sqrt_nonneg (val64 x)
    obtain ⟨h1, h2⟩ := op64 (f64.sqrt_correct f64_ok (BitVec.isLt (w := 64) x) hx h0) (by
      show |Real.sqrt (val64 x)| ≤ _
      rw [abs_of_nonneg hs]
      have := sqrt_le_half h0
      have h1 : (1 : ℝ) ≤ 2 ^ 1000 := one_le_pow₀ (by norm_num)
      generalize (2 : ℝ) ^ 1000 = M at *
      linarith)
    refine ⟨h1, h2.trans ?_⟩
    show 2 ^ (-53 : Int) * |Real.sqrt (val64 x)| + _ ≤ _
    rw [abs_of_nonneg hs]
    have : 0 ≤ (2 : ℝ) ^ (-53 : Int) * Real.sqrt (val64 x) := by positivity
    generalize (2 : ℝ) ^ (-1074 : Int) = t at *
    linarith
  lt _ _ hx hy := Fmt.lt_correct hx hy
  ordinary _ hx := (Fmt.eq_correct hx hx).2 rfl

/-- The norms for which the analysis holds with `float32`. -/
theorem scale32 : Scale (2 ^ (-24 : Int)) (2 ^ (-149 : Int)) (2 ^ 127) ((2 ^ (-31 : Int)) ^ 2) ((2 ^ 31) ^ 2) where
  u0 := by norm_num
  u1 := by norm_num
  t0 := by positivity
  L0 := by positivity
  L1 := by norm_num
  B1 := by norm_num
  norms := by norm_num
  product := by norm_num
  large := by norm_num

/-- The norms for which the analysis holds with `float64`. -/
theorem scale64 : Scale (2 ^ (-53 : Int)) (2 ^ (-1074 : Int)) (2 ^ 1000) ((2 ^ (-249 : Int)) ^ 2) ((2 ^ 249) ^ 2) where
  u0 := by norm_num
  u1 := by norm_num
  t0 := by positivity
  L0 := by positivity
  L1 := pow_le_one₀ (by positivity) (zpow_le_one_of_nonpos₀ (by norm_num) (by norm_num))
  B1 := one_le_pow₀ (one_le_pow₀ (by norm_num))
  norms := by
    rw [← zpow_natCast, ← zpow_natCast, ← zpow_mul, ← zpow_mul, ← zpow_add₀ (by norm_num)]
    exact zpow_le_zpow_right₀ (by norm_num) (by norm_num)
  product := by
    rw [← pow_mul, ← zpow_natCast, ← zpow_mul, ← zpow_add₀ (by norm_num)]
    have : (2 : ℝ) * 2 ^ (-1074 : Int) = 2 ^ (-1073 : Int) := by
      rw [show (-1073 : Int) = 1 + -1074 by norm_num, zpow_add₀ (by norm_num), zpow_one]
    rw [this]
    exact zpow_le_zpow_right₀ (by norm_num) (by norm_num)
  large := by
    rw [← pow_mul, ← pow_mul, show (8 : ℝ) = 2 ^ 3 by norm_num, ← pow_add]
    exact pow_le_pow_right₀ (by norm_num) (by norm_num)

end Annoy
