import Verif.Model.Round
import Verif.Proof.FloatInt
import Verif.Proof.SteadyIeee
/-!
# `utils.Round` (C94)
-/
namespace Annoy
open Ieee

namespace Ieee
variable {F : Fmt}

theorem Fmt.Correct.finite_mag {v : ℝ} {z : Nat} (h : F.Correct v z) (hz : F.Finite z) : F.RoundsTo |v| (F.mag z) := by
  obtain ⟨_, ⟨b, hb, hm⟩, _, _⟩ := h
  unfold Fmt.Finite at hz
  rw [hm] at hz ⊢
  unfold Fmt.cap at hz ⊢
  split at hz
  · omega
  · next h => rw [if_neg h]; exact hb

/-- Rounding does not pass a number of the format. -/
theorem Fmt.Correct.le {v : ℝ} {z y : Nat} (h : F.Correct v z) (hz : F.Finite z) (hv : v ≤ F.real y) : F.real z ≤ F.real y := by
  have hm := h.finite_mag hz
  have hy := F.abs_real y
  have hr := Fmt.RoundsTo.exact F (F.mag y)
  rw [← hy] at hr
  rcases lt_trichotomy v 0 with h0 | h0 | h0
  · have e : F.real z = -F.value (F.mag z) := by unfold Fmt.real; rw [h.2.2.1 h0, if_pos rfl]
    rcases le_or_gt 0 (F.real y) with h1 | h1
    · have := F.value_nonneg (F.mag z)
      rw [e]; linarith
    · have h2 : |F.real y| ≤ |v| := by rw [abs_of_neg h1, abs_of_neg h0]; linarith
      have h3 := F.value_strictMono.monotone (hr.mono hm h2)
      rw [← hy, abs_of_neg h1] at h3
      rw [e]; linarith
  · rw [h0] at h hv
    rw [h.zero.1]; exact hv
  · have e : F.real z = F.value (F.mag z) := by unfold Fmt.real; rw [h.2.2.2 h0, if_neg (by simp)]
    have h1 : 0 < F.real y := lt_of_lt_of_le h0 hv
    have h2 : |v| ≤ |F.real y| := by rw [abs_of_pos h1, abs_of_pos h0]; exact hv
    have h3 := F.value_strictMono.monotone (hm.mono hr h2)
    rw [← hy, abs_of_pos h1] at h3
    rw [e]; exact h3

theorem Fmt.Correct.neg {v : ℝ} {z : Nat} (h : F.Correct v z) : F.Correct (-v) (F.neg z) := by
  obtain ⟨a, ⟨b, hb, hm⟩, s1, s2⟩ := h
  refine ⟨F.neg_lt z, ⟨b, by rw [abs_neg]; exact hb, by rw [F.mag_neg']; exact hm⟩, ?_, ?_⟩
  · intro h; rw [F.isNeg_neg, s2 (by linarith)]; rfl
  · intro h; rw [F.isNeg_neg, s1 (by linarith)]; rfl

theorem Fmt.Correct.ge {v : ℝ} {z y : Nat} (h : F.Correct v z) (hz : F.Finite z) (hv : F.real y ≤ v) : F.real y ≤ F.real z := by
  have := h.neg.le hz.neg (y := F.neg y) (by rw [F.real_neg]; linarith)
  rw [F.real_neg, F.real_neg] at this
  linarith

/-- Every significand of at most `mb + 1` bits is representable. -/
theorem Fmt.holds (F : Fmt) (k : Nat) : ∀ M : Nat, M < 2 * 2 ^ F.mb → ∃ b, F.value b = (M : ℝ) * 2 ^ (F.emin + (k : Int)) := by
  induction k with
  | zero => exact fun M hM => ⟨_, F.value_eq (k := 0) hM.le (by simp)⟩
  | succ k ih =>
    intro M hM
    by_cases h : 2 ^ F.mb ≤ M
    · exact ⟨_, F.value_eq (k := k + 1) hM.le (fun _ => h)⟩
    · obtain ⟨b, hb⟩ := ih (2 * M) (by omega)
      refine ⟨b, ?_⟩
      rw [hb, show F.emin + ((k + 1 : Nat) : Int) = (F.emin + (k : Int)) + 1 by push_cast; ring, zpow_add_one₀ (by norm_num)]
      push_cast
      ring

theorem f64_real_of_value {b : Nat} (hb : b < f64.signBit) : f64.real b = f64.value b := by
  have h1 : f64.isNeg b = false := by simp [Fmt.isNeg, hb]
  rw [Fmt.real_of_nonneg h1, Fmt.mag, Nat.mod_eq_of_lt hb]

end Ieee

theorem half64_real : f64.Finite half64 ∧ f64.real half64 = 1 / 2 := by
  refine ⟨by unfold Fmt.Finite; decide, ?_⟩
  rw [f64_real_of_value (by decide)]
  have := f64.value_eq (k := 1021) (q := 2 ^ 52) (by decide) (fun _ => le_rfl)
  rw [show half64 = 1021 * 2 ^ f64.mb + 2 ^ 52 by decide, this, show f64.emin = -1074 by decide]
  norm_num

theorem f64_value_big : (2 : ℝ) ^ 54 < f64.value f64.signBit := by
  have h := f64.value_strictMono f64.infBits_lt
  rw [f64_value_inf] at h
  refine lt_trans ?_ h
  rw [← zpow_natCast]
  exact zpow_lt_zpow_right₀ (by norm_num) (by norm_num)

theorem lt_signBit_of_value {b : Nat} (h : f64.value b ≤ 2 ^ 54) : b < f64.signBit := by
  by_contra hb
  have := f64.value_strictMono.monotone (not_lt.1 hb)
  linarith [f64_value_big]

/-- The number before `n + 1/2`, and half a unit more. -/
theorem before_half {n : Nat} (h1 : 1 ≤ n) (h2 : n < 2 ^ 52) :
    ∃ b c, f64.value (b + 1) = n + 1 / 2 ∧ f64.value c = f64.value b + 1 / 2 ∧ f64.value c < n + 1 := by
  have h0 : n ≠ 0 := by omega
  have hl : Nat.log2 n < 52 := (Nat.log2_lt h0).2 h2
  have g1 := Nat.log2_self_le h0
  have g2 : n < 2 ^ (Nat.log2 n + 1) := Nat.lt_log2_self
  set l := Nat.log2 n with hl'
  have e1 : 2 ^ l * 2 ^ (51 - l) = 2 ^ 51 := by rw [← Nat.pow_add]; congr 1; omega
  have hp : 0 < 2 ^ (51 - l) := Nat.two_pow_pos _
  have q1 : 2 ^ 52 + 2 ^ (51 - l) ≤ (2 * n + 1) * 2 ^ (51 - l) := by
    have := Nat.mul_le_mul_right (2 ^ (51 - l)) g1
    rw [e1] at this
    have e : (2 * n + 1) * 2 ^ (51 - l) = 2 * (n * 2 ^ (51 - l)) + 2 ^ (51 - l) := by ring
    omega
  have q2 : (2 * n + 1) * 2 ^ (51 - l) + 2 ^ (51 - l) ≤ 2 * 2 ^ 52 := by
    have := Nat.mul_le_mul_right (2 ^ (51 - l)) (show n + 1 ≤ 2 ^ l * 2 by rw [← Nat.pow_succ]; exact g2)
    have e : (2 * n + 1) * 2 ^ (51 - l) + 2 ^ (51 - l) = 2 * ((n + 1) * 2 ^ (51 - l)) := by ring
    have e' : 2 ^ l * 2 * 2 ^ (51 - l) = 2 * (2 ^ l * 2 ^ (51 - l)) := by ring
    rw [e', e1] at this
    omega
  obtain ⟨q, hq⟩ : ∃ q, (2 * n + 1) * 2 ^ (51 - l) = q + 1 := ⟨(2 * n + 1) * 2 ^ (51 - l) - 1, by omega⟩
  obtain ⟨c, hc⟩ := f64.holds (l + 1022) (q + 2 ^ (51 - l)) (by rw [show f64.mb = 52 from rfl]; omega)
  have v1 := f64.value_eq (k := l + 1022) (q := q) (by rw [show f64.mb = 52 from rfl]; omega)
    (fun _ => by rw [show f64.mb = 52 from rfl]; omega)
  have v2 := f64.value_eq (k := l + 1022) (q := q + 1) (by rw [show f64.mb = 52 from rfl]; omega)
    (fun _ => by rw [show f64.mb = 52 from rfl]; omega)
  set w : ℝ := 2 ^ (f64.emin + ((l + 1022 : Nat) : Int)) with hw
  have hw0 : 0 < w := two_zpow_pos _
  have hpw : ((2 ^ (51 - l) : Nat) : ℝ) * w = 1 / 2 := by
    rw [hw, show f64.emin = -1074 by decide, show (-1074 + ((l + 1022 : Nat) : Int)) = -((51 - l : Nat) : Int) + -1 by omega,
      zpow_add₀ (by norm_num), zpow_neg, zpow_natCast]
    push_cast
    rw [← mul_assoc, mul_inv_cancel₀ (by positivity)]
    norm_num
  have hqw : ((q + 1 : Nat) : ℝ) * w = n + 1 / 2 := by
    rw [← hq, Nat.cast_mul, mul_assoc, hpw]
    push_cast
    ring
  push_cast at hqw hpw v2 hc
  refine ⟨(l + 1022) * 2 ^ f64.mb + q, c, ?_, ?_, ?_⟩
  · rw [Nat.add_assoc, v2]; exact hqw
  · rw [hc, v1, add_mul, hpw]
  · rw [hc, add_mul, hpw]
    linarith

/-- The sum `x + 0.5` is rounded to a number below the next integer. -/
theorem round_below {x : Nat} (h52 : |f64.real x| < 2 ^ 52) (hne : x ≠ half64 - 1) (hx' : x < 2 * f64.signBit) :
    ∃ y, f64.real x + 1 / 2 ≤ f64.real y ∧ f64.real y < ⌊f64.real x + 1 / 2⌋ + 1 := by
  have hlt := Int.lt_floor_add_one (f64.real x + 1 / 2)
  have hle := Int.floor_le (f64.real x + 1 / 2)
  obtain ⟨ha, hb⟩ := abs_lt.1 h52
  rcases lt_trichotomy ⌊f64.real x + 1 / 2⌋ 0 with hn | hn | hn
  · -- negative: the sum is exact
    have hn' : ((⌊f64.real x + 1 / 2⌋ : Int) : ℝ) + 1 ≤ 0 := by exact_mod_cast hn
    have habs := f64.abs_real x
    rw [abs_of_neg (by linarith)] at habs
    obtain ⟨k, q, e, hq, hk⟩ := f64.split_mag (f64.mag x)
    rw [e, f64.value_eq hq.le hk] at habs
    have hw := two_zpow_pos (f64.emin + k)
    have em : f64.emin = -1074 := by decide
    have hk3 : k ≤ 1073 := by
      by_contra hkk
      have h1 : (1 : ℝ) ≤ 2 ^ (f64.emin + (k : Int)) := one_le_zpow₀ (by norm_num) (by omega)
      have h2 : (2 ^ 52 : ℝ) ≤ q := by exact_mod_cast hk (by omega)
      nlinarith
    have hhalf : ((2 ^ (1073 - k) : Nat) : ℝ) * 2 ^ (f64.emin + (k : Int)) = 1 / 2 := by
      rw [em, show (-1074 + (k : Int)) = -((1073 - k : Nat) : Int) + -1 by omega, zpow_add₀ (by norm_num), zpow_neg, zpow_natCast]
      push_cast
      rw [← mul_assoc, mul_inv_cancel₀ (by positivity)]
      norm_num
    have hqq : 2 ^ (1073 - k) ≤ q := by
      by_contra hc
      have : (q : ℝ) < ((2 ^ (1073 - k) : Nat) : ℝ) := by exact_mod_cast not_le.1 hc
      nlinarith
    obtain ⟨c, hc⟩ := f64.holds k (q - 2 ^ (1073 - k)) (lt_of_le_of_lt (Nat.sub_le _ _) hq)
    rw [Nat.cast_sub hqq, sub_mul, hhalf, ← habs] at hc
    have hcs : c < f64.signBit := lt_signBit_of_value (by rw [hc]; norm_num; linarith)
    refine ⟨f64.neg c, ?_, ?_⟩ <;> rw [f64.real_neg, f64_real_of_value hcs, hc]
    · linarith
    · linarith
  · -- zero
    have e1 : f64.value (1021 * 2 ^ f64.mb + (2 ^ 53 - 1)) = 1 - 2 ^ (-53 : Int) := by
      rw [f64.value_eq (by decide) (by decide), show f64.emin = -1074 by decide]
      norm_num
    have e2 : f64.value (1020 * 2 ^ f64.mb + (2 ^ 53 - 2)) = 1 / 2 - 2 ^ (-53 : Int) := by
      rw [f64.value_eq (by decide) (by decide), show f64.emin = -1074 by decide]
      norm_num
    refine ⟨1021 * 2 ^ f64.mb + (2 ^ 53 - 1), ?_, ?_⟩ <;> rw [f64_real_of_value (b := 1021 * 2 ^ f64.mb + (2 ^ 53 - 1)) (by decide), e1]
    · rcases le_or_gt (f64.real x) 0 with h0 | h0
      · norm_num
        linarith
      · have hp : f64.isNeg x = false := by
          by_contra hc
          simp only [Bool.not_eq_false] at hc
          have := f64.value_nonneg (f64.mag x)
          unfold Fmt.real at h0
          rw [hc, if_pos rfl] at h0
          linarith
        have hm : f64.mag x = x := by
          have := f64.signed_mag hx'
          rwa [hp] at this
        rw [hn] at hlt
        have h1 : f64.value (f64.mag x) < f64.value half64 := by
          rw [← f64_real_of_value (b := half64) (by decide), half64_real.2, ← Fmt.real_of_nonneg hp]
          push_cast at hlt
          linarith
        have h2 := f64.value_strictMono.lt_iff_lt.1 h1
        rw [hm] at h2
        have h3 : f64.value x ≤ f64.value (1020 * 2 ^ f64.mb + (2 ^ 53 - 2)) :=
          f64.value_strictMono.monotone (by
            have : 1020 * 2 ^ f64.mb + (2 ^ 53 - 2) = half64 - 2 := by decide
            rw [this]; omega)
        rw [e2] at h3
        rw [Fmt.real_of_nonneg hp, hm]
        linarith
    · rw [hn]
      norm_num
  · -- positive
    obtain ⟨n, hnn⟩ := Int.eq_ofNat_of_zero_le hn.le
    have hnr : ((⌊f64.real x + 1 / 2⌋ : Int) : ℝ) = n := by rw [hnn]; simp
    rw [hnr] at hlt hle ⊢
    have hn1 : 1 ≤ n := by omega
    have hn2 : n ≤ 2 ^ 52 := by
      have : (n : ℝ) < 2 ^ 52 + 1 := by linarith
      have : n < 2 ^ 52 + 1 := by exact_mod_cast this
      omega
    rcases Nat.lt_or_eq_of_le hn2 with hn2 | hn2
    · obtain ⟨b, c, h1, h2, h3⟩ := before_half hn1 hn2
      have hxp : 0 < f64.real x := by
        have : (1 : ℝ) ≤ n := by exact_mod_cast hn1
        linarith
      have habs := f64.abs_real x
      rw [abs_of_pos hxp] at habs
      have h4 : f64.mag x < b + 1 := f64.value_strictMono.lt_iff_lt.1 (by rw [h1, ← habs]; linarith)
      have h5 := f64.value_strictMono.monotone (Nat.lt_succ_iff.1 h4)
      have hcs : c < f64.signBit := lt_signBit_of_value (by
        have : (n : ℝ) < 2 ^ 52 := by exact_mod_cast hn2
        norm_num at this ⊢
        linarith)
      refine ⟨c, ?_, ?_⟩ <;> rw [f64_real_of_value hcs]
      · rw [h2, habs]; linarith
      · exact h3
    · -- `2^52 - 1/2`, the only number of this range
      have e1 : f64.value (1073 * 2 ^ f64.mb + (2 ^ 53 - 1)) = 2 ^ 52 - 1 / 2 := by
        rw [f64.value_eq (by decide) (by decide), show f64.emin = -1074 by decide]
        norm_num
      have e2 : f64.value (1073 * 2 ^ f64.mb + 2 ^ 53) = 2 ^ 52 := by
        rw [f64.value_eq (by decide) (by decide), show f64.emin = -1074 by decide]
        norm_num
      have habs := f64.abs_real x
      rw [hn2] at hle hlt ⊢
      rw [abs_of_pos (by push_cast at hle; norm_num at hle; linarith)] at habs
      have h4 : f64.mag x < 1073 * 2 ^ f64.mb + 2 ^ 53 := f64.value_strictMono.lt_iff_lt.1 (by rw [e2, ← habs]; exact hb)
      have h5 : f64.value (f64.mag x) ≤ f64.value (1073 * 2 ^ f64.mb + (2 ^ 53 - 1)) := f64.value_strictMono.monotone (by omega)
      rw [e1, ← habs] at h5
      refine ⟨1073 * 2 ^ f64.mb + 2 ^ 53, ?_, ?_⟩ <;> rw [f64_real_of_value (b := 1073 * 2 ^ f64.mb + 2 ^ 53) (by decide), e2]
      · linarith
      · push_cast; linarith

/-- `math.Floor` is the floor. -/
theorem floorF_correct {z : Nat} (hz : f64.Finite z) (h : |f64.real z| < 2 ^ 53) :
    f64.Finite (f64.floorF z) ∧ f64.real (f64.floorF z) = ⌊f64.real z⌋ := by
  unfold Fmt.floorF
  by_cases h0 : f64.mag z = 0
  · rw [if_pos (Or.inl h0)]
    have e : f64.real z = 0 := by unfold Fmt.real; rw [h0, f64.value_zero]; simp
    exact ⟨hz, by rw [e]; simp⟩
  · rw [if_neg (by rintro (h | h); exacts [h0 h, absurd hz (not_lt.2 h)]), floor_correct hz]
    refine ofInt_exact ?_
    obtain ⟨h1, h2⟩ := abs_lt.1 h
    have g1 : (-2 ^ 53 : Int) ≤ ⌊f64.real z⌋ := Int.le_floor.2 (by norm_num at h1 ⊢; exact h1.le)
    have g2 : ⌊f64.real z⌋ < 2 ^ 53 := Int.floor_lt.2 (by norm_num at h2 ⊢; exact h2)
    omega

/-- **C94** as far as it is true: for every finite `x` with `|x| < 2^52`, except `x = 0.49999999999999994`, `Round(x)` is the nearest integer, halves rounded
up.  Missing: that number, and the odd integers from `2^52` on, see `C94_refuted`. -/
theorem C94_round_partial {x : Nat} (hx' : x < 2 * f64.signBit) (hx : f64.Finite x) (h52 : |f64.real x| < 2 ^ 52) (hne : x ≠ half64 - 1) :
    f64.Finite (goRound x) ∧ f64.real (goRound x) = ⌊f64.real x + 1 / 2⌋ ∧ |f64.real (goRound x) - f64.real x| ≤ 1 / 2 := by
  have hc := f64.add_correct f64_ok hx half64_real.1
  rw [half64_real.2] at hc
  obtain ⟨ha, hb⟩ := abs_lt.1 h52
  have hf : f64.Finite (f64.add x half64) := f64_finite hc (le_huge (by
    rw [abs_le]
    constructor <;> norm_num at ha hb ⊢ <;> linarith))
  obtain ⟨y, y1, y2⟩ := round_below h52 hne hx'
  have hup := hc.le hf y1
  have hlt := Int.lt_floor_add_one (f64.real x + 1 / 2)
  have hle := Int.floor_le (f64.real x + 1 / 2)
  have gl : (-2 ^ 52 : Int) ≤ ⌊f64.real x + 1 / 2⌋ := Int.le_floor.2 (by push_cast; linarith)
  have gu : ⌊f64.real x + 1 / 2⌋ < 2 ^ 52 + 1 := Int.floor_lt.2 (by push_cast; linarith)
  have hi := ofInt_exact (i := ⌊f64.real x + 1 / 2⌋) (by omega)
  have hdn := hc.ge hf (y := f64.ofInt ⌊f64.real x + 1 / 2⌋) (by rw [hi.2]; exact hle)
  rw [hi.2] at hdn
  have hfl : ⌊f64.real (f64.add x half64)⌋ = ⌊f64.real x + 1 / 2⌋ := Int.floor_eq_iff.2 ⟨hdn, by linarith⟩
  have hgl : (-2 ^ 52 : ℝ) ≤ ⌊f64.real x + 1 / 2⌋ := by exact_mod_cast gl
  have hgu : (⌊f64.real x + 1 / 2⌋ : ℝ) + 1 ≤ 2 ^ 52 + 1 := by exact_mod_cast Int.add_one_le_iff.2 gu
  obtain ⟨r1, r2⟩ := floorF_correct hf (by
    rw [abs_lt]
    constructor <;> norm_num at hgl hgu ⊢ <;> linarith)
  rw [hfl] at r2
  refine ⟨r1, r2, ?_⟩
  unfold goRound
  rw [r2, abs_le]
  constructor <;> linarith

/-- **C94 is false**: `Round(0.49999999999999994) = 1`, `Round(4503599627370497) = 4503599627370498`. -/
theorem C94_refuted : ¬ ∀ x : Nat, x < 2 * f64.signBit → f64.Finite x → |f64.real (goRound x) - f64.real x| ≤ 1 / 2 := by
  intro h
  have h1 := h (half64 - 1) (by decide) (by unfold Fmt.Finite; decide)
  have e1 : goRound (half64 - 1) = f64.ofNat 1 := by decide +kernel
  have e2 : f64.value (1020 * 2 ^ f64.mb + (2 ^ 53 - 1)) = 1 / 2 - 2 ^ (-54 : Int) := by
    rw [f64.value_eq (by decide) (by decide), show f64.emin = -1074 by decide]
    norm_num
  rw [e1, (ofNat_exact (n := 1) (by norm_num)).2, f64_real_of_value (by decide),
    show half64 - 1 = 1020 * 2 ^ f64.mb + (2 ^ 53 - 1) by decide, e2, abs_le] at h1
  have := h1.2
  norm_num at this

/-- **C94 is false** for integers too: an odd integer above `2^52` is not left alone. -/
theorem C94_integer_refuted : ¬ ∀ n : Nat, n ≤ 2 ^ 53 → f64.real (goRound (f64.ofNat n)) = n := by
  intro h
  have h1 := h (2 ^ 52 + 1) (by norm_num)
  have e1 : goRound (f64.ofNat (2 ^ 52 + 1)) = f64.ofNat (2 ^ 52 + 2) := by decide +kernel
  rw [e1, (ofNat_exact (n := 2 ^ 52 + 2) (by norm_num)).2] at h1
  norm_num at h1

/-- **C94**: `RoundPlus` overflows: `RoundPlus(1e308, 2) = +Inf` (`0x4059000000000000` is `100.0`). -/
theorem C94_plus_refuted : ¬ ∀ x shift : Nat, f64.Finite x → f64.Finite shift → f64.Finite (goRoundPlus x shift) := by
  intro h
  have h1 := h 0x7FE1CCF385EBC8A0 0x4059000000000000 (by unfold Fmt.Finite; decide) (by unfold Fmt.Finite; decide)
  have e : goRoundPlus 0x7FE1CCF385EBC8A0 0x4059000000000000 = f64.infBits := by decide +kernel
  rw [e] at h1
  exact absurd h1 (by unfold Fmt.Finite; decide)

/-- The real computation behind `C94_plus_partial`: three roundings. -/
theorem round_plus_error {x s p r q : ℝ} (hs : 0 < s) (hs2 : s ≤ 2 ^ 1000) (h1 : |p - x * s| ≤ 2 ^ (-53 : Int) * |x * s| + 2 ^ (-1074 : Int) / 2)
    (h2 : |r - p| ≤ 1 / 2 + 2 ^ (-54 : Int)) (h3 : |q - r / s| ≤ 2 ^ (-53 : Int) * |r / s| + 2 ^ (-1074 : Int) / 2) :
    |q - x| ≤ (1 / 2 + 2 ^ (-50 : Int)) / s + 2 ^ (-50 : Int) * |x| := by
  have hts : (2 : ℝ) ^ (-1074 : Int) * s ≤ 2 ^ (-74 : Int) := by
    calc (2 : ℝ) ^ (-1074 : Int) * s ≤ 2 ^ (-1074 : Int) * 2 ^ 1000 := mul_le_mul_of_nonneg_left hs2 (by positivity)
      _ = 2 ^ (-74 : Int) := by rw [← zpow_natCast, ← zpow_add₀ (by norm_num)]; norm_num
  have ht : (2 : ℝ) ^ (-1074 : Int) ≤ 2 ^ (-74 : Int) := zpow_le_zpow_right₀ (by norm_num) (by norm_num)
  have e : (q - x) * s = (q - r / s) * s + (r - p) + (p - x * s) := by field_simp; ring
  have h3' : |q - r / s| * s ≤ 2 ^ (-53 : Int) * |r| + 2 ^ (-1074 : Int) / 2 * s := by
    have := mul_le_mul_of_nonneg_right h3 hs.le
    rw [abs_div, abs_of_pos hs, _root_.add_mul, mul_assoc, div_mul_cancel₀ _ hs.ne'] at this
    exact this
  have hxs : |x * s| = |x| * s := by rw [abs_mul, abs_of_pos hs]
  rw [hxs] at h1
  have hr : |r| ≤ |r - p| + |p - x * s| + |x| * s := by
    rw [← hxs]
    calc |r| = |(r - p) + (p - x * s) + x * s| := by congr 1; ring
      _ ≤ _ := (abs_add_le _ _).trans (add_le_add (abs_add_le _ _) le_rfl)
  have key : |q - x| * s ≤ 1 / 2 + 2 ^ (-50 : Int) + 2 ^ (-50 : Int) * (|x| * s) := by
    rw [← abs_of_pos hs, ← abs_mul, abs_of_pos hs, e]
    refine ((abs_add_le _ _).trans (add_le_add (abs_add_le _ _) le_rfl)).trans ?_
    rw [abs_mul, abs_of_pos hs]
    have hA : 0 ≤ |x| * s := by positivity
    generalize |x| * s = A at *
    generalize hT : (2 : ℝ) ^ (-1074 : Int) = T at *
    norm_num at *
    linarith
  rw [div_add' _ _ _ hs.ne', le_div_iff₀ hs]
  linarith

/-- **C94** for `RoundPlus`, as far as it is true: where neither the product overflows nor its halves get lost, the result is a multiple of `1/shift` up to
rounding, and half of `1/shift` away from `x` at most, up to rounding. -/
theorem C94_plus_partial {x shift : Nat} (hx : f64.Finite x) (hs : f64.Finite shift) (h1 : 2 ^ (-900 : Int) ≤ f64.real shift)
    (h2 : f64.real shift ≤ 2 ^ 1000) (hb : |f64.real x * f64.real shift| ≤ 2 ^ 51) :
    f64.Finite (goRoundPlus x shift) ∧
    |f64.real (goRoundPlus x shift) - f64.real x| ≤ (1 / 2 + 2 ^ (-50 : Int)) / f64.real shift + 2 ^ (-50 : Int) * |f64.real x| ∧
    ∃ n : Int, |f64.real (goRoundPlus x shift) - n / f64.real shift| ≤ 2 ^ (-53 : Int) * |n / f64.real shift| + 2 ^ (-1074 : Int) / 2 := by
  have hs0 : 0 < f64.real shift := lt_of_lt_of_le (by positivity) h1
  have hp := f64.mul_correct f64_ok hx hs
  obtain ⟨p1, p2⟩ := near64 hp (hb.trans (pow_le_pow_right₀ (by norm_num) (by norm_num)))
  have hplt : |f64.real (f64.mul x shift)| < 2 ^ 52 := by
    have : |f64.real (f64.mul x shift)| ≤ |f64.real (f64.mul x shift) - f64.real x * f64.real shift| + |f64.real x * f64.real shift| := by
      calc _ = |(f64.real (f64.mul x shift) - f64.real x * f64.real shift) + f64.real x * f64.real shift| := by congr 1; ring
        _ ≤ _ := abs_add_le _ _
    have ht : (2 : ℝ) ^ (-1074 : Int) ≤ 2 ^ (-74 : Int) := zpow_le_zpow_right₀ (by norm_num) (by norm_num)
    generalize (2 : ℝ) ^ (-1074 : Int) = T at *
    norm_num at *
    linarith
  -- the rounded product is an integer
  obtain ⟨n, r1, r2, r3⟩ : ∃ n : Int, f64.Finite (goRound (f64.mul x shift)) ∧ f64.real (goRound (f64.mul x shift)) = n ∧
      |f64.real (goRound (f64.mul x shift)) - f64.real (f64.mul x shift)| ≤ 1 / 2 + 2 ^ (-54 : Int) := by
    by_cases hne : f64.mul x shift = half64 - 1
    · rw [hne]
      have e1 : goRound (half64 - 1) = f64.ofNat 1 := by decide +kernel
      have e2 : f64.value (1020 * 2 ^ f64.mb + (2 ^ 53 - 1)) = 1 / 2 - 2 ^ (-54 : Int) := by
        rw [f64.value_eq (by decide) (by decide), show f64.emin = -1074 by decide]
        norm_num
      have h3 := ofNat_exact (n := 1) (by norm_num)
      rw [e1]
      refine ⟨1, h3.1, by rw [h3.2]; norm_num, ?_⟩
      rw [h3.2, f64_real_of_value (by decide), show half64 - 1 = 1020 * 2 ^ f64.mb + (2 ^ 53 - 1) by decide, e2, abs_le]
      constructor <;> norm_num
    · obtain ⟨e1, e2, e3⟩ := C94_round_partial hp.1 p1 hplt hne
      exact ⟨_, e1, e2, e3.trans (by have : (0 : ℝ) < 2 ^ (-54 : Int) := by positivity
                                     linarith)⟩
  have hq := f64.div_correct f64_ok r1 hs hs0.ne'
  have hrb : |f64.real (goRound (f64.mul x shift)) / f64.real shift| ≤ 2 ^ 1000 := by
    rw [abs_div, abs_of_pos hs0, div_le_iff₀ hs0]
    have : |f64.real (goRound (f64.mul x shift))| ≤ 2 ^ 53 := by
      have : |f64.real (goRound (f64.mul x shift))| ≤
          |f64.real (goRound (f64.mul x shift)) - f64.real (f64.mul x shift)| + |f64.real (f64.mul x shift)| := by
        calc _ = |(f64.real (goRound (f64.mul x shift)) - f64.real (f64.mul x shift)) + f64.real (f64.mul x shift)| := by congr 1; ring
          _ ≤ _ := abs_add_le _ _
      norm_num at *
      linarith
    refine this.trans ?_
    calc (2 : ℝ) ^ 53 ≤ 2 ^ 1000 * 2 ^ (-900 : Int) := by rw [← zpow_natCast, ← zpow_natCast, ← zpow_add₀ (by norm_num)]; norm_num
      _ ≤ _ := mul_le_mul_of_nonneg_left h1 (by positivity)
  obtain ⟨q1, q2⟩ := near64 hq hrb
  refine ⟨q1, round_plus_error hs0 h2 p2 r3 q2, n, ?_⟩
  rw [r2] at q2
  exact q2

/-- The hypotheses of `C94_round_partial` hold for `2.5`, whose rounded value is 3. -/
example : f64.real (goRound 0x4004000000000000) = 3 := by
  have e : f64.value (1023 * 2 ^ f64.mb + 5 * 2 ^ 50) = 5 / 2 := by
    rw [f64.value_eq (by decide) (by decide), show f64.emin = -1074 by decide]
    norm_num
  have hv : f64.real 0x4004000000000000 = 5 / 2 := by
    rw [f64_real_of_value (by decide), show 0x4004000000000000 = 1023 * 2 ^ f64.mb + 5 * 2 ^ 50 by decide, e]
  have h := C94_round_partial (x := 0x4004000000000000) (by decide) (by unfold Fmt.Finite; decide) (by rw [hv]; norm_num [abs_of_pos]) (by decide)
  rw [h.2.1, hv]
  norm_num

/-- The hypotheses of `C94_plus_partial` hold for `RoundPlus(2.5, 2)`. -/
example : f64.Finite 0x4004000000000000 ∧ f64.Finite 0x4059000000000000 ∧ 2 ^ (-900 : Int) ≤ f64.real 0x4059000000000000 ∧
    f64.real 0x4059000000000000 ≤ 2 ^ 1000 ∧ |f64.real 0x4004000000000000 * f64.real 0x4059000000000000| ≤ 2 ^ 51 := by
  have e : f64.value (1023 * 2 ^ f64.mb + 5 * 2 ^ 50) = 5 / 2 := by
    rw [f64.value_eq (by decide) (by decide), show f64.emin = -1074 by decide]
    norm_num
  have hv : f64.real 0x4004000000000000 = 5 / 2 := by
    rw [f64_real_of_value (by decide), show 0x4004000000000000 = 1023 * 2 ^ f64.mb + 5 * 2 ^ 50 by decide, e]
  have e' : f64.value (1028 * 2 ^ f64.mb + 25 * 2 ^ 48) = 100 := by
    rw [f64.value_eq (by decide) (by decide), show f64.emin = -1074 by decide]
    norm_num
  have hv' : f64.real 0x4059000000000000 = 100 := by
    rw [f64_real_of_value (by decide), show 0x4059000000000000 = 1028 * 2 ^ f64.mb + 25 * 2 ^ 48 by decide, e']
  rw [hv, hv']
  refine ⟨by unfold Fmt.Finite; decide, by unfold Fmt.Finite; decide, ?_, ?_, by norm_num [abs_of_pos]⟩
  · exact (zpow_le_one_of_nonpos₀ (by norm_num) (by norm_num)).trans (by norm_num)
  · exact le_trans (by norm_num : (100 : ℝ) ≤ 2 ^ 7) (pow_le_pow_right₀ (by norm_num) (by norm_num))

end Annoy
