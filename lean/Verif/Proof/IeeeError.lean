import Verif.Proof.IeeeConv
/-!
The relative error of a rounded result is at most half a unit in the last place.
-/
namespace Annoy
namespace Ieee
variable {F : Fmt}

theorem Fmt.exists_above (F : Fmt) (v : ℝ) : ∃ b, v < F.value b := by
  have hu : (0 : ℝ) < 2 ^ F.mb * 2 ^ F.emin := mul_pos (by positivity) (two_zpow_pos _)
  obtain ⟨k, hk⟩ := pow_unbounded_of_one_lt (v / (2 ^ F.mb * 2 ^ F.emin)) (by norm_num : (1 : ℝ) < 2)
  refine ⟨k * 2 ^ F.mb + 2 ^ F.mb, ?_⟩
  rw [F.value_eq (by omega) (fun _ => le_rfl), zpow_add₀ (by norm_num), zpow_natCast]
  rw [div_lt_iff₀ hu] at hk
  push_cast
  nlinarith

/-- Neighbouring values around a number. -/
theorem Fmt.exists_between (F : Fmt) {v : ℝ} (hv : 0 ≤ v) : ∃ b, F.value b ≤ v ∧ v < F.value (b + 1) := by
  classical
  have ex := F.exists_above v
  have hs := Nat.find_spec ex
  cases h : Nat.find ex with
  | zero => rw [h, F.value_zero] at hs; linarith
  | succ b =>
    refine ⟨b, ?_, by rw [h] at hs; exact hs⟩
    have := Nat.find_min ex (m := b) (by omega)
    linarith

/-- Rounding a number in the normal range changes it by a factor of at most `1 ± 2^-(mb+1)`. -/
theorem Fmt.RoundsTo.error {v : ℝ} {b : Nat} (h : F.RoundsTo v b) (hv : 2 ^ F.mb * 2 ^ F.emin ≤ v) :
    |F.value b - v| ≤ v / 2 ^ (F.mb + 1) := by
  have hu : (0 : ℝ) < 2 ^ F.mb * 2 ^ F.emin := mul_pos (by positivity) (two_zpow_pos _)
  obtain ⟨b', h1, h2⟩ := F.exists_between (hu.le.trans hv)
  obtain ⟨k, q, rfl, hq, hk⟩ := F.split_mag b'
  rw [show k * 2 ^ F.mb + q + 1 = k * 2 ^ F.mb + (q + 1) by omega,
    F.value_eq (by omega) (fun h => by have := hk h; omega)] at h2
  have e1 := F.value_eq hq.le hk
  rw [e1] at h1
  have hU := two_zpow_pos (F.emin + (k : Int))
  have hq2 : 2 ^ F.mb ≤ q := by
    by_cases h0 : k = 0
    · subst h0
      by_contra hlt
      have hlt : q + 1 ≤ 2 ^ F.mb := by omega
      have : ((q + 1 : Nat) : ℝ) ≤ ((2 ^ F.mb : Nat) : ℝ) := by exact_mod_cast hlt
      push_cast at this h2
      have e : F.emin + ((0 : Nat) : Int) = F.emin := by simp
      rw [show F.emin + (0 : Int) = F.emin by simp] at h2
      rw [e] at hU
      nlinarith
    · exact hk h0
  have hq3 : ((2 ^ F.mb : Nat) : ℝ) ≤ (q : ℝ) := by exact_mod_cast hq2
  push_cast at hq3 h2
  set u : ℝ := 2 ^ (F.emin + (k : Int)) with hudef
  have d1 : |F.value b - v| ≤ v - q * u := by
    have := h (k * 2 ^ F.mb + q)
    rw [e1, abs_of_nonpos (by linarith : (q : ℝ) * u - v ≤ 0)] at this
    rcases this with h | ⟨h, _⟩ <;> linarith
  have d2 : |F.value b - v| ≤ (q + 1) * u - v := by
    have := h (k * 2 ^ F.mb + (q + 1))
    rw [F.value_eq (by omega) (fun h => by have := hk h; omega), ← hudef] at this
    push_cast at this
    rw [abs_of_nonneg (by linarith : (0 : ℝ) ≤ (q + 1) * u - v)] at this
    rcases this with h | ⟨h, _⟩ <;> linarith
  rw [le_div_iff₀ (by positivity), pow_succ]
  have hp : (0 : ℝ) < 2 ^ F.mb := by positivity
  have d3 : |F.value b - v| * 2 ≤ u := by linarith
  calc |F.value b - v| * (2 ^ F.mb * 2) = (|F.value b - v| * 2) * 2 ^ F.mb := by ring
    _ ≤ u * 2 ^ F.mb := mul_le_mul_of_nonneg_right d3 hp.le
    _ ≤ v := by nlinarith

theorem f64_value_inf : f64.value f64.infBits = 2 ^ (1024 : Int) := by
  have h : f64.infBits = 2046 * 2 ^ f64.mb + 2 ^ f64.mb := by decide
  rw [h, f64.value_eq (by omega) (fun _ => le_rfl)]
  have : f64.emin = -1074 := by decide
  rw [this]
  have h52 : f64.mb = 52 := rfl
  rw [h52]
  have e : ((2 ^ 52 : Nat) : ℝ) = 2 ^ (52 : Int) := by norm_num
  rw [e, ← zpow_add₀ (by norm_num)]
  norm_num

theorem Fmt.real_of_nonneg {x : Nat} (h : F.isNeg x = false) : F.real x = F.value (F.mag x) := by
  unfold Fmt.real; rw [h, if_neg (by simp)]

/-- A correctly rounded `float64` for a number that is not tiny. -/
theorem f64_near {v : ℝ} {z : Nat} (h : f64.Correct v z) (h1 : 2 ^ (-1022 : Int) ≤ v) (hf : f64.Finite z) :
    |f64.real z - v| ≤ v / 2 ^ 53 := by
  obtain ⟨_, ⟨b, hb, hm⟩, _, hs⟩ := h
  have hv : 0 < v := lt_of_lt_of_le (two_zpow_pos _) h1
  rw [abs_of_pos hv] at hb
  have he : (2 : ℝ) ^ f64.mb * 2 ^ f64.emin ≤ v := by
    have : (2 : ℝ) ^ f64.mb * 2 ^ f64.emin = 2 ^ (-1022 : Int) := by
      have e1 : f64.emin = -1074 := by decide
      have e2 : f64.mb = 52 := rfl
      rw [e1, e2, ← zpow_natCast, ← zpow_add₀ (by norm_num)]
      norm_num
    rw [this]; exact h1
  have her := hb.error he
  unfold Fmt.Finite at hf
  have hz : f64.mag z = b := by
    rw [hm] at hf ⊢
    unfold Fmt.cap at hf ⊢
    split at hf
    · omega
    · next h => rw [if_neg h]
  rw [Fmt.real_of_nonneg (hs hv), hz]
  exact her

/-- It is finite if the number is not huge. -/
theorem f64_finite {v : ℝ} {z : Nat} (h : f64.Correct v z) (h2 : |v| ≤ 2 ^ (1000 : Int)) : f64.Finite z := by
  obtain ⟨_, ⟨b, hb, hm⟩, _, _⟩ := h
  have h1000 : f64.value (2022 * 2 ^ 52 + 2 ^ 52) = 2 ^ (1000 : Int) := by
    rw [show (2 ^ 52 : Nat) = 2 ^ f64.mb from rfl, f64.value_eq (by omega) (fun _ => le_rfl)]
    have e1 : f64.emin = -1074 := by decide
    have h52 : f64.mb = 52 := rfl
    rw [e1, h52]
    have e : ((2 ^ 52 : Nat) : ℝ) = 2 ^ (52 : Int) := by norm_num
    rw [e, ← zpow_add₀ (by norm_num)]
    norm_num
  have hle := hb.mono (Fmt.RoundsTo.exact f64 _) (h2.trans_eq h1000.symm)
  have hlt : b < f64.infBits := lt_of_le_of_lt hle (by decide)
  unfold Fmt.Finite
  rw [hm, Fmt.cap_of_lt hlt]
  exact hlt

/-- `math.Max` of finite numbers is the larger one. -/
theorem Fmt.maxOf_correct {x y : Nat} (hx : F.Finite x)
    (hy : F.Finite y) : F.Finite (F.maxOf x y) ∧ F.real (F.maxOf x y) = Max.max (F.real x) (F.real y) := by
  have hne : ∀ z, F.Finite z → z ≠ F.signed false F.infBits := by
    rintro z hz rfl
    unfold Fmt.Finite at hz
    rw [Fmt.mag_signed F.infBits_lt] at hz
    omega
  unfold Fmt.maxOf
  rw [if_neg (by rintro (h | h); exacts [hne x hx h, hne y hy h]), if_neg (by rw [hx.notNaN, hy.notNaN]; simp)]
  split
  · next h =>
    have r : ∀ z, F.mag z = 0 → F.real z = 0 := by
      intro z hz; unfold Fmt.real; rw [hz, F.value_zero]; simp
    rw [r x h.1, r y h.2]
    split
    · exact ⟨hy, by rw [r y h.2]; simp⟩
    · exact ⟨hx, by rw [r x h.1]; simp⟩
  · by_cases hlt : F.lt y x = true
    · rw [if_pos hlt]
      exact ⟨hx, (max_eq_left ((Fmt.lt_correct hy hx).1 hlt).le).symm⟩
    · rw [if_neg hlt]
      refine ⟨hy, (max_eq_right ?_).symm⟩
      by_contra h
      exact hlt ((Fmt.lt_correct hy hx).2 (not_le.1 h))

end Ieee
end Annoy
