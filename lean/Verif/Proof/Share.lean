import Verif.Proof.Imbalance
/-!
The imbalance of a split, computed in `float64`, is the share of the larger side up to a millionth.
-/
namespace Annoy
open Ieee

theorem f64_small (v : ℝ) (hv : 0 ≤ v) : v / 2 ^ 53 ≤ 1e-9 * v := by
  rw [div_le_iff₀ (by positivity)]
  have : (1 : ℝ) ≤ 1e-9 * 2 ^ 53 := by norm_num
  nlinarith

theorem ofNat_close {n : Nat} (hn : 0 < n) (hb : n < 2 ^ 64) : f64.Finite (f64.ofNat n) ∧
    |f64.real (f64.ofNat n) - n| ≤ 1e-9 * n := by
  have hc := ofNat_correct n
  have h1 : (1 : ℝ) ≤ (n : ℝ) := by exact_mod_cast hn
  have h2 : (n : ℝ) ≤ 2 ^ 64 := by exact_mod_cast hb.le
  have hf : f64.Finite (f64.ofNat n) := f64_finite hc (le_huge (by
    rw [abs_of_nonneg (by linarith)]
    have : (2 : ℝ) ^ 64 ≤ 2 ^ 100 := by norm_num
    linarith))
  have hn := f64_near hc (by have := two_pow_le_one; linarith) hf
  exact ⟨hf, hn.trans (f64_small _ (by linarith))⟩

theorem real_tiny' : 0 < f64.real 0x3e112e0be826d695 ∧ f64.real 0x3e112e0be826d695 ≤ 1.1e-9 := by
  rw [f64_real_eq (m := 4835703278458517) (e := -82) (by decide +kernel) (by unfold Fmt.Finite; decide +kernel)]
  constructor <;> norm_num

theorem real_95 : f64.real 0x3fee666666666666 ≤ 0.950001 ∧ 0.949999 ≤ f64.real 0x3fee666666666666 := by
  rw [f64_real_eq (m := 8556839292003942) (e := -53) (by decide +kernel) (by unfold Fmt.Finite; decide +kernel)]
  constructor <;> norm_num

theorem real_99' : f64.real 0x3fefae147ae147ae ≤ 0.990001 ∧ 0.989999 ≤ f64.real 0x3fefae147ae147ae := by
  rw [f64_real_eq (m := 8917127262193582) (e := -53) (by decide +kernel) (by unfold Fmt.Finite; decide +kernel)]
  constructor <;> norm_num

theorem finite_95 : f64.Finite 0x3fee666666666666 := by unfold Fmt.Finite; decide +kernel

/-- Share of the larger side. -/
noncomputable def largerShare (l r : Nat) : ℝ := max (l : ℝ) r / (l + r)

/-- A rounded number is at most twice as large. -/
theorem f64_le_two {v : ℝ} {z : Nat} (h : f64.Correct v z) (hf : f64.Finite z) : |f64.real z| ≤ 2 * |v| := by
  obtain ⟨_, ⟨b, hb, hm⟩, _, _⟩ := h
  unfold Fmt.Finite at hf
  have hz : f64.mag z = b := by
    rw [hm] at hf ⊢
    unfold Fmt.cap at hf ⊢
    split at hf
    · omega
    · next h => rw [if_neg h]
  have h0 : f64.value 0 = 0 := Fmt.value_zero _
  have h1 : abs (f64.value b - |v|) ≤ |v| := by
    have h2 : abs (f64.value 0 - |v|) = |v| := by rw [h0, zero_sub, abs_neg, abs_abs]
    rcases hb 0 with h3 | ⟨h3, _⟩
    · rw [h2] at h3; exact h3.le
    · rw [h2] at h3; exact h3.le
  have h2 := (abs_le.1 h1).2
  have h3 : |f64.real z| = |f64.value b| := by
    unfold Fmt.real
    rw [hz]
    split
    · exact abs_neg _
    · rfl
  have h4 : 0 ≤ f64.value b := Fmt.value_nonneg _ _
  rw [h3, abs_of_nonneg h4]
  linarith

/-- The larger of `f` and `1 - f`. -/
theorem max_one_sub_close {f : Nat} (hf : f64.Finite f) {p : ℝ} (h0 : 0 ≤ p) (h1 : p ≤ 1) (h : |f64.real f - p| ≤ 4e-7) :
    f64.Finite (f64.maxOf f (f64.sub f64.one f)) ∧ |f64.real (f64.maxOf f (f64.sub f64.one f)) - max p (1 - p)| ≤ 1e-6 := by
  have hc := f64.sub_correct f64_ok finite_one hf
  rw [real_one] at hc
  obtain ⟨e1, e2⟩ := abs_le.1 h
  have hg : f64.Finite (f64.sub f64.one f) := f64_finite hc (le_huge (by
    rw [abs_le]; constructor <;> linarith))
  obtain ⟨m1, m2⟩ := Fmt.maxOf_correct hf hg
  refine ⟨m1, ?_⟩
  rw [m2]
  rcases le_or_gt (f64.real f) (3 / 4) with hs | hs
  · have hn := abs_le.1 (f64_near hc (by have := two_pow_le_one; linarith) hg)
    have sn := f64_small (1 - f64.real f) (by linarith)
    refine (abs_max_sub_max_le_max _ _ _ _).trans (max_le (h.trans (by norm_num)) ?_)
    rw [abs_le]
    constructor <;> linarith [hn.1, hn.2]
  · have h2 := f64_le_two hc hg
    have h3 : |1 - f64.real f| ≤ 1 / 4 := by rw [abs_le]; constructor <;> linarith
    have h4 := (abs_le.1 h2).2
    rw [max_eq_left (by linarith), max_eq_left (by linarith)]
    exact h.trans (by norm_num)

/-- The computed fraction of the left side. -/
theorem fraction_close {l r : Nat} (hl : 1 ≤ l) (hr : 1 ≤ r) (hb : l + r < 2 ^ 64) :
    f64.Finite (f64.div (f64.ofNat l) (f64.add (f64.add (f64.ofNat l) (f64.ofNat r)) 0x3e112e0be826d695)) ∧
    |f64.real (f64.div (f64.ofNat l) (f64.add (f64.add (f64.ofNat l) (f64.ofNat r)) 0x3e112e0be826d695)) - l / (l + r)| ≤ 4e-7 := by
  obtain ⟨f1, x1⟩ := ofNat_close (n := l) hl (by omega)
  obtain ⟨f2, y1⟩ := ofNat_close (n := r) hr (by omega)
  have x1 := abs_le.1 x1
  have y1 := abs_le.1 y1
  have hl' : (1 : ℝ) ≤ l := by exact_mod_cast hl
  have hr' : (1 : ℝ) ≤ r := by exact_mod_cast hr
  have hb' : (l : ℝ) + r ≤ 2 ^ 64 := by exact_mod_cast hb.le
  have hq := two_pow_le_one
  have hbig : (2 : ℝ) ^ 64 * 4 ≤ 2 ^ 100 := by norm_num
  have ha := f64.add_correct f64_ok f1 f2
  set ls := f64.ofNat l
  set rs := f64.ofNat r
  set x := f64.real ls
  set y := f64.real rs
  have fa : f64.Finite (f64.add ls rs) := f64_finite ha (le_huge (by
    rw [abs_of_nonneg (by linarith)]; linarith))
  have na := abs_le.1 (f64_near ha (by linarith) fa)
  have sa := f64_small (x + y) (by linarith)
  obtain ⟨t1, t2⟩ := real_tiny'
  have hd := f64.add_correct f64_ok fa finite_tiny
  set a := f64.real (f64.add ls rs)
  set t := f64.real 0x3e112e0be826d695
  have a1 : 0.999999990 * ((l : ℝ) + r) ≤ a := by linarith [na.1]
  have a2 : a ≤ 1.00000001 * ((l : ℝ) + r) := by linarith [na.2]
  have fd : f64.Finite (f64.add (f64.add ls rs) 0x3e112e0be826d695) := f64_finite hd (le_huge (by
    rw [abs_of_nonneg (by linarith)]; linarith))
  have nd := abs_le.1 (f64_near hd (by linarith) fd)
  have sd := f64_small (a + t) (by linarith)
  set d := f64.real (f64.add (f64.add ls rs) 0x3e112e0be826d695)
  have d1 : 0.9999999 * ((l : ℝ) + r) ≤ d := by linarith [nd.1]
  have d2 : d ≤ 1.0000001 * ((l : ℝ) + r) := by linarith [nd.2]
  have d0 : 0 < d := by linarith
  have hf := f64.div_correct f64_ok f1 fd d0.ne'
  have hs0 : (0 : ℝ) < l + r := by linarith
  set p : ℝ := (l : ℝ) / (l + r)
  have hp : p * ((l : ℝ) + r) = l := div_mul_cancel₀ _ hs0.ne'
  have hp0 : 0 < p := div_pos (by linarith) hs0
  have hp1 : p < 1 := by rw [div_lt_one hs0]; linarith
  have q1 : p * 0.9999998 ≤ x / d := by
    rw [le_div_iff₀ d0]
    have : p * 0.9999998 * d ≤ p * 0.9999998 * (1.0000001 * ((l : ℝ) + r)) := mul_le_mul_of_nonneg_left d2 (by linarith)
    linarith
  have q2 : x / d ≤ p * 1.0000003 := by
    rw [div_le_iff₀ d0]
    have : p * 1.0000003 * (0.9999999 * ((l : ℝ) + r)) ≤ p * 1.0000003 * d := mul_le_mul_of_nonneg_left d1 (by linarith)
    linarith
  have ff : f64.Finite (f64.div ls (f64.add (f64.add ls rs) 0x3e112e0be826d695)) := f64_finite hf (le_huge (by
    rw [abs_le]; constructor <;> linarith))
  refine ⟨ff, ?_⟩
  have e3 : 1 / 2 ^ 64 ≤ p := by
    rw [div_le_iff₀ (by positivity), ← div_le_iff₀' hp0]
    have : (1 : ℝ) / p ≤ l / p := div_le_div_of_nonneg_right hl' hp0.le
    have h3 : (l : ℝ) / p = l + r := (div_eq_iff hp0.ne').2 (by linarith)
    linarith
  have hxd : (2 : ℝ) ^ (-1022 : Int) ≤ x / d := by
    have e1 : (2 : ℝ) ^ (-1022 : Int) ≤ 2 ^ (-66 : Int) := zpow_le_zpow_right₀ (by norm_num) (by norm_num)
    have e2 : (2 : ℝ) ^ (-66 : Int) = 1 / 2 ^ 66 := by norm_num
    have e4 : (1 : ℝ) / 2 ^ 66 ≤ 1 / 2 ^ 64 * 0.9999998 := by norm_num
    rw [e2] at e1
    linarith
  have nf := abs_le.1 (f64_near hf hxd ff)
  have sf := f64_small (x / d) (by linarith)
  rw [abs_le]
  constructor <;> linarith [nf.1, nf.2]

/-- The computed imbalance is the share of the larger side, up to a millionth. -/
theorem splitImbalance_share {l r : Nat} (hl : 1 ≤ l) (hr : 1 ≤ r) (hb : l + r < 2 ^ 64) :
    f64.Finite (splitImbalance l r) ∧ |f64.real (splitImbalance l r) - largerShare l r| ≤ 1e-6 := by
  obtain ⟨h1, h2⟩ := fraction_close hl hr hb
  have hl' : (1 : ℝ) ≤ l := by exact_mod_cast hl
  have hr' : (1 : ℝ) ≤ r := by exact_mod_cast hr
  have hs : (0 : ℝ) < l + r := by linarith
  have e : largerShare l r = max ((l : ℝ) / (l + r)) (1 - l / (l + r)) := by
    unfold largerShare
    have : (1 : ℝ) - l / (l + r) = r / (l + r) := by field_simp; ring
    rw [this, max_div_div_right hs.le]
  rw [e]
  exact max_one_sub_close h1 (div_nonneg (by linarith) hs.le) (by rw [div_le_one hs]; linarith) h2

/-- Sides with at least one item in 75 pass the test `<= 0.99`. -/
theorem imbalanceLe99_share {l r : Nat} (hl : l + r ≤ 75 * l) (hr : l + r ≤ 75 * r) (h0 : 0 < l + r) (hb : l + r < 2 ^ 64) :
    imbalanceLe99 l r = true := by
  obtain ⟨h1, h2⟩ := splitImbalance_share (l := l) (r := r) (by omega) (by omega) hb
  unfold imbalanceLe99
  rw [le99_iff h1]
  have h3 := (abs_le.1 h2).2
  have h4 := real_99'.2
  have h5 : largerShare l r ≤ 0.987 := by
    unfold largerShare
    have hl' : (l : ℝ) + r ≤ 75 * l := by exact_mod_cast hl
    have hr' : (l : ℝ) + r ≤ 75 * r := by exact_mod_cast hr
    have h0' : (0 : ℝ) < l + r := by exact_mod_cast h0
    rw [div_le_iff₀ h0']
    apply max_le <;> linarith
  linarith

end Annoy
