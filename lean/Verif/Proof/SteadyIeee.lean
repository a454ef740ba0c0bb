import Verif.Proof.Steady
import Verif.Proof.ApproxIeee
import Verif.Proof.FloatInt
/-!
The two IEEE formats satisfy `Steady`.
-/
namespace Annoy
namespace Ieee
variable {F : Fmt}

theorem Fmt.granular (F : Fmt) {x : Nat} (h : 0 < F.real x) : 2 ^ F.emin ≤ F.real x := by
  have hn : F.isNeg x = false := by
    cases hx : F.isNeg x with
    | false => rfl
    | true =>
      unfold Fmt.real at h
      rw [hx, if_pos rfl] at h
      have := F.value_nonneg (F.mag x)
      linarith
  rw [Fmt.real_of_nonneg hn] at h ⊢
  have h1 : 1 ≤ F.mag x := by
    by_contra hc
    rw [show F.mag x = 0 by omega, F.value_zero] at h
    exact lt_irrefl _ h
  have h2 := F.value_strictMono.monotone h1
  have h3 : F.value 1 = 2 ^ F.emin := by
    have h := F.value_eq (k := 0) (q := 1) (by have := Nat.one_le_two_pow (n := F.mb); omega) (fun h => absurd rfl h)
    simpa using h
  rwa [h3] at h2

/-- A correctly rounded result has the sign of the exact one. -/
theorem Fmt.Correct.nonneg {v : ℝ} {z : Nat} (h : F.Correct v z) (hv : 0 ≤ v) : 0 ≤ F.real z := by
  obtain ⟨-, ⟨c, hc, hm⟩, -, hpos⟩ := h
  rcases hv.lt_or_eq with h | h
  · rw [Fmt.real_of_nonneg (hpos h)]
    exact F.value_nonneg _
  · rw [← h, abs_zero] at hc
    have := hc.unique (Fmt.RoundsTo.zero F)
    subst this
    have hz : F.mag z = 0 := by
      rw [hm]; unfold Fmt.cap; split <;> omega
    unfold Fmt.real
    rw [hz, F.value_zero]
    simp

theorem Fmt.Correct.zero {z : Nat} (h : F.Correct 0 z) : F.real z = 0 ∧ F.mag z = 0 := by
  obtain ⟨-, ⟨c, hc, hm⟩, -, -⟩ := h
  rw [abs_zero] at hc
  have := hc.unique (Fmt.RoundsTo.zero F)
  subst this
  have hz : F.mag z = 0 := by
    rw [hm]; unfold Fmt.cap; split <;> omega
  refine ⟨?_, hz⟩
  unfold Fmt.real
  rw [hz, F.value_zero]
  simp

theorem Fmt.Finite.lt_inf {x : Nat} (h : F.Finite x) : F.lt x F.infBits = true := by
  have h1 := F.infBits_lt
  have hk : F.key F.infBits = F.infBits := by
    have := Fmt.isNeg_signed (F := F) (b := false) h1
    have h2 := Fmt.mag_signed (F := F) (b := false) h1
    simp only [Fmt.signed, Bool.false_eq_true, if_false] at this h2
    unfold Fmt.key
    rw [this, h2]; rfl
  have hn : F.isNaN F.infBits = false := by
    have h2 := Fmt.mag_signed (F := F) (b := false) h1
    simp only [Fmt.signed, Bool.false_eq_true, if_false] at h2
    unfold Fmt.isNaN
    rw [h2]; simp
  unfold Fmt.lt
  rw [hk, hn, h.notNaN]
  unfold Fmt.Finite at h
  simp only [Bool.not_false, Bool.true_and, decide_eq_true_eq]
  unfold Fmt.key
  split <;> omega

theorem ofLE_snoc_zero (l : List Byte) : ofLE (l ++ [0]) = ofLE l := by
  induction l with
  | nil => simp [ofLE]
  | cons b l ih => simp [ofLE, ih]

theorem one64 : f64.Finite f64.one ∧ f64.real f64.one = 1 := by
  have hn : f64.isNeg f64.one = false := by decide
  have hm : f64.mag f64.one = 1022 * 2 ^ f64.mb + 2 ^ f64.mb := by decide
  have e1 : f64.emin = -1074 := by decide
  refine ⟨by show f64.mag f64.one < f64.infBits; decide, ?_⟩
  rw [Fmt.real_of_nonneg hn, hm, f64.value_eq (by omega) (fun _ => le_rfl), e1, show f64.mb = 52 from rfl]
  have : ((2 ^ 52 : Nat) : ℝ) = 2 ^ (52 : Int) := by norm_num
  rw [this, ← zpow_add₀ (by norm_num)]
  norm_num

theorem weight64 (k : Nat) (hk : k ≤ 200) :
    f64.Finite (meanWeight ieee64 k).toNat ∧ f64.real (meanWeight ieee64 k).toNat = k + 1 := by
  induction k with
  | zero =>
    have e : (BitVec.ofNat 64 f64.one).toNat = f64.one := by decide
    show f64.Finite (BitVec.ofNat 64 f64.one).toNat ∧ f64.real (BitVec.ofNat 64 f64.one).toNat = _
    rw [e]
    refine ⟨one64.1, one64.2.trans (by simp)⟩
  | succ k ih =>
    obtain ⟨h1, h2⟩ := ih (by omega)
    have e : (BitVec.ofNat 64 f64.one).toNat = f64.one := by decide
    have hc := f64.add_correct f64_ok h1 one64.1
    rw [h2, one64.2] at hc
    obtain ⟨h3, h4⟩ := Fmt.Correct.exact hc (n := k + 2) (by omega) (by
      rw [abs_of_nonneg (by positivity)]; push_cast; ring)
    show f64.Finite (BitVec.ofNat 64 (f64.add (meanWeight ieee64 k).toNat (BitVec.ofNat 64 f64.one).toNat)).toNat ∧
      f64.real (BitVec.ofNat 64 (f64.add (meanWeight ieee64 k).toNat (BitVec.ofNat 64 f64.one).toNat)).toNat = _
    rw [e, toNat64 hc.1]
    exact ⟨h3, h4.trans (by push_cast; ring)⟩

theorem weight32 (k : Nat) : meanWeight ieee32 k = (meanWeight ieee64 k : BitVec 64) := by
  induction k with
  | zero => rfl
  | succ k ih =>
    show BitVec.ofNat 64 (f64.add (BitVec.toNat (w := 64) (meanWeight ieee32 k)) _) = BitVec.ofNat 64 (f64.add (BitVec.toNat (w := 64) (meanWeight ieee64 k)) _)
    rw [ih]
    rfl

theorem lt_inf32 (x : BitVec 32) (h : f32.Finite x.toNat) :
    f32.lt x.toNat (BitVec.ofNat 32 f32.infBits).toNat = true ∧
      f32.lt (BitVec.ofNat 32 (f32.neg x.toNat)).toNat (BitVec.ofNat 32 f32.infBits).toNat = true := by
  rw [KeyBV.toNat_inf (by decide), KeyBV.toNat_neg (by decide)]
  exact ⟨Fmt.Finite.lt_inf h, Fmt.Finite.lt_inf (Fmt.Finite.neg h)⟩

theorem finite32 (x : ieee32.V) (h : fin32 x) : ieee32.Finite x := lt_inf32 x h

theorem lt_inf64 (x : BitVec 64) (h : f64.Finite x.toNat) :
    f64.lt x.toNat (BitVec.ofNat 64 f64.infBits).toNat = true ∧
      f64.lt (BitVec.ofNat 64 (f64.neg x.toNat)).toNat (BitVec.ofNat 64 f64.infBits).toNat = true := by
  rw [KeyBV.toNat_inf (by decide), KeyBV.toNat_neg (by decide)]
  exact ⟨Fmt.Finite.lt_inf h, Fmt.Finite.lt_inf (Fmt.Finite.neg h)⟩

theorem finite64 (x : ieee64.V) (h : fin64 x) : ieee64.Finite x := lt_inf64 x h

theorem ieee32_steady : Steady ieee32 val32 fin32 (2 ^ (-24 : Int)) (2 ^ (-149 : Int)) (2 ^ 127) where
  approx := ieee32_approx
  u0 := by positivity
  u1 := by norm_num
  t0 := by positivity
  t1 := by
    rw [← zpow_natCast, ← zpow_add₀ (by norm_num)]
    exact zpow_le_one_of_nonpos₀ (by norm_num) (by norm_num)
  granular x _ h := by
    have := f32.granular h
    rwa [show f32.emin = -149 by decide] at this
  self x hx _ := by
    have hc := f32.mul_correct f32_ok hx hx
    show 0 ≤ f32.real (BitVec.ofNat 32 _).toNat
    rw [toNat32 hc.1]
    exact hc.nonneg (mul_self_nonneg _)
  sum x y hx hy h1 h2 _ := by
    have hc := f32.add_correct f32_ok hx hy
    show 0 ≤ f32.real (BitVec.ofNat 32 _).toNat
    rw [toNat32 hc.1]
    exact hc.nonneg (add_nonneg h1 h2)
  root0 x hx h0 := by
    obtain ⟨f1, e1⟩ := conv_up hx
    have h0 : f32.real (BitVec.toNat (w := 32) x) = 0 := h0
    have hs := f64.sqrt_correct f64_ok (conv_lt f64_ok _) f1 (by rw [e1, h0])
    rw [e1, h0, Real.sqrt_zero] at hs
    have hz := hs.zero
    have hc := conv_correct (F := f64) (G := f32) f32_ok (x := f64.sqrt (conv f32 f64 (BitVec.toNat (w := 32) x))) (by
      unfold Fmt.Finite; rw [hz.2]; exact f64.infBits_pos f64_ok)
    rw [hz.1] at hc
    show ¬ 0 < f32.real (BitVec.ofNat 32 (conv f64 f32 (f64.sqrt (conv f32 f64 (BitVec.toNat (w := 32) x))))).toNat
    rw [toNat32 hc.1, hc.zero.1]
    exact lt_irrefl _
  weight k hk := by
    obtain ⟨h1, h2⟩ := weight64 k hk
    have hc := conv_correct (F := f64) (G := f32) f32_ok h1
    rw [h2] at hc
    have hk' : (k : ℝ) ≤ 200 := by exact_mod_cast hk
    have hk0 : (0 : ℝ) ≤ k := Nat.cast_nonneg k
    obtain ⟨h3, h4⟩ := op32 hc (by
      rw [abs_of_nonneg (by positivity)]
      have : (201 : ℝ) ≤ 2 ^ 127 := by norm_num
      linarith)
    rw [weight32]
    refine ⟨h3, h4.trans ?_⟩
    rw [abs_of_nonneg (by positivity)]
    have : (2 : ℝ) ^ (-149 : Int) ≤ 2 ^ (-24 : Int) * 1 := by
      rw [mul_one]
      exact zpow_le_zpow_right₀ (by norm_num) (by norm_num)
    have h5 : (2 : ℝ) ^ (-24 : Int) * 1 ≤ 2 ^ (-24 : Int) * ((k : ℝ) + 1) := mul_le_mul_of_nonneg_left (by linarith) (by positivity)
    generalize (2 : ℝ) ^ (-149 : Int) = a at *
    generalize (2 : ℝ) ^ (-24 : Int) = b at *
    linarith
  finite := finite32

theorem ieee64_steady : Steady ieee64 val64 fin64 (2 ^ (-53 : Int)) (2 ^ (-1074 : Int)) (2 ^ 1000) where
  approx := ieee64_approx
  u0 := by positivity
  u1 := by norm_num
  t0 := by positivity
  t1 := by
    rw [← zpow_natCast, ← zpow_add₀ (by norm_num)]
    exact zpow_le_one_of_nonpos₀ (by norm_num) (by norm_num)
  granular x _ h := by
    have := f64.granular h
    rwa [show f64.emin = -1074 by decide] at this
  self x hx _ := by
    have hc := f64.mul_correct f64_ok hx hx
    show 0 ≤ f64.real (BitVec.ofNat 64 _).toNat
    rw [toNat64 hc.1]
    exact hc.nonneg (mul_self_nonneg _)
  sum x y hx hy h1 h2 _ := by
    have hc := f64.add_correct f64_ok hx hy
    show 0 ≤ f64.real (BitVec.ofNat 64 _).toNat
    rw [toNat64 hc.1]
    exact hc.nonneg (add_nonneg h1 h2)
  root0 x hx h0 := by
    have h0 : f64.real (BitVec.toNat (w := 64) x) = 0 := h0
    have hs := f64.sqrt_correct f64_ok (BitVec.isLt (w := 64) x) hx h0.ge
    rw [h0, Real.sqrt_zero] at hs
    show ¬ 0 < f64.real (BitVec.ofNat 64 (f64.sqrt (BitVec.toNat (w := 64) x))).toNat
    rw [toNat64 hs.1, hs.zero.1]
    exact lt_irrefl _
  weight k hk := by
    obtain ⟨h1, h2⟩ := weight64 k hk
    refine ⟨h1, ?_⟩
    show |f64.real (meanWeight ieee64 k).toNat - _| ≤ _
    rw [h2, sub_self, abs_zero]
    positivity
  finite := finite64

/-- A `float32` without its most significant byte is tiny. -/
theorem cutTiny32 : CutTiny (N := ieee32) (bvCodec 4) val32 fin32 := by
  intro l hl
  have hl : l.length = 3 := by
    have : l.length + 1 = 4 := hl
    omega
  have hlt := ofLE_lt l
  rw [hl] at hlt
  have e : ofLE (l ++ [0]) = ofLE l := by
    exact ofLE_snoc_zero l
  have hb : (BitVec.ofNat 32 (ofLE (l ++ [0]))).toNat = ofLE l := by
    rw [e, BitVec.toNat_ofNat, Nat.mod_eq_of_lt (by omega)]
  have hs : f32.signBit = 2 ^ 31 := by decide
  have hm : f32.mag (ofLE l) = ofLE l := by unfold Fmt.mag; rw [hs, Nat.mod_eq_of_lt (by omega)]
  show f32.Finite (BitVec.ofNat 32 (ofLE (l ++ [0]))).toNat ∧ |f32.real (BitVec.ofNat 32 (ofLE (l ++ [0]))).toNat| ≤ 1
  rw [hb, Fmt.abs_real]
  unfold Fmt.Finite
  rw [hm]
  refine ⟨by rw [show f32.infBits = 255 * 2 ^ 23 by decide]; omega, ?_⟩
  have h1 := f32.value_strictMono.monotone (show ofLE l ≤ 1 * 2 ^ 23 + 2 ^ 23 by omega)
  rw [show (2 ^ 23 : Nat) = 2 ^ f32.mb from rfl, f32.value_eq (by omega) (fun _ => le_rfl), show f32.emin = -149 by decide,
    show f32.mb = 23 from rfl] at h1
  refine h1.trans ?_
  norm_num

/-- A `float64` without its most significant byte is tiny. -/
theorem cutTiny64 : CutTiny (N := ieee64) (bvCodec 8) val64 fin64 := by
  intro l hl
  have hl : l.length = 7 := by
    have : l.length + 1 = 8 := hl
    omega
  have hlt := ofLE_lt l
  rw [hl] at hlt
  have e : ofLE (l ++ [0]) = ofLE l := by
    exact ofLE_snoc_zero l
  have hb : (BitVec.ofNat 64 (ofLE (l ++ [0]))).toNat = ofLE l := by
    rw [e, BitVec.toNat_ofNat, Nat.mod_eq_of_lt (by omega)]
  have hs : f64.signBit = 2 ^ 63 := by decide
  have hm : f64.mag (ofLE l) = ofLE l := by unfold Fmt.mag; rw [hs, Nat.mod_eq_of_lt (by omega)]
  show f64.Finite (BitVec.ofNat 64 (ofLE (l ++ [0]))).toNat ∧ |f64.real (BitVec.ofNat 64 (ofLE (l ++ [0]))).toNat| ≤ 1
  rw [hb, Fmt.abs_real]
  unfold Fmt.Finite
  rw [hm]
  refine ⟨by rw [show f64.infBits = 2047 * 2 ^ 52 by decide]; omega, ?_⟩
  have h1 := f64.value_strictMono.monotone (show ofLE l ≤ 15 * 2 ^ 52 + 2 ^ 52 by omega)
  rw [show (2 ^ 52 : Nat) = 2 ^ f64.mb from rfl, f64.value_eq (by omega) (fun _ => le_rfl), show f64.emin = -1074 by decide,
    show f64.mb = 52 from rfl] at h1
  refine h1.trans ?_
  rw [show ((2 ^ 52 : Nat) : ℝ) = 2 ^ (52 : Int) by norm_num, ← zpow_add₀ (by norm_num)]
  exact zpow_le_one_of_nonpos₀ (by norm_num) (by norm_num)

end Ieee
end Annoy
