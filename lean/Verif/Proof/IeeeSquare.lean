import Verif.Proof.IeeeConv
import Verif.Proof.IeeeError
/-!
# The square root of a rounded square

In binary arithmetic `sqrt(x * x)` is `x` again, bit for bit, although `x * x` is rounded, as long as the square neither overflows nor
becomes subnormal.  For `float32` the root is computed in `float64` and rounded twice; that does no harm.
-/
namespace Annoy
namespace Ieee
variable {F : Fmt}

/-- Rounding a number below `2^(mb+1)` units `2^(emin+k)` changes it by at most half such a unit. -/
theorem Fmt.RoundsTo.error_unit {v : ℝ} {b k : Nat} (h : F.RoundsTo v b) (h0 : 0 ≤ v)
    (hv : v < 2 * 2 ^ F.mb * 2 ^ (F.emin + (k : Int))) : |F.value b - v| ≤ 2 ^ (F.emin + (k : Int)) / 2 := by
  obtain ⟨b', h1, h2⟩ := F.exists_between h0
  obtain ⟨k', q, rfl, hq, hk⟩ := F.split_mag b'
  have e1 := F.value_eq hq.le hk
  have e2 := F.value_eq (k := k') (q := q + 1) (by omega) (fun h => by have := hk h; omega)
  rw [show k' * 2 ^ F.mb + q + 1 = k' * 2 ^ F.mb + (q + 1) by omega] at h2
  have d1 : |F.value b - v| ≤ v - F.value (k' * 2 ^ F.mb + q) := by
    have := h (k' * 2 ^ F.mb + q)
    rw [abs_of_nonpos (by linarith : F.value (k' * 2 ^ F.mb + q) - v ≤ 0)] at this
    rcases this with h | ⟨h, _⟩ <;> linarith
  have d2 : |F.value b - v| ≤ F.value (k' * 2 ^ F.mb + (q + 1)) - v := by
    have := h (k' * 2 ^ F.mb + (q + 1))
    rw [abs_of_nonneg (by linarith : (0 : ℝ) ≤ F.value (k' * 2 ^ F.mb + (q + 1)) - v)] at this
    rcases this with h | ⟨h, _⟩ <;> linarith
  have hle : k' ≤ k := by
    by_contra hc
    have hq' : ((2 ^ F.mb : Nat) : ℝ) ≤ (q : ℝ) := by exact_mod_cast hk (by omega)
    push_cast at hq'
    have hz : (2 : ℝ) ^ (F.emin + (k : Int)) * 2 ≤ 2 ^ (F.emin + (k' : Int)) := by
      rw [← zpow_add_one₀ (by norm_num : (2 : ℝ) ≠ 0)]
      exact zpow_le_zpow_right₀ (by norm_num) (by omega)
    have hp : (0 : ℝ) < 2 ^ F.mb := by positivity
    have hU := two_zpow_pos (F.emin + (k' : Int))
    rw [e1] at h1
    nlinarith
  have hz : (2 : ℝ) ^ (F.emin + (k' : Int)) ≤ 2 ^ (F.emin + (k : Int)) := zpow_le_zpow_right₀ (by norm_num) (by omega)
  rw [e1] at d1
  rw [e2] at d2
  push_cast at d2
  linarith

/-- The arithmetic of the lemma below: a number `s` whose square is close to the square of `p = q * U`. -/
theorem root_near {P q U s : ℝ} (hP : 16 ≤ P) (hU : 0 < U) (hs : 0 ≤ s) (hq : P ≤ q)
    (h : (|s ^ 2 - (q * U) ^ 2| ≤ P * U ^ 2 / 2) ∨ (2 * P ^ 2 ≤ q ^ 2 ∧ |s ^ 2 - (q * U) ^ 2| ≤ P * U ^ 2)) :
    |s - q * U| ≤ 3 / 8 * U := by
  obtain ⟨t, rfl⟩ : ∃ t, s = t * U := ⟨s / U, by field_simp⟩
  have ht : 0 ≤ t := by
    by_contra hc
    have := mul_neg_of_neg_of_pos (not_le.1 hc) hU
    linarith
  have hUU : 0 < U ^ 2 := by positivity
  have e : |(t * U) ^ 2 - (q * U) ^ 2| = |t ^ 2 - q ^ 2| * U ^ 2 := by
    rw [show (t * U) ^ 2 - (q * U) ^ 2 = (t ^ 2 - q ^ 2) * U ^ 2 by ring, abs_mul, abs_of_pos hUU]
  rw [e] at h
  have e2 : |t * U - q * U| = |t - q| * U := by rw [← sub_mul, abs_mul, abs_of_pos hU]
  rw [e2]
  refine mul_le_mul_of_nonneg_right ?_ hU.le
  have e3 : |t ^ 2 - q ^ 2| = |t - q| * (t + q) := by
    rw [show t ^ 2 - q ^ 2 = (t - q) * (t + q) by ring, abs_mul, abs_of_nonneg (by linarith : 0 ≤ t + q)]
  rw [e3] at h
  have ha := abs_nonneg (t - q)
  have hb := neg_abs_le (t - q)
  set d := |t - q| with hd
  rcases h with h | ⟨h1, h⟩
  · have h' : d * (t + q) ≤ P / 2 := by
      rw [show P * U ^ 2 / 2 = P / 2 * U ^ 2 by ring] at h
      exact le_of_mul_le_mul_right h hUU
    have : d ≤ 1 / 2 := by
      by_contra hc
      nlinarith
    nlinarith
  · have h' : d * (t + q) ≤ P := le_of_mul_le_mul_right h hUU
    have hq2 : 7 / 5 * P ≤ q := by
      by_contra hc
      nlinarith
    have : d ≤ 1 := by
      by_contra hc
      nlinarith
    nlinarith

/-- A normal magnitude whose square is normal and finite: the exponent `k` with the bounds needed. -/
def Fmt.SquareOk (F : Fmt) (b : Nat) : Prop :=
  ∃ k q j : Nat, b = k * 2 ^ F.mb + q ∧ 2 ^ F.mb ≤ q ∧ q < 2 * 2 ^ F.mb ∧ (j : Int) = F.mb + F.emin + 2 * k ∧
    (j + 3) * 2 ^ F.mb ≤ F.infBits

theorem unit_sq {m e : Int} {P : ℝ} (hP : P = 2 ^ m) (k : Nat) {j : Nat} (hj : (j : Int) = m + e + 2 * k) :
    P * ((2 : ℝ) ^ (e + (k : Int))) ^ 2 = 2 ^ (e + (j : Int)) := by
  rw [hP, ← zpow_natCast, ← zpow_mul, ← zpow_add₀ (by norm_num), hj]
  congr 1
  push_cast
  ring

/-- The rounded square of a magnitude in range: finite, and its root is within 3/8 of a unit. -/
theorem Fmt.square_near (hm : 4 ≤ F.mb) {k q j z : Nat} (hq1 : 2 ^ F.mb ≤ q) (hq2 : q < 2 * 2 ^ F.mb)
    (hj : (j : Int) = F.mb + F.emin + 2 * k)
    (hz : F.RoundsTo (F.value (k * 2 ^ F.mb + q) * F.value (k * 2 ^ F.mb + q)) z) :
    0 < z ∧ z < (j + 3) * 2 ^ F.mb ∧
    |Real.sqrt (F.value z) - F.value (k * 2 ^ F.mb + q)| ≤ 3 / 8 * 2 ^ (F.emin + (k : Int)) ∧
    (q = 2 ^ F.mb → Real.sqrt (F.value z) = F.value (k * 2 ^ F.mb + q)) := by
  have hv := F.value_eq hq2.le (fun _ => hq1 : k ≠ 0 → 2 ^ F.mb ≤ q)
  have hU := two_zpow_pos (F.emin + (k : Int))
  have hP : ((2 ^ F.mb : Nat) : ℝ) = 2 ^ (F.mb : Int) := by push_cast; rw [zpow_natCast]
  have hP16 : (16 : ℝ) ≤ ((2 ^ F.mb : Nat) : ℝ) := by
    have : 2 ^ 4 ≤ 2 ^ F.mb := Nat.pow_le_pow_right (by decide) hm
    exact_mod_cast this
  have hsq := unit_sq hP k hj
  have hq1' : ((2 ^ F.mb : Nat) : ℝ) ≤ (q : ℝ) := by exact_mod_cast hq1
  have hq2' : (q : ℝ) + 1 ≤ 2 * ((2 ^ F.mb : Nat) : ℝ) := by exact_mod_cast hq2
  have hPn : (2 : ℝ) ^ F.mb = ((2 ^ F.mb : Nat) : ℝ) := by push_cast; rfl
  set P : ℝ := ((2 ^ F.mb : Nat) : ℝ) with hPdef
  set U : ℝ := 2 ^ (F.emin + (k : Int)) with hUdef
  set V : ℝ := 2 ^ (F.emin + (j : Int)) with hVdef
  have hV1 : (2 : ℝ) ^ (F.emin + ((j + 1 : Nat) : Int)) = 2 * V := by
    rw [show F.emin + ((j + 1 : Nat) : Int) = (F.emin + (j : Int)) + 1 by push_cast; ring, zpow_add_one₀ (by norm_num)]
    ring
  rw [hv] at hz ⊢
  have hUU : 0 < U ^ 2 := by positivity
  have hpp : (q : ℝ) * U * (q * U) = q ^ 2 * U ^ 2 := by ring
  have lowrep : F.value (j * 2 ^ F.mb + 2 ^ F.mb) = P * V := F.value_eq (by omega) (fun _ => le_rfl)
  have uprep : F.value ((j + 1) * 2 ^ F.mb + (2 * 2 ^ F.mb - 1)) = (2 * P - 1) * (2 * V) := by
    rw [F.value_eq (by omega) (fun _ => by have := Nat.two_pow_pos F.mb; omega), hV1,
      Nat.cast_sub (by have := Nat.two_pow_pos F.mb; omega)]
    rw [hPdef]; push_cast; ring
  have hup : z ≤ (j + 1) * 2 ^ F.mb + (2 * 2 ^ F.mb - 1) := by
    refine hz.mono (Fmt.RoundsTo.exact F _) ?_
    rw [uprep, ← hsq, hpp, show (2 * P - 1) * (2 * (P * U ^ 2)) = ((2 * P - 1) * (2 * P)) * U ^ 2 by ring]
    refine mul_le_mul_of_nonneg_right ?_ hUU.le
    nlinarith
  have hlow : j * 2 ^ F.mb + 2 ^ F.mb ≤ z := by
    refine (Fmt.RoundsTo.exact F _).mono hz ?_
    rw [lowrep, ← hsq, hpp, show P * (P * U ^ 2) = P * P * U ^ 2 by ring]
    refine mul_le_mul_of_nonneg_right ?_ hUU.le
    nlinarith
  have hp0 := Nat.two_pow_pos F.mb
  refine ⟨by omega, ?_, ?_, ?_⟩
  · rw [Nat.add_mul] at hup ⊢; omega
  · have hs : Real.sqrt (F.value z) ^ 2 = F.value z := Real.sq_sqrt (F.value_nonneg z)
    refine root_near hP16 hU (Real.sqrt_nonneg _) hq1' ?_
    rw [hs]
    by_cases hc : (q : ℝ) ^ 2 < 2 * P ^ 2
    · left
      have := hz.error_unit (k := j) (by positivity) (by
        rw [hPn, ← hVdef, ← hsq, hpp, show 2 * P * (P * U ^ 2) = 2 * P ^ 2 * U ^ 2 by ring]
        exact mul_lt_mul_of_pos_right hc hUU)
      rw [← hVdef, ← hsq] at this
      convert this using 2
      ring_nf
    · right
      refine ⟨not_lt.1 hc, ?_⟩
      have := hz.error_unit (k := j + 1) (by positivity) (by
        rw [hPn, hV1, ← hsq, hpp, show 2 * P * (2 * (P * U ^ 2)) = 4 * P ^ 2 * U ^ 2 by ring]
        refine mul_lt_mul_of_pos_right ?_ hUU
        nlinarith)
      rw [hV1, ← hsq] at this
      convert this using 2
      · ring_nf
      · ring
  · intro he
    have hqP : (q : ℝ) = P := by rw [he]
    have : F.RoundsTo ((q : ℝ) * U * (q * U)) (j * 2 ^ F.mb + 2 ^ F.mb) := by
      have := Fmt.RoundsTo.exact F (j * 2 ^ F.mb + 2 ^ F.mb)
      rw [lowrep, ← hsq] at this
      convert this using 1
      rw [hqP]; ring
    rw [hz.unique this, lowrep, ← hsq, hqP, show P * (P * U ^ 2) = (P * U) ^ 2 by ring]
    exact Real.sqrt_sq (by positivity)

/-- Numbers closer than half a unit to a normal magnitude round to it. -/
theorem Fmt.rounds_near (hF : F.Ok) {k q : Nat} {v : ℝ} (hq1 : 2 ^ F.mb ≤ q) (hq2 : q < 2 * 2 ^ F.mb)
    (h : |v - F.value (k * 2 ^ F.mb + q)| ≤ 3 / 8 * 2 ^ (F.emin + (k : Int)))
    (h' : q = 2 ^ F.mb → v = F.value (k * 2 ^ F.mb + q)) : F.RoundsTo v (k * 2 ^ F.mb + q) := by
  have hU := two_zpow_pos (F.emin + (k : Int))
  rcases Nat.eq_or_lt_of_le hq1 with he | hlt
  · rw [h' he.symm]
    exact Fmt.RoundsTo.exact F _
  · rw [abs_le] at h
    refine Fmt.RoundsTo.intro hF hq2.le (fun _ => hq1) ?_
    rcases le_total (F.value (k * 2 ^ F.mb + q)) v with h1 | h1
    · exact .inl ⟨h1, hq2, by linarith, fun e => by linarith⟩
    · exact .inr ⟨h1, by omega, fun _ => hlt, by linarith, fun e => by linarith⟩

/-- The rounded square as a pattern. -/
theorem Fmt.square_spec (hF : F.Ok) (hm : 4 ≤ F.mb) {x : Nat} (hx : F.Finite x) {k q j : Nat} (hb : F.mag x = k * 2 ^ F.mb + q)
    (hq1 : 2 ^ F.mb ≤ q) (hq2 : q < 2 * 2 ^ F.mb) (hj : (j : Int) = F.mb + F.emin + 2 * k) (hinf : (j + 3) * 2 ^ F.mb ≤ F.infBits) :
    F.Finite (F.mul x x) ∧ F.mul x x < 2 * F.signBit ∧ 0 < F.real (F.mul x x) ∧
    |Real.sqrt (F.real (F.mul x x)) - F.value (k * 2 ^ F.mb + q)| ≤ 3 / 8 * 2 ^ (F.emin + (k : Int)) ∧
    (q = 2 ^ F.mb → Real.sqrt (F.real (F.mul x x)) = F.value (k * 2 ^ F.mb + q)) := by
  have hr : F.real x * F.real x = F.value (F.mag x) * F.value (F.mag x) := by
    unfold Fmt.real
    split <;> ring
  have hpos : 0 < F.value (F.mag x) := by
    rw [← F.value_zero]
    refine F.value_strictMono ?_
    have := Nat.two_pow_pos F.mb
    omega
  obtain ⟨hlt, ⟨z, hz, hc⟩, -, hs⟩ := F.mul_correct hF hx hx
  rw [hr] at hz hs
  have hs := hs (by positivity)
  rw [abs_of_pos (by positivity), hb] at hz
  obtain ⟨n1, n2, n3, n4⟩ := F.square_near hm hq1 hq2 hj hz
  rw [Fmt.cap_of_lt (by omega)] at hc
  rw [Fmt.real_of_nonneg hs, hc]
  refine ⟨by unfold Fmt.Finite; omega, hlt, ?_, n3, n4⟩
  rw [← F.value_zero]
  exact F.value_strictMono n1

/-- A correctly rounded result whose rounded magnitude and sign are known. -/
theorem Fmt.Correct.eq {v : ℝ} {z x : Nat} (h : F.Correct v z) (hv : 0 < v) (hx : x < F.infBits) (hr : F.RoundsTo v x) : z = x := by
  obtain ⟨hlt, ⟨b, hb, hc⟩, -, hs⟩ := h
  rw [abs_of_pos hv] at hb
  have := hb.unique hr
  subst this
  rw [Fmt.cap_of_lt hx] at hc
  rw [← F.signed_mag hlt, hs hv, hc]
  simp [Fmt.signed]

/-- `sqrt(x * x) = x` where `sqrt` is rounded once. -/
theorem Fmt.sqrt_square (hF : F.Ok) (hm : 4 ≤ F.mb) {x : Nat} (hx : x < F.infBits) (h : F.SquareOk x) : F.sqrt (F.mul x x) = x := by
  obtain ⟨k, q, j, rfl, hq1, hq2, hj, hinf⟩ := h
  have hsb := F.infBits_lt
  have hmag : F.mag (k * 2 ^ F.mb + q) = k * 2 ^ F.mb + q := Nat.mod_eq_of_lt (by omega)
  obtain ⟨h1, h2, h3, h4, h5⟩ := F.square_spec hF hm (by unfold Fmt.Finite; rw [hmag]; exact hx) hmag hq1 hq2 hj hinf
  exact (F.sqrt_correct hF h2 h1 h3.le).eq (Real.sqrt_pos.2 h3) hx (F.rounds_near hF hq1 hq2 h4 h5)

/-- `float64` holds numbers of 27 bits. -/
theorem f64_holds27 {m : Nat} {e : Int} (hm : m < 2 ^ 27) (h1 : -152 ≤ e) (h2 : e ≤ 104) :
    ∃ b, f64.value b = (m : ℝ) * 2 ^ e := by
  by_cases h0 : m = 0
  · exact ⟨0, by rw [h0, Fmt.value_zero]; simp⟩
  · have hl : Nat.log2 m < 27 := (Nat.log2_lt h0).2 hm
    have hl1 := Nat.log2_self_le h0
    have hl2 := Nat.lt_log2_self (n := m)
    obtain ⟨d, hd⟩ : ∃ d : Nat, Nat.log2 m + d = 52 := ⟨52 - Nat.log2 m, by omega⟩
    have b1 : 2 ^ 52 ≤ m * 2 ^ d := by
      rw [← hd, Nat.pow_add]; exact Nat.mul_le_mul_right _ hl1
    have b2 : m * 2 ^ d < 2 * 2 ^ 52 := by
      have : m * 2 ^ d < 2 ^ (Nat.log2 m + 1) * 2 ^ d := Nat.mul_lt_mul_of_pos_right hl2 (Nat.two_pow_pos d)
      rw [← Nat.pow_add, show Nat.log2 m + 1 + d = 53 by omega] at this
      omega
    have hemin : f64.emin = -1074 := by decide
    have hmb : f64.mb = 52 := rfl
    obtain ⟨k, hk⟩ : ∃ k : Nat, f64.emin + k = e - d := ⟨(e - d - f64.emin).toNat, by omega⟩
    refine ⟨k * 2 ^ f64.mb + m * 2 ^ d, ?_⟩
    rw [f64.value_eq (by rw [hmb]; omega) (fun _ => by rw [hmb]; exact b1), hk]
    push_cast
    rw [mul_assoc, ← zpow_natCast, ← zpow_add₀ (by norm_num : (2 : ℝ) ≠ 0)]
    congr 2
    omega

/-- Rounding to `float64` stays between representable bounds. -/
theorem Fmt.Correct.between {v lo hi : ℝ} {z a b : Nat} (h : F.Correct v z) (hf : F.Finite z) (hv : 0 < v) (ha : F.value a = lo) (hb : F.value b = hi)
    (h1 : lo ≤ v) (h2 : v ≤ hi) : lo ≤ F.real z ∧ F.real z ≤ hi := by
  obtain ⟨hlt, ⟨c, hc, hm⟩, -, hs⟩ := h
  rw [abs_of_pos hv] at hc
  unfold Fmt.Finite at hf
  have hzc : F.mag z = c := by
    rw [hm] at hf ⊢
    unfold Fmt.cap at hf ⊢
    split at hf
    · omega
    · next h => rw [if_neg h]
  rw [Fmt.real_of_nonneg (hs hv), hzc, ← ha, ← hb]
  rw [← ha] at h1
  rw [← hb] at h2
  exact ⟨F.value_strictMono.monotone ((Fmt.RoundsTo.exact F a).mono hc h1), F.value_strictMono.monotone (hc.mono (Fmt.RoundsTo.exact F b) h2)⟩

/-- `float32(math.Sqrt(float64(x * x))) = x`, rounded in between to `float64`. -/
theorem sqrt32_square {x : Nat} (hx : x < f32.infBits) (h : f32.SquareOk x) :
    conv f64 f32 (f64.sqrt (conv f32 f64 (f32.mul x x))) = x := by
  obtain ⟨k, q, j, rfl, hq1, hq2, hj, hinf⟩ := h
  have hsb := f32.infBits_lt
  have hmag : f32.mag (k * 2 ^ f32.mb + q) = k * 2 ^ f32.mb + q := Nat.mod_eq_of_lt (by omega)
  obtain ⟨h1, h2, h3, h4, h5⟩ := f32.square_spec f32_ok (by decide) (by unfold Fmt.Finite; rw [hmag]; exact hx) hmag hq1 hq2 hj hinf
  obtain ⟨u1, u2⟩ := conv_up h1
  have hsq := f64.sqrt_correct f64_ok (conv_lt f64_ok _) u1 (by rw [u2]; exact h3.le)
  rw [u2] at hsq
  have hs0 := Real.sqrt_pos.2 h3
  set s := Real.sqrt (f32.real (f32.mul (k * 2 ^ f32.mb + q) (k * 2 ^ f32.mb + q))) with hsdef
  have hv := f32.value_eq hq2.le (fun _ => hq1 : k ≠ 0 → 2 ^ f32.mb ≤ q)
  have hemin : f32.emin = -149 := by decide
  have hmb : f32.mb = 23 := rfl
  have hi : f32.infBits = 255 * 2 ^ 23 := by decide
  have hq1n : 2 ^ 23 ≤ q := hq1
  have hq2n : q < 2 * 2 ^ 23 := hq2
  rw [hi, hmb] at hinf
  rw [hmb, hemin] at hj
  have hk : k ≤ 189 := by omega
  have hU := two_zpow_pos (f32.emin + (k : Int))
  have hU8 : (2 : ℝ) ^ (f32.emin + (k : Int)) = 8 * 2 ^ (f32.emin + (k : Int) - 3) := by
    rw [show f32.emin + (k : Int) = (f32.emin + (k : Int) - 3) + 3 by ring, zpow_add₀ (by norm_num)]
    norm_num
    ring
  have hE8 := two_zpow_pos (f32.emin + (k : Int) - 3)
  have hqpos : (2 ^ 23 : ℝ) ≤ (q : ℝ) := by exact_mod_cast hq1n
  have hqlt : (q : ℝ) < 2 * 2 ^ 23 := by exact_mod_cast hq2n
  have hfin : f64.Finite (f64.sqrt (conv f32 f64 (f32.mul (k * 2 ^ f32.mb + q) (k * 2 ^ f32.mb + q)))) := by
    refine f64_finite hsq ?_
    rw [abs_of_pos hs0]
    rw [abs_le] at h4
    have hle : (2 : ℝ) ^ (f32.emin + (k : Int)) ≤ 2 ^ (900 : Int) := zpow_le_zpow_right₀ (by norm_num) (by omega)
    have e1000 : (2 : ℝ) ^ (1000 : Int) = 2 ^ (100 : Int) * 2 ^ (900 : Int) := by rw [← zpow_add₀ (by norm_num)]; norm_num
    have hp9 := two_zpow_pos (900 : Int)
    have e100 : (2 : ℝ) ^ (100 : Int) = 1267650600228229401496703205376 := by norm_num
    rw [e1000, e100]
    have h4' := h4.2
    rw [hv] at h4'
    have : (q : ℝ) * 2 ^ (f32.emin + (k : Int)) ≤ 2 * 2 ^ 23 * 2 ^ (900 : Int) :=
      mul_le_mul hqlt.le hle hU.le (by norm_num)
    clear e1000 e100
    generalize (2 : ℝ) ^ (900 : Int) = A at *
    generalize (2 : ℝ) ^ (f32.emin + (k : Int)) = B at *
    norm_num at this
    linarith
  have hy : 0 < f64.real (f64.sqrt (conv f32 f64 (f32.mul (k * 2 ^ f32.mb + q) (k * 2 ^ f32.mb + q)))) ∧
      |f64.real (f64.sqrt (conv f32 f64 (f32.mul (k * 2 ^ f32.mb + q) (k * 2 ^ f32.mb + q)))) - f32.value (k * 2 ^ f32.mb + q)| ≤
        3 / 8 * 2 ^ (f32.emin + (k : Int)) := by
    obtain ⟨a, ha⟩ := f64_holds27 (m := 8 * q - 3) (e := f32.emin + (k : Int) - 3) (by omega) (by omega) (by omega)
    obtain ⟨b, hb⟩ := f64_holds27 (m := 8 * q + 3) (e := f32.emin + (k : Int) - 3) (by omega) (by omega) (by omega)
    rw [Nat.cast_sub (by omega)] at ha
    push_cast at ha hb
    rw [abs_le, hv, hU8] at h4
    obtain ⟨b1, b2⟩ := hsq.between hfin hs0 ha hb (by nlinarith) (by nlinarith)
    refine ⟨lt_of_lt_of_le (by nlinarith) b1, ?_⟩
    rw [abs_le, hv, hU8]
    constructor <;> nlinarith
  refine (conv_correct f32_ok hfin).eq hy.1 hx (f32.rounds_near f32_ok hq1 hq2 hy.2 ?_)
  intro he
  obtain ⟨a, ha⟩ := f64_holds27 (m := q) (e := f32.emin + (k : Int)) (by omega) (by omega) (by omega)
  rw [← hv, ← h5 he] at ha
  obtain ⟨b1, b2⟩ := hsq.between hfin hs0 ha ha le_rfl le_rfl
  rw [← h5 he]
  exact le_antisymm b2 b1

/-- Twice a normal number below half the largest: exact. -/
theorem Fmt.two_mul (hF : F.Ok) {t x k q : Nat} (hb : x = k * 2 ^ F.mb + q) (hq1 : 2 ^ F.mb ≤ q) (hq2 : q < 2 * 2 ^ F.mb)
    (hx : x + 2 ^ F.mb < F.infBits) (ht : F.Finite t) (h2 : F.real t = 2) : F.mul t x = x + 2 ^ F.mb := by
  have hsb := F.infBits_lt
  have hmag : F.mag x = x := Nat.mod_eq_of_lt (by omega)
  have hneg : F.isNeg x = false := by
    unfold Fmt.isNeg
    simpa using (show x < F.signBit by omega)
  have hv := F.value_eq hq2.le (fun _ => hq1 : k ≠ 0 → 2 ^ F.mb ≤ q)
  have hv2 := F.value_eq (k := k + 1) hq2.le (fun _ => hq1)
  have e : F.value (x + 2 ^ F.mb) = 2 * F.value x := by
    rw [hb, hv, show k * 2 ^ F.mb + q + 2 ^ F.mb = (k + 1) * 2 ^ F.mb + q by rw [Nat.add_mul]; omega, hv2,
      show F.emin + ((k + 1 : Nat) : Int) = (F.emin + (k : Int)) + 1 by push_cast; ring, zpow_add_one₀ (by norm_num)]
    ring
  have hpos : 0 < F.value x := by
    rw [← F.value_zero]
    have := Nat.two_pow_pos F.mb
    exact F.value_strictMono (by omega)
  have hc := F.mul_correct hF ht (show F.Finite x by unfold Fmt.Finite; omega)
  rw [h2, Fmt.real_of_nonneg hneg, hmag, ← e] at hc
  exact hc.eq (by rw [e]; linarith) hx (Fmt.RoundsTo.exact F _)

/-- `2x / x = 2`. -/
theorem Fmt.two_mul_div (hF : F.Ok) {t x k q : Nat} (hb : x = k * 2 ^ F.mb + q) (hq1 : 2 ^ F.mb ≤ q) (hq2 : q < 2 * 2 ^ F.mb)
    (hx : x + 2 ^ F.mb < F.infBits) (ht : t < F.infBits) (h2 : F.real t = 2) : F.div (F.mul t x) x = t := by
  have hsb := F.infBits_lt
  have mags : ∀ y, y < F.infBits → F.mag y = y ∧ F.isNeg y = false := by
    intro y hy
    refine ⟨Nat.mod_eq_of_lt (by omega), ?_⟩
    unfold Fmt.isNeg
    simpa using (show y < F.signBit by omega)
  have fin : ∀ y, y < F.infBits → F.Finite y := fun y hy => by unfold Fmt.Finite; rw [(mags y hy).1]; exact hy
  have reals : ∀ y, y < F.infBits → F.real y = F.value y := fun y hy => by rw [Fmt.real_of_nonneg (mags y hy).2, (mags y hy).1]
  have hv := F.value_eq hq2.le (fun _ => hq1 : k ≠ 0 → 2 ^ F.mb ≤ q)
  have hv2 := F.value_eq (k := k + 1) hq2.le (fun _ => hq1)
  have e : F.value (x + 2 ^ F.mb) = 2 * F.value x := by
    rw [hb, hv, show k * 2 ^ F.mb + q + 2 ^ F.mb = (k + 1) * 2 ^ F.mb + q by rw [Nat.add_mul]; omega, hv2,
      show F.emin + ((k + 1 : Nat) : Int) = (F.emin + (k : Int)) + 1 by push_cast; ring, zpow_add_one₀ (by norm_num)]
    ring
  have hpos : 0 < F.value x := by
    rw [← F.value_zero]
    have := Nat.two_pow_pos F.mb
    exact F.value_strictMono (by omega)
  rw [F.two_mul hF hb hq1 hq2 hx (fin t ht) h2]
  have hc := F.div_correct hF (fin _ hx) (fin x (by omega)) (by rw [reals x (by omega)]; exact hpos.ne')
  rw [reals _ hx, reals x (by omega), e, mul_div_cancel_right₀ _ hpos.ne'] at hc
  refine hc.eq (by norm_num) ht ?_
  have := Fmt.RoundsTo.exact F t
  rwa [← reals t ht, h2] at this

end Ieee
end Annoy
