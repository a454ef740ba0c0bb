import Verif.Proof.Imbalance
/-!
Integers below `2^53` are `float64`s, and the floor of a rounded quotient of two of them is the floor of the quotient.
-/
namespace Annoy
namespace Ieee

theorem f64_holds_nat {n : Nat} (hn : n ≤ 2 ^ 53) : ∃ b, f64.value b = (n : ℝ) := by
  by_cases h0 : n = 0
  · exact ⟨0, by rw [h0, Fmt.value_zero]; simp⟩
  · by_cases h53 : n = 2 ^ 53
    · refine ⟨1075 * 2 ^ f64.mb + 2 ^ f64.mb, ?_⟩
      rw [f64.value_eq (by omega) (fun _ => le_rfl), h53, show f64.emin = -1074 by decide, show f64.mb = 52 from rfl]
      norm_num
    have hl : Nat.log2 n < 53 := (Nat.log2_lt h0).2 (by omega)
    have h1 := Nat.log2_self_le h0
    have h2 : n < 2 ^ (Nat.log2 n + 1) := Nat.lt_log2_self
    set l := Nat.log2 n with hl'
    have e1 : 2 ^ l * 2 ^ (52 - l) = 2 ^ 52 := by rw [← Nat.pow_add]; congr 1; omega
    have e2 : 2 ^ (l + 1) * 2 ^ (52 - l) = 2 * 2 ^ 52 := by rw [Nat.pow_succ]; rw [Nat.mul_right_comm, e1, Nat.mul_comm]
    have hp : 0 < 2 ^ (52 - l) := Nat.two_pow_pos _
    have q1 : 2 ^ 52 ≤ n * 2 ^ (52 - l) := by rw [← e1]; exact Nat.mul_le_mul_right _ h1
    have q2 : n * 2 ^ (52 - l) < 2 * 2 ^ 52 := by rw [← e2]; exact Nat.mul_lt_mul_of_pos_right h2 hp
    refine ⟨(l + 1022) * 2 ^ f64.mb + n * 2 ^ (52 - l), ?_⟩
    rw [f64.value_eq q2.le (fun _ => q1), show f64.emin = -1074 by decide]
    have he : (-1074 + ((l + 1022 : Nat) : Int)) = (-((52 - l : Nat) : Int)) := by omega
    have hz : (2 : ℝ) ^ (-1074 + ((l + 1022 : Nat) : Int)) = 2 ^ (-((52 - l : Nat) : Int)) := by rw [he]
    rw [hz, zpow_neg, zpow_natCast]
    push_cast
    rw [mul_assoc, mul_inv_cancel₀ (by positivity), mul_one]

/-- A correctly rounded result for a number that needs no rounding. -/
theorem Fmt.Correct.exact {v : ℝ} {z : Nat} (h : f64.Correct v z) {n : Nat} (hn : n ≤ 2 ^ 53) (e : |v| = n) :
    f64.Finite z ∧ f64.real z = v := by
  have hf : f64.Finite z := f64_finite h (le_huge (by
    rw [e]
    have : (n : ℝ) ≤ 2 ^ 53 := by exact_mod_cast hn
    have : (2 : ℝ) ^ 53 ≤ 2 ^ 100 := by norm_num
    linarith))
  obtain ⟨_, ⟨b, hb, hm⟩, s1, s2⟩ := h
  obtain ⟨b', hb'⟩ := f64_holds_nat hn
  rw [e, ← hb'] at hb
  have hbb := hb.unique (Fmt.RoundsTo.exact f64 b')
  subst hbb
  have hz : f64.mag z = b := by
    unfold Fmt.Finite at hf
    rw [hm] at hf ⊢
    unfold Fmt.cap at hf ⊢
    split at hf
    · omega
    · next h => rw [if_neg h]
  refine ⟨hf, ?_⟩
  unfold Fmt.real
  rw [hz, hb', ← e]
  rcases lt_trichotomy v 0 with h | h | h
  · rw [s1 h, if_pos rfl, abs_of_neg h, neg_neg]
  · rw [h]; simp
  · rw [s2 h, if_neg (by simp), abs_of_pos h]

theorem ofInt_exact {i : Int} (h : i.natAbs ≤ 2 ^ 53) : f64.Finite (f64.ofInt i) ∧ f64.real (f64.ofInt i) = i := by
  have hc := f64.encode_exact f64_ok (decide (i < 0)) i.natAbs 0
  have e : (if decide (i < 0) = true then -((i.natAbs : ℝ) * 2 ^ (0 : Int)) else (i.natAbs : ℝ) * 2 ^ (0 : Int)) = (i : ℝ) := by
    rw [zpow_zero, mul_one]
    have hn : (i.natAbs : ℝ) = |(i : ℝ)| := by rw [← Int.cast_abs, ← Int.natCast_natAbs, Int.cast_natCast]
    by_cases hi : i < 0
    · rw [if_pos (by simpa using hi), hn, abs_of_neg (by exact_mod_cast hi), neg_neg]
    · rw [if_neg (by simpa using hi), hn, abs_of_nonneg (by exact_mod_cast (not_lt.1 hi))]
  rw [e] at hc
  exact hc.exact h (by rw [← Int.cast_abs, ← Int.natCast_natAbs, Int.cast_natCast])

theorem ofNat_exact {n : Nat} (h : n ≤ 2 ^ 53) : f64.Finite (f64.ofNat n) ∧ f64.real (f64.ofNat n) = n :=
  (ofNat_correct n).exact h (abs_of_nonneg (Nat.cast_nonneg _))

/-- The floor of a finite pattern is the floor of its value. -/
theorem floor_correct {z : Nat} (hz : f64.Finite z) : f64.floor z = ⌊f64.real z⌋ := by
  obtain ⟨m, e, h1, h2, _⟩ := f64.real_eq hz
  unfold Fmt.floor
  rw [h1, h2]
  dsimp only
  have hs : (if f64.isNeg z = true then -((m : ℝ) * 2 ^ e) else (m : ℝ) * 2 ^ e) =
      ((if f64.isNeg z = true then -(m : Int) else (m : Int) : Int) : ℝ) * 2 ^ e := by
    split <;> simp
  rw [hs]
  generalize (if f64.isNeg z = true then -(m : Int) else (m : Int)) = M
  split
  · next he =>
    have : (2 : ℝ) ^ e = ((2 ^ e.toNat : Int) : ℝ) := by
      push_cast
      rw [← zpow_natCast, Int.toNat_of_nonneg he]
    rw [this, ← Int.cast_mul, Int.floor_intCast]
  · next he =>
    have : (M : ℝ) * 2 ^ e = (M : ℝ) / ((2 ^ (-e).toNat : Nat) : ℝ) := by
      push_cast
      rw [← zpow_natCast, Int.toNat_of_nonneg (by omega), zpow_neg, div_inv_eq_mul]
    rw [this]
    have hfl := Int.floor_div_natCast (M : ℝ) (2 ^ (-e).toNat)
    rw [hfl, Int.floor_intCast]
    push_cast
    rfl

/-- The relative error of a quotient, whatever its sign. -/
theorem f64_near_abs {v : ℝ} {z : Nat} (h : f64.Correct v z) (h1 : 2 ^ (-1022 : Int) ≤ |v|) (hf : f64.Finite z) :
    |f64.real z - v| ≤ |v| / 2 ^ 53 := by
  rcases lt_trichotomy v 0 with hv | hv | hv
  · have hc : f64.Correct (-v) (f64.neg z) := by
      obtain ⟨a, ⟨b, hb, hm⟩, s1, s2⟩ := h
      refine ⟨f64.neg_lt z, ⟨b, by rw [abs_neg]; exact hb, by rw [f64.mag_neg']; exact hm⟩, ?_, ?_⟩
      · intro h; linarith
      · intro _; rw [f64.isNeg_neg, s1 hv]; rfl
    rw [abs_of_neg hv] at h1 ⊢
    have := f64_near hc h1 hf.neg
    rw [f64.real_neg] at this
    rw [show f64.real z - v = -(-f64.real z - -v) by ring, abs_neg]
    exact this
  · rw [hv, abs_zero] at h1
    exact absurd (two_zpow_pos (-1022)) (not_lt.2 h1)
  · rw [abs_of_pos hv] at h1 ⊢
    exact f64_near h h1 hf

/-- `int(math.Floor(float64(a) / float64(b)))` is the integer quotient. -/
theorem floor_div {a : Int} {b : Nat} (ha : a.natAbs < 2 ^ 53) (hb : 0 < b) (hb2 : b < 2 ^ 53) :
    f64.floor (f64.div (f64.ofInt a) (f64.ofNat b)) = a / (b : Int) := by
  obtain ⟨fa, ra⟩ := ofInt_exact (i := a) ha.le
  obtain ⟨fb, rb⟩ := ofNat_exact hb2.le
  have hb' : (0 : ℝ) < b := by exact_mod_cast hb
  have hb1 : (1 : ℝ) ≤ b := by exact_mod_cast hb
  have hc := f64.div_correct f64_ok fa fb (by rw [rb]; exact hb'.ne')
  rw [ra, rb] at hc
  set z := f64.div (f64.ofInt a) (f64.ofNat b)
  have haA : |(a : ℝ)| = (a.natAbs : ℝ) := by rw [← Int.cast_abs, ← Int.natCast_natAbs, Int.cast_natCast]
  have ha2 : |(a : ℝ)| < 2 ^ 53 := by rw [haA]; exact_mod_cast ha
  have hv : |(a : ℝ) / b| ≤ |(a : ℝ)| := by
    rw [abs_div, abs_of_pos hb']
    exact div_le_self (abs_nonneg _) hb1
  have fz : f64.Finite z := f64_finite hc (le_huge (by
    have : (2 : ℝ) ^ 53 ≤ 2 ^ 100 := by norm_num
    linarith))
  rw [floor_correct fz]
  by_cases h0 : a = 0
  · have : f64.real z = (a : ℝ) / b := (hc.exact (n := 0) (by norm_num) (by rw [h0]; simp)).2
    rw [this, h0]; simp
  rw [Int.floor_eq_iff]
  set k := a / (b : Int) with hk
  have hbz : (0 : Int) < b := by exact_mod_cast hb
  have k1 : k * b ≤ a := by rw [hk, mul_comm]; exact Int.mul_ediv_self_le (by omega)
  have k2 : a + 1 ≤ (k + 1) * b := Int.lt_mul_of_ediv_lt hbz (by omega) |> fun h => h
  have k1' : (k : ℝ) ≤ a / b := by rw [le_div_iff₀ hb']; exact_mod_cast k1
  have k2' : (a : ℝ) / b + 1 / b ≤ k + 1 := by
    rw [← add_div, div_le_iff₀ hb']; exact_mod_cast k2
  have hkabs : k.natAbs ≤ a.natAbs := by
    rw [hk]
    exact Int.natAbs_ediv_le_natAbs a b
  obtain ⟨bk, hbk⟩ := f64_holds_nat (n := k.natAbs) (by omega)
  have hkr : |(k : ℝ)| = (k.natAbs : ℝ) := by rw [← Int.cast_abs, ← Int.natCast_natAbs, Int.cast_natCast]
  have ha1 : (1 : ℝ) ≤ |(a : ℝ)| := by
    rw [haA]
    have : 1 ≤ a.natAbs := Int.natAbs_pos.2 h0
    exact_mod_cast this
  have hnear := f64_near_abs hc (by
    have h1 : (2 : ℝ) ^ (-1022 : Int) ≤ 2 ^ (-53 : Int) := zpow_le_zpow_right₀ (by norm_num) (by norm_num)
    have h2 : (2 : ℝ) ^ (-53 : Int) = 1 / 2 ^ 53 := by norm_num
    rw [h2] at h1
    refine h1.trans ?_
    rw [abs_div, abs_of_pos hb']
    have : (b : ℝ) ≤ 2 ^ 53 := by exact_mod_cast hb2.le
    rw [div_le_div_iff₀ (by positivity) hb']
    nlinarith) fz
  constructor
  · -- not below the integer
    obtain ⟨_, ⟨bz, hbz, hm⟩, s1, s2⟩ := hc
    have hz : f64.mag z = bz := by
      unfold Fmt.Finite at fz
      rw [hm] at fz ⊢
      unfold Fmt.cap at fz ⊢
      split at fz
      · omega
      · next h => rw [if_neg h]
    rcases lt_or_ge ((a : ℝ) / b) 0 with hneg | hpos
    · have hk0 : (k : ℝ) < 0 := by linarith
      have hle : |(a : ℝ) / b| ≤ f64.value bk := by
        rw [hbk, ← hkr, abs_of_neg hneg, abs_of_neg hk0]; linarith
      have := f64.value_strictMono.monotone (hbz.mono (Fmt.RoundsTo.exact f64 bk) hle)
      rw [hbk, ← hkr, abs_of_neg hk0] at this
      unfold Fmt.real
      rw [s1 hneg, if_pos rfl, hz]
      linarith
    · have ha0 : (0 : ℝ) < a / b := by
        rcases hpos.lt_or_eq with h | h
        · exact h
        · exfalso
          have : (a : ℝ) = 0 := by
            rcases div_eq_zero_iff.1 h.symm with h | h
            · exact h
            · exact absurd h hb'.ne'
          exact h0 (by exact_mod_cast this)
      have hk0 : (0 : ℝ) ≤ k := by
        have : 0 ≤ k := by
          rw [hk]
          apply Int.ediv_nonneg _ (by omega)
          have : (0 : ℝ) < a := by
            rcases div_pos_iff.1 ha0 with h | h
            · exact h.1
            · linarith [h.2]
          exact_mod_cast this.le
        exact_mod_cast this
      have hle : f64.value bk ≤ |(a : ℝ) / b| := by
        rw [hbk, ← hkr, abs_of_pos ha0, abs_of_nonneg hk0]; exact k1'
      have := f64.value_strictMono.monotone ((Fmt.RoundsTo.exact f64 bk).mono hbz hle)
      rw [hbk, ← hkr, abs_of_nonneg hk0] at this
      rw [Fmt.real_of_nonneg (s2 ha0), hz]
      exact this
  · -- not up to the next one
    have h2 := (abs_le.1 hnear).2
    have : |(a : ℝ) / b| / 2 ^ 53 < 1 / b := by
      rw [abs_div, abs_of_pos hb', div_div, div_lt_div_iff₀ (by positivity) hb', mul_comm (b : ℝ) (2 ^ 53), ← mul_assoc, one_mul]
      exact mul_lt_mul_of_pos_right ha2 hb'
    linarith

end Ieee
end Annoy
