import Verif.Proof.IeeeRound
import Mathlib.Analysis.SpecialFunctions.Sqrt
import Mathlib.Tactic.NormNum
/-!
# The operations of the IEEE model are correctly rounded
-/
namespace Annoy
namespace Ieee
variable {F G : Fmt}

theorem Fmt.decode_value (F : Fmt) {x : Nat} (hx : F.Finite x) :
    ∃ (m : Nat) (e : Int), F.decode x = .fin (F.isNeg x) m e ∧ F.value (F.mag x) = m * 2 ^ e ∧ m < 2 * 2 ^ F.mb ∧ F.emin ≤ e := by
  obtain ⟨m, k, d1, d2, d3, d4⟩ := F.decode_fin hx
  refine ⟨m, _, d1, ?_, d3, by omega⟩
  rw [← d2, F.value_eq d3.le d4]

theorem Fmt.real_eq (F : Fmt) {x : Nat} (hx : F.Finite x) : ∃ (m : Nat) (e : Int), F.decode x = .fin (F.isNeg x) m e ∧
    F.real x = (if F.isNeg x then -((m : ℝ) * 2 ^ e) else (m : ℝ) * 2 ^ e) ∧ m < 2 * 2 ^ F.mb ∧ F.emin ≤ e := by
  obtain ⟨m, e, h1, h2, h3, h4⟩ := F.decode_value hx
  exact ⟨m, e, h1, by unfold real; rw [h2], h3, h4⟩

theorem Fmt.cap_lt (F : Fmt) (b : Nat) : F.cap b < F.signBit := by
  have := F.infBits_lt
  unfold cap
  split <;> omega

/-- An encoded value, with sign. -/
theorem Fmt.encode_correct (F : Fmt) (hF : F.Ok) {b : Bool} {m : Nat} {e : Int} {s : Bool} {v : ℝ}
    (h1 : (m : ℝ) * 2 ^ e ≤ v) (h2 : v < (m + 1 : ℝ) * 2 ^ e) (hs : s = true ↔ v ≠ (m : ℝ) * 2 ^ e)
    (hbits : s = true → F.mb + 1 ≤ Nat.log2 m) : F.Correct (if b then -v else v) (F.encode b m e s) := by
  obtain ⟨r, r1, r2⟩ := F.roundMag_correct hF h1 h2 hs hbits
  have h0 : 0 ≤ v := le_trans (mul_nonneg (Nat.cast_nonneg m) (two_zpow_pos e).le) h1
  unfold encode
  rw [r2]
  refine ⟨signed_lt (F.cap_lt r), ⟨r, ?_, mag_signed (F.cap_lt r)⟩, ?_, ?_⟩
  · cases b
    · rwa [if_neg (by simp), abs_of_nonneg h0]
    · rwa [if_pos rfl, abs_neg, abs_of_nonneg h0]
  · rw [isNeg_signed (F.cap_lt r)]
    intro h
    cases b
    · rw [if_neg (by simp)] at h; linarith
    · rfl
  · rw [isNeg_signed (F.cap_lt r)]
    intro h
    cases b
    · rfl
    · rw [if_pos rfl] at h; linarith

/-- An exactly given value. -/
theorem Fmt.encode_exact (F : Fmt) (hF : F.Ok) (b : Bool) (m : Nat) (e : Int) :
    F.Correct (if b then -((m : ℝ) * 2 ^ e) else (m : ℝ) * 2 ^ e) (F.encode b m e) := by
  have := two_zpow_pos e
  exact F.encode_correct hF le_rfl (by nlinarith) (by simp) (by simp)

theorem Fmt.add_correct (F : Fmt) (hF : F.Ok) {x y : Nat} (hx : F.Finite x) (hy : F.Finite y) :
    F.Correct (F.real x + F.real y) (F.add x y) := by
  obtain ⟨m1, e1, d1, v1, -, -⟩ := F.real_eq hx
  obtain ⟨m2, e2, d2, v2, -, -⟩ := F.real_eq hy
  unfold add
  rw [d1, d2]
  dsimp only
  unfold addFin
  dsimp only
  rw [v1, v2]
  generalize F.isNeg x = n1
  generalize F.isNeg y = n2
  set e : Int := Min.min e1 e2 with he
  obtain ⟨a1, ha1⟩ : ∃ a : Nat, e1 = e + a := ⟨(e1 - e).toNat, by omega⟩
  obtain ⟨a2, ha2⟩ : ∃ a : Nat, e2 = e + a := ⟨(e2 - e).toNat, by omega⟩
  have t1 : (e1 - e).toNat = a1 := by omega
  have t2 : (e2 - e).toNat = a2 := by omega
  rw [t1, t2]
  set s : Int := (if n1 = true then -((m1 * 2 ^ a1 : Nat) : Int) else ((m1 * 2 ^ a1 : Nat) : Int)) +
    (if n2 = true then -((m2 * 2 ^ a2 : Nat) : Int) else ((m2 * 2 ^ a2 : Nat) : Int)) with hs
  have hval : (if n1 = true then -((m1 : ℝ) * 2 ^ e1) else (m1 : ℝ) * 2 ^ e1) +
      (if n2 = true then -((m2 : ℝ) * 2 ^ e2) else (m2 : ℝ) * 2 ^ e2) = (s : ℝ) * 2 ^ e := by
    rw [ha1, ha2, zpow_add₀ (by norm_num : (2 : ℝ) ≠ 0), zpow_add₀ (by norm_num : (2 : ℝ) ≠ 0), zpow_natCast, zpow_natCast, hs]
    cases n1 <;> cases n2 <;> simp <;> ring
  rw [hval]
  have hE := two_zpow_pos e
  by_cases h0 : s = 0
  · rw [if_pos h0]
    have := F.encode_exact hF (n1 && n2) 0 e
    rw [h0]
    simpa [ofFl] using this
  · rw [if_neg h0]
    have := F.encode_exact hF (decide (s < 0)) s.natAbs e
    have habs : ((s.natAbs : Nat) : ℝ) = |(s : ℝ)| := by
      rw [← Int.cast_natCast, Int.natCast_natAbs, Int.cast_abs]
    have hgoal : (if decide (s < 0) = true then -(((s.natAbs : Nat) : ℝ) * 2 ^ e) else ((s.natAbs : Nat) : ℝ) * 2 ^ e) = (s : ℝ) * 2 ^ e := by
      rw [habs]
      by_cases hneg : s < 0
      · rw [if_pos (by simpa using hneg), abs_of_neg (by exact_mod_cast hneg)]; ring
      · rw [if_neg (by simpa using hneg), abs_of_nonneg (by exact_mod_cast not_lt.1 hneg)]
    rw [hgoal] at this
    exact this

theorem Fmt.isNeg_neg (F : Fmt) (x : Nat) : F.isNeg (F.neg x) = !F.isNeg x := by
  have := F.mag_lt x
  unfold neg
  cases h : F.isNeg x
  · simp [isNeg]
  · simp [isNeg]; omega

theorem Fmt.mag_neg' (F : Fmt) (x : Nat) : F.mag (F.neg x) = F.mag x := by
  have := F.mag_lt x
  unfold neg
  cases h : F.isNeg x
  · simp only [Bool.false_eq_true, if_false]
    unfold mag at this ⊢
    rw [Nat.add_mod_left, Nat.mod_eq_of_lt this]
  · simp only [if_true]
    exact Nat.mod_eq_of_lt this

theorem Fmt.real_neg (F : Fmt) (x : Nat) : F.real (F.neg x) = -F.real x := by
  unfold real
  rw [F.isNeg_neg, F.mag_neg']
  cases F.isNeg x <;> simp

theorem Fmt.Finite.neg {x : Nat} (h : F.Finite x) : F.Finite (F.neg x) := by
  unfold Fmt.Finite; rw [F.mag_neg']; exact h

theorem Fmt.sub_correct (F : Fmt) (hF : F.Ok) {x y : Nat} (hx : F.Finite x) (hy : F.Finite y) :
    F.Correct (F.real x - F.real y) (F.sub x y) := by
  have := F.add_correct hF hx hy.neg
  rwa [F.real_neg, ← sub_eq_add_neg] at this

theorem Fmt.mul_correct (F : Fmt) (hF : F.Ok) {x y : Nat} (hx : F.Finite x) (hy : F.Finite y) :
    F.Correct (F.real x * F.real y) (F.mul x y) := by
  obtain ⟨m1, e1, d1, v1, -, -⟩ := F.real_eq hx
  obtain ⟨m2, e2, d2, v2, -, -⟩ := F.real_eq hy
  unfold mul
  rw [d1, d2, v1, v2]
  dsimp only
  have := F.encode_exact hF (F.isNeg x != F.isNeg y) (m1 * m2) (e1 + e2)
  convert this using 1
  rw [zpow_add₀ (by norm_num : (2 : ℝ) ≠ 0)]
  cases F.isNeg x <;> cases F.isNeg y <;> simp <;> ring

theorem Fmt.div_correct (F : Fmt) (hF : F.Ok) {x y : Nat} (hx : F.Finite x) (hy : F.Finite y) (h0 : F.real y ≠ 0) :
    F.Correct (F.real x / F.real y) (F.div x y) := by
  obtain ⟨m1, e1, d1, v1, -, -⟩ := F.real_eq hx
  obtain ⟨m2, e2, d2, v2, b2, -⟩ := F.real_eq hy
  have hm2 : m2 ≠ 0 := by
    rintro rfl
    apply h0; rw [v2]; simp
  unfold div
  rw [d1, d2, v1, v2]
  dsimp only
  rw [if_neg hm2]
  set k := 2 * F.mb + 6 with hk
  have hE1 := two_zpow_pos e1
  have hE2 := two_zpow_pos e2
  have hEk := two_zpow_pos (e1 - e2 - k)
  have hm2r : (0 : ℝ) < m2 := by exact_mod_cast Nat.pos_of_ne_zero hm2
  have hsplit : (2 : ℝ) ^ e1 / 2 ^ e2 = 2 ^ (e1 - e2 - (k : Int)) * 2 ^ k := by
    rw [← zpow_natCast, ← zpow_add₀ (by norm_num : (2 : ℝ) ≠ 0), ← zpow_sub₀ (by norm_num : (2 : ℝ) ≠ 0)]
    congr 1
    ring
  set v : ℝ := ((m1 : ℝ) * 2 ^ k / m2) * 2 ^ (e1 - e2 - (k : Int)) with hv
  have hdm := Nat.div_add_mod (m1 * 2 ^ k) m2
  have hml := Nat.mod_lt (m1 * 2 ^ k) (Nat.pos_of_ne_zero hm2)
  set q := m1 * 2 ^ k / m2 with hq
  set r := m1 * 2 ^ k % m2 with hr
  have hmr : (m1 : ℝ) * 2 ^ k = m2 * q + r := by
    have : ((m2 * q + r : Nat) : ℝ) = ((m1 * 2 ^ k : Nat) : ℝ) := by rw [hdm]
    push_cast at this
    linarith
  have hrl : (r : ℝ) < m2 := by exact_mod_cast hml
  have hquo : (m1 : ℝ) * 2 ^ k / m2 = q + r / m2 := by rw [hmr]; field_simp
  have hr0 : (0 : ℝ) ≤ r := Nat.cast_nonneg r
  have hr1 : (r : ℝ) / m2 < 1 := by rw [div_lt_one hm2r]; exact hrl
  have hr2 : (0 : ℝ) ≤ r / m2 := div_nonneg hr0 hm2r.le
  have := F.encode_correct hF (b := F.isNeg x != F.isNeg y) (m := q) (e := e1 - e2 - (k : Int)) (s := r != 0) (v := v)
    (by rw [hv, hquo]; nlinarith) (by rw [hv, hquo]; nlinarith) (by
      rw [hv, hquo]
      rw [bne_iff_ne]
      constructor
      · intro hne h
        have h1 := mul_right_cancel₀ hEk.ne' h
        have h2 : (r : ℝ) / m2 = 0 := by linarith
        rw [div_eq_zero_iff] at h2
        rcases h2 with h2 | h2
        · exact hne (by exact_mod_cast h2)
        · linarith
      · intro hne h
        apply hne
        rw [h]; simp) (by
      rw [bne_iff_ne]
      intro hne
      have hm1 : m1 ≠ 0 := by
        rintro rfl
        apply hne; rw [hr]; simp
      have hq2 : 2 ^ (F.mb + 5) ≤ q := by
        rw [hq, Nat.le_div_iff_mul_le (Nat.pos_of_ne_zero hm2)]
        calc 2 ^ (F.mb + 5) * m2 ≤ 2 ^ (F.mb + 5) * (2 * 2 ^ F.mb) := Nat.mul_le_mul_left _ b2.le
          _ = 2 ^ k := by rw [hk, ← Nat.pow_succ', ← Nat.pow_add]; congr 1; omega
          _ ≤ m1 * 2 ^ k := Nat.le_mul_of_pos_left _ (Nat.pos_of_ne_zero hm1)
      have hq0 : q ≠ 0 := by have := Nat.two_pow_pos (F.mb + 5); omega
      have := (Nat.le_log2 hq0).2 hq2
      omega)
  have hvv : (m1 : ℝ) * 2 ^ e1 / (m2 * 2 ^ e2) = v := by
    rw [hv, mul_div_mul_comm, hsplit]; ring
  convert this using 1
  rw [← hvv]
  cases F.isNeg x <;> cases F.isNeg y <;> simp <;> ring

/-! ### square roots -/

theorem isqrtAux_spec (n : Nat) : ∀ k acc, acc * acc ≤ n → n < (acc + 2 ^ k) * (acc + 2 ^ k) →
    isqrtAux n k acc * isqrtAux n k acc ≤ n ∧ n < (isqrtAux n k acc + 1) * (isqrtAux n k acc + 1) := by
  intro k
  induction k with
  | zero => intro acc h1 h2; exact ⟨h1, by simpa [isqrtAux] using h2⟩
  | succ k ih =>
    intro acc h1 h2
    unfold isqrtAux
    dsimp only
    by_cases h : (acc + 2 ^ k) * (acc + 2 ^ k) ≤ n
    · rw [if_pos h]
      exact ih _ h (by rwa [show acc + 2 ^ k + 2 ^ k = acc + 2 ^ (k + 1) by rw [Nat.pow_succ]; omega])
    · rw [if_neg h]
      exact ih _ h1 (by omega)

theorem isqrt_spec (n : Nat) : isqrt n * isqrt n ≤ n ∧ n < (isqrt n + 1) * (isqrt n + 1) := by
  unfold isqrt
  apply isqrtAux_spec
  · simp
  · rw [Nat.zero_add, ← Nat.pow_add]
    refine lt_of_lt_of_le Nat.lt_log2_self (Nat.pow_le_pow_right (by decide) ?_)
    omega

theorem Fmt.sqrt_correct (F : Fmt) (hF : F.Ok) {x : Nat} (hx' : x < 2 * F.signBit) (hx : F.Finite x) (h0 : 0 ≤ F.real x) :
    F.Correct (Real.sqrt (F.real x)) (F.sqrt x) := by
  obtain ⟨m, e, d, v, b, -⟩ := F.real_eq hx
  have hE := two_zpow_pos e
  unfold sqrt
  rw [d]
  dsimp only
  by_cases hm : m = 0
  · rw [if_pos hm]
    subst hm
    have hv : F.real x = 0 := by rw [v]; simp
    have hmag : F.mag x = 0 := by
      have h1 : F.value (F.mag x) = 0 := by
        unfold real at hv
        split at hv <;> linarith
      rw [← F.value_zero] at h1
      exact F.value_strictMono.injective h1
    rw [hv, Real.sqrt_zero]
    refine ⟨hx', ⟨0, by rw [abs_zero]; exact Fmt.RoundsTo.zero F, ?_⟩, fun h => absurd h (lt_irrefl _), fun h => absurd h (lt_irrefl _)⟩
    rw [hmag]
    unfold cap
    split <;> omega
  · rw [if_neg hm]
    have hmr : (0 : ℝ) < m := by exact_mod_cast Nat.pos_of_ne_zero hm
    have hn : F.isNeg x = false := by
      cases h : F.isNeg x with
      | false => rfl
      | true =>
        rw [h, if_pos rfl] at v
        have := mul_pos hmr hE
        linarith
    rw [hn] at v ⊢
    rw [if_neg Bool.false_ne_true] at v ⊢
    rw [v]
    set k := 2 * F.mb + 6 + (if (e - (2 * F.mb + 6 : Nat)) % 2 = 0 then 0 else 1) with hk
    obtain ⟨d, hd⟩ : ∃ d : Int, e - k = 2 * d := by
      refine ⟨(e - k) / 2, ?_⟩
      rw [hk]
      split
      · next h => push_cast at h ⊢; omega
      · next h => push_cast at h ⊢; omega
    have hd' : (e - k) / 2 = d := by omega
    rw [hd']
    obtain ⟨s1, s2⟩ := isqrt_spec (m * 2 ^ k)
    set s := isqrt (m * 2 ^ k) with hs
    have hD := two_zpow_pos d
    have hsq : Real.sqrt ((m : ℝ) * 2 ^ e) = Real.sqrt ((m * 2 ^ k : Nat) : ℝ) * 2 ^ d := by
      have : (m : ℝ) * 2 ^ e = ((m * 2 ^ k : Nat) : ℝ) * (2 ^ d) ^ 2 := by
        push_cast
        rw [mul_assoc, ← zpow_natCast (2 : ℝ) k, sq, ← zpow_add₀ (by norm_num : (2 : ℝ) ≠ 0), ← zpow_add₀ (by norm_num : (2 : ℝ) ≠ 0)]
        congr 2
        omega
      rw [this, Real.sqrt_mul (Nat.cast_nonneg _), Real.sqrt_sq hD.le]
    have s1r : (s : ℝ) * s ≤ ((m * 2 ^ k : Nat) : ℝ) := by exact_mod_cast s1
    have s2r : ((m * 2 ^ k : Nat) : ℝ) < ((s : ℝ) + 1) * (s + 1) := by exact_mod_cast s2
    set n := m * 2 ^ k with hnn
    have hs0 : (0 : ℝ) ≤ s := Nat.cast_nonneg s
    have l1 : (s : ℝ) ≤ Real.sqrt (n : ℝ) := Real.le_sqrt_of_sq_le (by nlinarith)
    have l2 : Real.sqrt (n : ℝ) < (s : ℝ) + 1 := by
      rw [Real.sqrt_lt' (by linarith)]
      nlinarith
    have := F.encode_correct hF (b := false) (m := s) (e := d) (s := s * s != n) (v := Real.sqrt (n : ℝ) * 2 ^ d)
      (by nlinarith) (by nlinarith) (by
        rw [bne_iff_ne]
        constructor
        · intro hne h
          have h1 := mul_right_cancel₀ hD.ne' h
          apply hne
          have h2 : (n : ℝ) = s * s := by rw [← h1, Real.mul_self_sqrt (Nat.cast_nonneg n)]
          exact_mod_cast h2.symm
        · intro hne h
          apply hne
          have : Real.sqrt (n : ℝ) = s := by
            rw [← h]; push_cast
            exact Real.sqrt_mul_self hs0
          rw [this]) (by
        intro _
        have hs3 : 2 ^ (F.mb + 3) ≤ s := by
          by_contra hlt
          push Not at hlt
          have h1 : (s + 1) * (s + 1) ≤ 2 ^ (F.mb + 3) * 2 ^ (F.mb + 3) := Nat.mul_le_mul hlt hlt
          rw [← Nat.pow_add] at h1
          have h2 : 2 ^ (F.mb + 3 + (F.mb + 3)) ≤ n := by
            calc 2 ^ (F.mb + 3 + (F.mb + 3)) ≤ 2 ^ k := Nat.pow_le_pow_right (by decide) (by rw [hk]; omega)
              _ ≤ m * 2 ^ k := Nat.le_mul_of_pos_left _ (Nat.pos_of_ne_zero hm)
          omega
        have hsne : s ≠ 0 := by have := Nat.two_pow_pos (F.mb + 3); omega
        have := (Nat.le_log2 hsne).2 hs3
        omega)
    rw [hsq]
    simpa using this

/-! ### conversions and comparisons -/

theorem conv_correct (hG : G.Ok) {x : Nat} (hx : F.Finite x) : G.Correct (F.real x) (conv F G x) := by
  obtain ⟨m, e, d, v, -, -⟩ := F.real_eq hx
  unfold conv
  rw [d, v]
  exact G.encode_exact hG _ m e

theorem Fmt.Finite.notNaN {x : Nat} (h : F.Finite x) : F.isNaN x = false := by
  unfold Fmt.isNaN
  unfold Fmt.Finite at h
  simp; omega

/-- Finite numbers are ordered as their keys. -/
theorem Fmt.real_lt (F : Fmt) (x y : Nat) : F.real x < F.real y ↔ F.key x < F.key y := by
  have hx := F.value_nonneg (F.mag x)
  have hy := F.value_nonneg (F.mag y)
  have m1 := F.value_strictMono.lt_iff_lt (a := F.mag x) (b := F.mag y)
  have m2 := F.value_strictMono.lt_iff_lt (a := F.mag y) (b := F.mag x)
  have z1 : F.value (F.mag x) = 0 ↔ F.mag x = 0 := by
    rw [← F.value_zero]; exact F.value_strictMono.injective.eq_iff
  have z2 : F.value (F.mag y) = 0 ↔ F.mag y = 0 := by
    rw [← F.value_zero]; exact F.value_strictMono.injective.eq_iff
  unfold real key
  cases F.isNeg x <;> cases F.isNeg y
  · simp only [Bool.false_eq_true, if_false, m1]; omega
  · simp only [Bool.false_eq_true, if_false, if_true]
    constructor
    · intro h; linarith
    · intro h; omega
  · simp only [Bool.false_eq_true, if_false, if_true]
    constructor
    · intro h
      by_contra hc
      have e1 : F.mag x = 0 := by omega
      have e2 : F.mag y = 0 := by omega
      rw [z1.2 e1, z2.2 e2] at h
      linarith
    · intro h
      have : F.mag x ≠ 0 ∨ F.mag y ≠ 0 := by omega
      rcases this with h1 | h1
      · have := lt_of_le_of_ne hx (fun h => h1 (z1.1 h.symm)); linarith
      · have := lt_of_le_of_ne hy (fun h => h1 (z2.1 h.symm)); linarith
  · simp only [if_true, neg_lt_neg_iff, m2]; omega

theorem Fmt.lt_correct {x y : Nat} (hx : F.Finite x) (hy : F.Finite y) : F.lt x y = true ↔ F.real x < F.real y := by
  rw [F.real_lt]
  unfold lt
  rw [hx.notNaN, hy.notNaN]
  simp

theorem Fmt.eq_correct {x y : Nat} (hx : F.Finite x) (hy : F.Finite y) : F.eq x y = true ↔ F.real x = F.real y := by
  have h1 := F.real_lt x y
  have h2 := F.real_lt y x
  unfold eq
  rw [hx.notNaN, hy.notNaN]
  simp only [Bool.not_false, Bool.true_and, decide_eq_true_eq]
  constructor
  · intro h
    by_contra hne
    rcases lt_or_gt_of_ne hne with h | h
    · have := h1.1 h; omega
    · have := h2.1 h; omega
  · intro h
    have a : ¬ F.real x < F.real y := by rw [h]; exact lt_irrefl _
    have b : ¬ F.real y < F.real x := by rw [h]; exact lt_irrefl _
    rw [h1] at a
    rw [h2] at b
    omega

end Ieee
end Annoy
