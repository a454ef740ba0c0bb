import Verif.Spec.Ieee
import Verif.Proof.IeeeSqrt
import Mathlib.Tactic.Linarith
import Mathlib.Tactic.Positivity
import Mathlib.Tactic.FieldSimp
import Mathlib.Tactic.Push
import Mathlib.Algebra.Order.Field.Power
/-!
# The IEEE model rounds correctly
-/
namespace Annoy
namespace Ieee
variable {F : Fmt}

theorem Fmt.value_eq (F : Fmt) {k q : Nat} (hq : q ≤ 2 * 2 ^ F.mb) (hk : k ≠ 0 → 2 ^ F.mb ≤ q) :
    F.value (k * 2 ^ F.mb + q) = q * 2 ^ (F.emin + (k : Int)) := by
  have hp := Nat.two_pow_pos F.mb
  unfold value
  set p := 2 ^ F.mb with hpdef
  rcases Nat.lt_trichotomy q (2 * p) with h | h | h
  · by_cases h1 : q < p
    · have : k = 0 := by by_contra h0; have := hk h0; omega
      subst this
      rw [Nat.zero_mul, Nat.zero_add, Nat.div_eq_of_lt h1]
      simp
    · have e : (k * p + q) / p = k + 1 := by
        rw [Nat.div_eq_iff hp]
        constructor
        · rw [Nat.add_mul]; omega
        · rw [Nat.add_mul]; omega
      rw [e, Nat.add_sub_cancel, Nat.add_sub_cancel_left]
  · subst h
    have e : (k * p + 2 * p) / p = k + 2 := by rw [← Nat.add_mul, Nat.mul_div_cancel _ hp]
    rw [e, show k + 2 - 1 = k + 1 from rfl, show k * p + 2 * p - (k + 1) * p = p by rw [← Nat.add_mul, ← Nat.sub_mul]; simp]
    rw [show F.emin + ((k + 1 : Nat) : Int) = (F.emin + (k : Int)) + 1 by push_cast; ring, zpow_add_one₀ (by norm_num)]
    push_cast
    ring
  · omega

/-- Every magnitude in normal form. -/
theorem Fmt.split_mag (F : Fmt) (b : Nat) : ∃ k q, b = k * 2 ^ F.mb + q ∧ q < 2 * 2 ^ F.mb ∧ (k ≠ 0 → 2 ^ F.mb ≤ q) := by
  have hp := Nat.two_pow_pos F.mb
  have h1 := Nat.div_add_mod b (2 ^ F.mb)
  have h2 := Nat.mod_lt b hp
  rw [Nat.mul_comm] at h1
  cases h : b / 2 ^ F.mb with
  | zero => exact ⟨0, b, by simp, by rw [h] at h1; omega, fun h => absurd rfl h⟩
  | succ k =>
    rw [h, Nat.add_mul, Nat.one_mul] at h1
    exact ⟨k, 2 ^ F.mb + b % 2 ^ F.mb, by omega, by omega, fun _ => by omega⟩

theorem two_zpow_pos (e : Int) : (0 : ℝ) < 2 ^ e := zpow_pos (by norm_num) e

theorem Fmt.value_strictMono (F : Fmt) : StrictMono F.value := by
  apply strictMono_nat_of_lt_succ
  intro b
  obtain ⟨k, q, rfl, h1, h2⟩ := F.split_mag b
  rw [F.value_eq h1.le h2, show k * 2 ^ F.mb + q + 1 = k * 2 ^ F.mb + (q + 1) by omega,
    F.value_eq (by omega) (fun h => by have := h2 h; omega)]
  have := two_zpow_pos (F.emin + k)
  push_cast
  nlinarith

theorem Fmt.value_zero (F : Fmt) : F.value 0 = 0 := by
  have := F.value_eq (k := 0) (q := 0) (by omega) (by simp)
  simpa using this

theorem Fmt.value_nonneg (F : Fmt) (b : Nat) : 0 ≤ F.value b := by
  rw [← F.value_zero]
  exact F.value_strictMono.monotone (Nat.zero_le b)

/-! ### rounding is unique, monotone and exact -/

theorem Fmt.RoundsTo.mono {v w : ℝ} {a b : Nat} (hv : F.RoundsTo v a) (hw : F.RoundsTo w b) (h : v ≤ w) : a ≤ b := by
  by_contra hlt
  push Not at hlt
  have hab := F.value_strictMono hlt
  have h1 : |F.value a - v| ≤ |F.value b - v| := by rcases hv b with h | h; exacts [h.le, h.1.le]
  have h2 : |F.value b - w| ≤ |F.value a - w| := by rcases hw a with h | h; exacts [h.le, h.1.le]
  have g1 : F.value a + F.value b ≤ 2 * v := by
    rw [← sq_le_sq] at h1
    nlinarith
  have g2 : 2 * w ≤ F.value a + F.value b := by
    rw [← sq_le_sq] at h2
    nlinarith
  have e1 : 2 * v = F.value a + F.value b := by linarith
  have e2 : 2 * w = F.value a + F.value b := by linarith
  have t1 : |F.value a - v| = |F.value b - v| := by
    rw [show F.value a - v = -(F.value b - v) by linarith, abs_neg]
  have t2 : |F.value b - w| = |F.value a - w| := by
    rw [show F.value a - w = -(F.value b - w) by linarith, abs_neg]
  have p1 : a % 2 = 0 := by
    rcases hv b with h | h
    · rw [t1] at h; exact absurd h (lt_irrefl _)
    · rcases h.2 with h | h
      · omega
      · exact h
  have p2 : b % 2 = 0 := by
    rcases hw a with h | h
    · rw [t2] at h; exact absurd h (lt_irrefl _)
    · rcases h.2 with h | h
      · omega
      · exact h
  -- there is a magnitude between, which is nearer
  have c1 := F.value_strictMono (show b < b + 1 by omega)
  have c2 := F.value_strictMono (show b + 1 < a by omega)
  have h3 : |F.value a - v| ≤ |F.value (b + 1) - v| := by rcases hv (b + 1) with h | h; exacts [h.le, h.1.le]
  rw [abs_of_pos (show 0 < F.value a - v by linarith)] at h3
  have : |F.value (b + 1) - v| < F.value a - v := by
    rw [abs_lt]
    constructor <;> linarith
  linarith

theorem Fmt.RoundsTo.unique {v : ℝ} {a b : Nat} (ha : F.RoundsTo v a) (hb : F.RoundsTo v b) : a = b :=
  le_antisymm (ha.mono hb le_rfl) (hb.mono ha le_rfl)

theorem Fmt.RoundsTo.exact (F : Fmt) (b : Nat) : F.RoundsTo (F.value b) b := by
  intro b'
  by_cases h : b' = b
  · subst h; exact Or.inr ⟨rfl, Or.inl rfl⟩
  · left
    rw [sub_self, abs_zero, abs_pos, sub_ne_zero]
    exact fun e => h (F.value_strictMono.injective e)

theorem Fmt.RoundsTo.zero (F : Fmt) : F.RoundsTo 0 0 := by
  have := Fmt.RoundsTo.exact F 0
  rwa [F.value_zero] at this

/-- A candidate that is near enough. -/
theorem Fmt.RoundsTo.intro {k q : Nat} {v : ℝ} (hF : F.Ok) (hq : q ≤ 2 * 2 ^ F.mb) (hk : k ≠ 0 → 2 ^ F.mb ≤ q)
    (h : (F.value (k * 2 ^ F.mb + q) ≤ v ∧ q < 2 * 2 ^ F.mb ∧ 2 * (v - F.value (k * 2 ^ F.mb + q)) ≤ 2 ^ (F.emin + (k : Int)) ∧
        (2 * (v - F.value (k * 2 ^ F.mb + q)) = 2 ^ (F.emin + (k : Int)) → q % 2 = 0)) ∨
      (v ≤ F.value (k * 2 ^ F.mb + q) ∧ 0 < q ∧ (k ≠ 0 → 2 ^ F.mb < q) ∧
        2 * (F.value (k * 2 ^ F.mb + q) - v) ≤ 2 ^ (F.emin + (k : Int)) ∧
        (2 * (F.value (k * 2 ^ F.mb + q) - v) = 2 ^ (F.emin + (k : Int)) → q % 2 = 0))) :
    F.RoundsTo v (k * 2 ^ F.mb + q) := by
  have hpar : (k * 2 ^ F.mb + q) % 2 = q % 2 := by
    obtain ⟨j, hj⟩ : ∃ j, F.mb = j + 1 := ⟨F.mb - 1, by have := hF.mb; omega⟩
    rw [hj, Nat.pow_succ, ← Nat.mul_assoc, Nat.add_mod, Nat.mul_mod_left]
    simp
  have hb := F.value_eq hq hk
  intro b'
  rw [hpar]
  by_cases hbb : b' = k * 2 ^ F.mb + q
  · exact Or.inr ⟨by rw [hbb], Or.inl hbb⟩
  have mono := F.value_strictMono
  rcases h with ⟨h1, h2, h3, h4⟩ | ⟨h1, h2, h2', h3, h4⟩
  · rw [abs_of_nonpos (by linarith)]
    rcases Nat.lt_or_gt_of_ne hbb with hlt | hgt
    · left
      have := mono hlt
      rw [abs_of_neg (by linarith)]
      linarith
    · have e := mono.monotone (show k * 2 ^ F.mb + q + 1 ≤ b' from hgt)
      rw [show k * 2 ^ F.mb + q + 1 = k * 2 ^ F.mb + (q + 1) by omega,
        F.value_eq (by omega) (fun h => by have := hk h; omega)] at e
      push_cast at e
      have hpos := two_zpow_pos (F.emin + (k : Int))
      rw [abs_of_nonneg (by nlinarith)]
      by_cases ht : 2 * (v - F.value (k * 2 ^ F.mb + q)) = 2 ^ (F.emin + (k : Int))
      · have h5 := h4 ht
        by_cases hs : -(F.value (k * 2 ^ F.mb + q) - v) = F.value b' - v
        · exact Or.inr ⟨hs, Or.inr h5⟩
        · left
          refine lt_of_le_of_ne ?_ hs
          nlinarith
      · left
        have : 2 * (v - F.value (k * 2 ^ F.mb + q)) < 2 ^ (F.emin + (k : Int)) := lt_of_le_of_ne h3 ht
        nlinarith
  · rw [abs_of_nonneg (by linarith)]
    rcases Nat.lt_or_gt_of_ne hbb with hlt | hgt
    · have e := mono.monotone (show b' ≤ k * 2 ^ F.mb + (q - 1) by omega)
      rw [F.value_eq (by omega) (fun h => by have := h2' h; omega), Nat.cast_sub (by omega)] at e
      push_cast at e
      have hpos := two_zpow_pos (F.emin + (k : Int))
      rw [abs_of_nonpos (by nlinarith)]
      by_cases ht : 2 * (F.value (k * 2 ^ F.mb + q) - v) = 2 ^ (F.emin + (k : Int))
      · have h5 := h4 ht
        by_cases hs : F.value (k * 2 ^ F.mb + q) - v = -(F.value b' - v)
        · exact Or.inr ⟨hs, Or.inr h5⟩
        · left
          refine lt_of_le_of_ne ?_ hs
          nlinarith
      · left
        have : 2 * (F.value (k * 2 ^ F.mb + q) - v) < 2 ^ (F.emin + (k : Int)) := lt_of_le_of_ne h3 ht
        nlinarith
    · left
      have := mono hgt
      rw [abs_of_pos (by linarith)]
      linarith

/-! ### `roundMag` -/

/-- The rounding function of the model before the cap: exact value `v` between `m * 2^e` and `(m + 1) * 2^e`. -/
theorem Fmt.roundMag_correct (F : Fmt) (hF : F.Ok) {m : Nat} {e : Int} {s : Bool} {v : ℝ}
    (h1 : (m : ℝ) * 2 ^ e ≤ v) (h2 : v < (m + 1 : ℝ) * 2 ^ e) (hs : s = true ↔ v ≠ (m : ℝ) * 2 ^ e)
    (hbits : s = true → F.mb + 1 ≤ Nat.log2 m) : ∃ b, F.RoundsTo v b ∧ F.roundMag m e s = F.cap b := by
  unfold roundMag
  by_cases h0 : m = 0
  · rw [if_pos h0]
    subst h0
    have hs' : s = false := by
      cases s with
      | false => rfl
      | true => have := hbits rfl; simp at this
    have hv : v = 0 := by
      by_contra hne
      have := hs.2 (by simpa using hne)
      rw [hs'] at this; cases this
    subst hv
    exact ⟨0, Fmt.RoundsTo.zero F, by unfold cap; split <;> omega⟩
  rw [if_neg h0]
  have hcap : ∀ b, (if b ≥ F.infBits then F.infBits else b) = F.cap b := by
    intro b; rfl
  dsimp only
  rw [hcap]
  have hlog1 := Nat.log2_self_le h0
  have hlog2 := Nat.lt_log2_self (n := m)
  set l := Nat.log2 m with hl
  obtain ⟨k, hk⟩ : ∃ k : Nat, max F.emin (e + l - F.mb) = F.emin + k :=
    ⟨(max F.emin (e + l - F.mb) - F.emin).toNat, by omega⟩
  rw [hk]
  have hk' : (F.emin + (k : Int) - F.emin).toNat = k := by omega
  rw [hk']
  refine ⟨_, ?_, rfl⟩
  have hle : e + l - F.mb ≤ F.emin + k := by omega
  have hkp : k ≠ 0 → F.emin + (k : Int) = e + l - F.mb := by omega
  by_cases hc : F.emin + (k : Int) ≤ e
  · rw [if_pos hc]
    have hs' : s = false := by
      cases s with
      | false => rfl
      | true => have := hbits rfl; omega
    have hv : v = (m : ℝ) * 2 ^ e := by
      by_contra hne
      have := hs.2 hne
      rw [hs'] at this; cases this
    obtain ⟨d, hd⟩ : ∃ d : Nat, e = F.emin + (k : Int) + d := ⟨(e - (F.emin + k)).toNat, by omega⟩
    have hd' : (e - (F.emin + (k : Int))).toNat = d := by omega
    rw [hd']
    have hval : ((m * 2 ^ d : Nat) : ℝ) * 2 ^ (F.emin + (k : Int)) = v := by
      rw [hv, hd, zpow_add₀ (by norm_num : (2 : ℝ) ≠ 0) (F.emin + (k : Int)) d, zpow_natCast]
      push_cast
      ring
    have hq : m * 2 ^ d < 2 * 2 ^ F.mb := by
      have : l + 1 + d ≤ F.mb + 1 := by omega
      calc m * 2 ^ d < 2 ^ (l + 1) * 2 ^ d := Nat.mul_lt_mul_of_pos_right hlog2 (Nat.two_pow_pos _)
        _ = 2 ^ (l + 1 + d) := by rw [← Nat.pow_add]
        _ ≤ 2 ^ (F.mb + 1) := Nat.pow_le_pow_right (by decide) this
        _ = 2 * 2 ^ F.mb := by rw [Nat.pow_succ, Nat.mul_comm]
    have hkq : k ≠ 0 → 2 ^ F.mb ≤ m * 2 ^ d := by
      intro h
      have := hkp h
      have : F.mb = l + d := by omega
      rw [this, Nat.pow_add]
      exact Nat.mul_le_mul_right _ hlog1
    have hval' := F.value_eq hq.le hkq
    rw [hval] at hval'
    have := Fmt.RoundsTo.exact F (k * 2 ^ F.mb + m * 2 ^ d)
    rwa [hval'] at this
  · rw [if_neg hc]
    obtain ⟨sh, hsh⟩ : ∃ sh : Nat, F.emin + (k : Int) = e + sh := ⟨(F.emin + (k : Int) - e).toNat, by omega⟩
    have hsh' : (F.emin + (k : Int) - e).toNat = sh := by omega
    have hsh0 : 0 < sh := by omega
    rw [hsh']
    have hp := Nat.two_pow_pos sh
    have hdm := Nat.div_add_mod m (2 ^ sh)
    have hrem := Nat.mod_lt m hp
    set q := m / 2 ^ sh with hqd
    set rem := m % 2 ^ sh with hremd
    have hhalf : 2 * 2 ^ (sh - 1) = 2 ^ sh := by rw [Nat.mul_comm, ← Nat.pow_succ]; congr 1; omega
    -- bounds of q
    have hq : q < 2 * 2 ^ F.mb := by
      rw [hqd, Nat.div_lt_iff_lt_mul hp]
      calc m < 2 ^ (l + 1) := hlog2
        _ ≤ 2 ^ (F.mb + 1 + sh) := Nat.pow_le_pow_right (by decide) (by omega)
        _ = 2 * 2 ^ F.mb * 2 ^ sh := by rw [Nat.pow_add, Nat.pow_succ, Nat.mul_comm (2 ^ F.mb) 2]
    have hkq : k ≠ 0 → 2 ^ F.mb ≤ q := by
      intro h
      have h3 := hkp h
      rw [hqd, Nat.le_div_iff_mul_le hp, ← Nat.pow_add]
      have : F.mb + sh = l := by omega
      rw [this]
      exact hlog1
    -- the unit
    have hu : (2 : ℝ) ^ (F.emin + (k : Int)) = 2 ^ e * 2 ^ sh := by
      rw [hsh, zpow_add₀ (by norm_num : (2 : ℝ) ≠ 0), zpow_natCast]
    have hmr : (m : ℝ) = 2 ^ sh * q + rem := by
      have : ((2 ^ sh * q + rem : Nat) : ℝ) = m := by rw [hdm]
      rw [← this]; push_cast; ring
    have hE := two_zpow_pos e
    have hhr : (2 : ℝ) * 2 ^ (sh - 1) = 2 ^ sh := by exact_mod_cast hhalf
    set E : ℝ := 2 ^ e with hEd
    set P : ℝ := 2 ^ sh with hPd
    set H : ℝ := 2 ^ (sh - 1) with hHd
    have hremr : (rem : ℝ) + 1 ≤ P := by
      have : ((rem + 1 : Nat) : ℝ) ≤ ((2 ^ sh : Nat) : ℝ) := by exact_mod_cast hrem
      push_cast at this
      exact this
    by_cases hup : rem > 2 ^ (sh - 1) ∨ (rem = 2 ^ (sh - 1) ∧ (s = true ∨ q % 2 = 1))
    · rw [if_pos hup]
      have hval := F.value_eq (k := k) (q := q + 1) (by omega) (fun h => by have := hkq h; omega)
      apply Fmt.RoundsTo.intro hF (by omega) (fun h => by have := hkq h; omega)
      right
      rw [hval, hu]
      have hrh : H ≤ (rem : ℝ) := by
        have : 2 ^ (sh - 1) ≤ rem := by omega
        have : ((2 ^ (sh - 1) : Nat) : ℝ) ≤ (rem : ℝ) := by exact_mod_cast this
        push_cast at this
        exact this
      push_cast
      refine ⟨?_, Nat.succ_pos _, fun h => by have := hkq h; omega, ?_, ?_⟩
      · nlinarith
      · nlinarith
      · intro ht
        have e1 : v = (q * P + H) * E := by nlinarith
        have e2 : (rem : ℝ) = H := by
          have : (rem : ℝ) * E ≤ H * E := by nlinarith
          have := le_of_mul_le_mul_right this hE
          linarith
        have e3 : rem = 2 ^ (sh - 1) := by
          have : (rem : ℝ) = ((2 ^ (sh - 1) : Nat) : ℝ) := by push_cast; exact e2
          exact_mod_cast this
        have e4 : s ≠ true := by
          intro h
          apply hs.1 h
          rw [e1, hmr, e2]; ring
        rcases hup with h | ⟨_, h | h⟩
        · omega
        · exact absurd h e4
        · omega
    · rw [if_neg hup]
      have hval := F.value_eq (k := k) (q := q) hq.le hkq
      apply Fmt.RoundsTo.intro hF hq.le hkq
      left
      rw [hval, hu]
      have hrh : (rem : ℝ) ≤ H := by
        have : rem ≤ 2 ^ (sh - 1) := by omega
        have : (rem : ℝ) ≤ ((2 ^ (sh - 1) : Nat) : ℝ) := by exact_mod_cast this
        push_cast at this
        exact this
      refine ⟨?_, hq, ?_, ?_⟩
      · nlinarith
      · -- either rem + 1 ≤ half, or rem = half and v is exact
        by_cases hr : rem = 2 ^ (sh - 1)
        · have hs' : ¬ s = true := fun h => hup (Or.inr ⟨hr, Or.inl h⟩)
          have hv : v = m * E := by by_contra h; exact hs' (hs.2 h)
          rw [hv, hmr]
          nlinarith
        · have : rem + 1 ≤ 2 ^ (sh - 1) := by omega
          have : ((rem + 1 : Nat) : ℝ) ≤ ((2 ^ (sh - 1) : Nat) : ℝ) := by exact_mod_cast this
          push_cast at this
          nlinarith
      · intro ht
        by_cases hr : rem = 2 ^ (sh - 1)
        · have : ¬ q % 2 = 1 := fun h => hup (Or.inr ⟨hr, Or.inr h⟩)
          omega
        · have : rem + 1 ≤ 2 ^ (sh - 1) := by omega
          have : ((rem + 1 : Nat) : ℝ) ≤ ((2 ^ (sh - 1) : Nat) : ℝ) := by exact_mod_cast this
          push_cast at this
          nlinarith

end Ieee
end Annoy
