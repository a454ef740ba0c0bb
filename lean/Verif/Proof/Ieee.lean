import Verif.Model.Ieee
import Mathlib.Tactic.Ring
import Mathlib.Algebra.Order.Ring.Int
/-!
# Facts about the IEEE model

Decoding and encoding, and shortcuts for arithmetic with zeros.  The shortcuts make computations by the kernel
cheaper; they are proved equal to the model's functions.
-/
namespace Annoy
namespace Ieee
variable {F : Fmt} {x y : Nat}

/-- Formats with at least one fraction bit and two exponent bits. -/
structure Fmt.Ok (F : Fmt) : Prop where
  mb : 1 ≤ F.mb
  eb : 2 ≤ F.eb

theorem f32_ok : f32.Ok := ⟨by decide, by decide⟩
theorem f64_ok : f64.Ok := ⟨by decide, by decide⟩

theorem Fmt.signBit_eq (F : Fmt) : F.signBit = 2 ^ F.eb * 2 ^ F.mb := by
  unfold signBit; rw [Nat.pow_add, Nat.mul_comm]

theorem Fmt.mag_lt (F : Fmt) (x : Nat) : F.mag x < F.signBit := Nat.mod_lt _ (Nat.two_pow_pos _)

/-- A pattern is its sign and its magnitude. -/
theorem Fmt.signed_mag (F : Fmt) (hx : x < 2 * F.signBit) : F.signed (F.isNeg x) (F.mag x) = x := by
  unfold signed isNeg mag
  by_cases h : F.signBit ≤ x
  · rw [if_pos (by simpa using h), Nat.mod_eq_sub_mod h, Nat.mod_eq_of_lt (by omega)]; omega
  · rw [if_neg (by simpa using h), Nat.mod_eq_of_lt (by omega)]

theorem Fmt.signed_lt {F : Fmt} {b : Bool} {m : Nat} (hm : m < F.signBit) : F.signed b m < 2 * F.signBit := by
  unfold signed; split <;> omega

theorem Fmt.mag_signed {F : Fmt} {b : Bool} {m : Nat} (hm : m < F.signBit) : F.mag (F.signed b m) = m := by
  unfold signed mag
  split
  · rw [Nat.add_mod_left, Nat.mod_eq_of_lt hm]
  · exact Nat.mod_eq_of_lt hm

theorem Fmt.isNeg_signed {F : Fmt} {b : Bool} {m : Nat} (hm : m < F.signBit) : F.isNeg (F.signed b m) = b := by
  unfold signed isNeg
  cases b
  · simp; omega
  · simp

theorem Fmt.infBits_lt (F : Fmt) : F.infBits < F.signBit := by
  rw [F.signBit_eq]
  unfold infBits
  exact Nat.mul_lt_mul_of_pos_right (Nat.sub_lt (Nat.two_pow_pos _) (by decide)) (Nat.two_pow_pos _)

/-- The exponent field is not all ones exactly for finite magnitudes. -/
theorem Fmt.ex_ne (F : Fmt) (hm : F.mag x < F.infBits) : F.mag x / 2 ^ F.mb ≠ 2 ^ F.eb - 1 := by
  have : F.mag x / 2 ^ F.mb < 2 ^ F.eb - 1 := by
    rw [Nat.div_lt_iff_lt_mul (Nat.two_pow_pos _)]
    exact hm
  omega

/-- A decoded finite pattern: significand and exponent give back the magnitude. -/
theorem Fmt.decode_fin (F : Fmt) (hm : F.mag x < F.infBits) :
    ∃ m k : Nat, F.decode x = .fin (F.isNeg x) m (F.emin + k) ∧ k * 2 ^ F.mb + m = F.mag x ∧ m < 2 * 2 ^ F.mb ∧
      (k ≠ 0 → 2 ^ F.mb ≤ m) := by
  unfold decode
  have h1 := F.ex_ne hm
  have h2 := Nat.div_add_mod (F.mag x) (2 ^ F.mb)
  have h3 := Nat.mod_lt (F.mag x) (Nat.two_pow_pos F.mb)
  dsimp only
  rw [if_neg h1]
  by_cases h0 : F.mag x / 2 ^ F.mb = 0
  · rw [if_pos h0]
    rw [h0, Nat.mul_zero, Nat.zero_add] at h2
    exact ⟨F.mag x % 2 ^ F.mb, 0, by simp, by rw [h2]; simp, by omega, fun h => absurd rfl h⟩
  · rw [if_neg h0]
    obtain ⟨e, he⟩ : ∃ e, F.mag x / 2 ^ F.mb = e + 1 := ⟨F.mag x / 2 ^ F.mb - 1, (Nat.succ_pred_eq_of_ne_zero h0).symm⟩
    rw [he] at h2 ⊢
    generalize F.mag x % 2 ^ F.mb = fr at *
    refine ⟨fr + 2 ^ F.mb, e, ?_, ?_, by omega, fun _ => by omega⟩
    · congr 1
      push_cast
      ring
    · rw [Nat.mul_comm e]
      rw [Nat.mul_add, Nat.mul_one] at h2
      omega

theorem Fmt.decode_zero (F : Fmt) (hF : F.Ok) (hm : F.mag x = 0) : F.decode x = .fin (F.isNeg x) 0 F.emin := by
  unfold decode
  rw [hm]
  have : 2 ^ 2 ≤ 2 ^ F.eb := Nat.pow_le_pow_right (by decide) hF.eb
  rw [Nat.zero_div, if_neg (by omega), if_pos rfl, Nat.zero_mod]

theorem Fmt.infBits_pos (F : Fmt) (hF : F.Ok) : 0 < F.infBits := by
  have : 2 ^ 2 ≤ 2 ^ F.eb := Nat.pow_le_pow_right (by decide) hF.eb
  exact Nat.mul_pos (by omega) (Nat.two_pow_pos _)

/-- Encoding an exact value at the smallest exponent gives the pattern back. -/
theorem Fmt.roundMag_exact (F : Fmt) {m k : Nat} (hm : m < 2 * 2 ^ F.mb) (hk : k ≠ 0 → 2 ^ F.mb ≤ m)
    (hlt : k * 2 ^ F.mb + m < F.infBits) : F.roundMag (m * 2 ^ k) F.emin false = k * 2 ^ F.mb + m := by
  unfold roundMag
  by_cases h0 : m = 0
  · subst h0
    have : k = 0 := by
      by_contra hne
      have := hk hne
      have := Nat.two_pow_pos F.mb
      omega
    subst this
    simp
  · have h2k := Nat.two_pow_pos k
    rw [if_neg (Nat.mul_ne_zero h0 h2k.ne')]
    have hne : m * 2 ^ k ≠ 0 := Nat.mul_ne_zero h0 h2k.ne'
    have hup : Nat.log2 (m * 2 ^ k) < F.mb + 1 + k := by
      rw [Nat.log2_lt hne, Nat.pow_add, Nat.pow_succ]
      exact Nat.mul_lt_mul_of_pos_right (by omega) h2k
    have hlow : k ≠ 0 → F.mb + k ≤ Nat.log2 (m * 2 ^ k) := by
      intro h
      rw [Nat.le_log2 hne, Nat.pow_add]
      exact Nat.mul_le_mul_right _ (hk h)
    generalize hl : Nat.log2 (m * 2 ^ k) = l at hup hlow
    have he : max F.emin (F.emin + l - F.mb) = F.emin + k := by
      by_cases hk0 : k = 0
      · subst hk0; omega
      · have := hlow hk0; omega
    dsimp only
    rw [he]
    have hq : (if F.emin + (k : Int) ≤ F.emin then m * 2 ^ k * 2 ^ (F.emin - (F.emin + k)).toNat
        else
          let sh := (F.emin + (k : Int) - F.emin).toNat
          let q := m * 2 ^ k / 2 ^ sh
          let rem := m * 2 ^ k % 2 ^ sh
          let half := 2 ^ (sh - 1)
          if rem > half ∨ (rem = half ∧ (false = true ∨ q % 2 = 1)) then q + 1 else q) = m := by
      by_cases hk0 : k = 0
      · subst hk0; simp
      · rw [if_neg (by omega)]
        have e1 : (F.emin + (k : Int) - F.emin).toNat = k := by omega
        dsimp only
        rw [e1, Nat.mul_div_cancel _ h2k, Nat.mul_mod_left]
        have := Nat.two_pow_pos (k - 1)
        rw [if_neg (by omega)]
    dsimp only at hq
    rw [hq]
    have e1 : (F.emin + (k : Int) - F.emin).toNat = k := by omega
    rw [e1, if_neg (by omega)]

/-- Encoding the decoded value gives the pattern back. -/
theorem Fmt.ofFl_exact (F : Fmt) (hx : x < 2 * F.signBit) {m k : Nat} (h1 : k * 2 ^ F.mb + m = F.mag x) (h2 : m < 2 * 2 ^ F.mb)
    (h3 : k ≠ 0 → 2 ^ F.mb ≤ m) (hm : F.mag x < F.infBits) :
    F.ofFl (.fin (F.isNeg x) (m * 2 ^ k) F.emin) = x := by
  show F.signed _ (F.roundMag _ _ _) = x
  rw [F.roundMag_exact h2 h3 (by omega), h1, F.signed_mag hx]

/-! ### arithmetic with zeros -/

theorem Fmt.add_zero (F : Fmt) (hF : F.Ok) (hx : x < 2 * F.signBit) (h0 : 0 < F.mag x) (hm : F.mag x < F.infBits)
    (hy : F.mag y = 0) : F.add x y = x := by
  obtain ⟨m, k, d1, d2, d3, d4⟩ := F.decode_fin hm
  have hm0 : m ≠ 0 := by
    rintro rfl
    by_cases hk : k = 0
    · subst hk; simp at d2; omega
    · have := d4 hk; have := Nat.two_pow_pos F.mb; omega
  unfold add
  rw [d1, F.decode_zero hF hy]
  dsimp only
  have e : addFin (F.isNeg x) m (F.emin + k) (F.isNeg y) 0 F.emin = .fin (F.isNeg x) (m * 2 ^ k) F.emin := by
    unfold addFin
    have e1 : Min.min (F.emin + (k : Int)) F.emin = F.emin := by omega
    have e2 : (F.emin + (k : Int) - F.emin).toNat = k := by omega
    dsimp only
    rw [e1, e2, Nat.zero_mul]
    have hne : m * 2 ^ k ≠ 0 := Nat.mul_ne_zero hm0 (Nat.two_pow_pos k).ne'
    generalize m * 2 ^ k = M at hne
    cases F.isNeg x <;> cases F.isNeg y <;> simp [hne] <;> omega
  rw [e]
  exact F.ofFl_exact hx d2 d3 d4 hm

theorem Fmt.zero_add (F : Fmt) (hF : F.Ok) (hx : x < 2 * F.signBit) (h0 : 0 < F.mag x) (hm : F.mag x < F.infBits)
    (hy : F.mag y = 0) : F.add y x = x := by
  obtain ⟨m, k, d1, d2, d3, d4⟩ := F.decode_fin hm
  have hm0 : m ≠ 0 := by
    rintro rfl
    by_cases hk : k = 0
    · subst hk; simp at d2; omega
    · have := d4 hk; have := Nat.two_pow_pos F.mb; omega
  unfold add
  rw [d1, F.decode_zero hF hy]
  dsimp only
  have e : addFin (F.isNeg y) 0 F.emin (F.isNeg x) m (F.emin + k) = .fin (F.isNeg x) (m * 2 ^ k) F.emin := by
    unfold addFin
    have e1 : Min.min F.emin (F.emin + (k : Int)) = F.emin := by omega
    have e2 : (F.emin + (k : Int) - F.emin).toNat = k := by omega
    dsimp only
    rw [e1, e2, Nat.zero_mul]
    have hne : m * 2 ^ k ≠ 0 := Nat.mul_ne_zero hm0 (Nat.two_pow_pos k).ne'
    generalize m * 2 ^ k = M at hne
    cases F.isNeg x <;> cases F.isNeg y <;> simp [hne] <;> omega
  rw [e]
  exact F.ofFl_exact hx d2 d3 d4 hm

theorem Fmt.zero_add_zero (F : Fmt) (hF : F.Ok) (hx : F.mag x = 0) (hy : F.mag y = 0) :
    F.add x y = F.signed (F.isNeg x && F.isNeg y) 0 := by
  unfold add
  rw [F.decode_zero hF hx, F.decode_zero hF hy]
  dsimp only
  unfold addFin
  simp
  rfl

theorem Fmt.encode_zero (F : Fmt) (b : Bool) (e : Int) (s : Bool) : F.encode b 0 e s = F.signed b 0 := by
  unfold encode roundMag; simp

theorem Fmt.mul_zero (F : Fmt) (hF : F.Ok) (hm : F.mag x < F.infBits) (hy : F.mag y = 0) :
    F.mul x y = F.signed (F.isNeg x != F.isNeg y) 0 := by
  obtain ⟨m, k, d1, d2, d3, d4⟩ := F.decode_fin hm
  unfold mul
  rw [d1, F.decode_zero hF hy]
  dsimp only
  rw [Nat.mul_zero, F.encode_zero]

theorem Fmt.zero_mul (F : Fmt) (hF : F.Ok) (hm : F.mag x < F.infBits) (hy : F.mag y = 0) :
    F.mul y x = F.signed (F.isNeg y != F.isNeg x) 0 := by
  obtain ⟨m, k, d1, d2, d3, d4⟩ := F.decode_fin hm
  unfold mul
  rw [d1, F.decode_zero hF hy]
  dsimp only
  rw [Nat.zero_mul, F.encode_zero]

theorem Fmt.zero_div (F : Fmt) (hF : F.Ok) (h0 : 0 < F.mag x) (hm : F.mag x < F.infBits) (hy : F.mag y = 0) :
    F.div y x = F.signed (F.isNeg y != F.isNeg x) 0 := by
  obtain ⟨m, k, d1, d2, d3, d4⟩ := F.decode_fin hm
  have hm0 : m ≠ 0 := by
    rintro rfl
    by_cases hk : k = 0
    · subst hk; simp at d2; omega
    · have := d4 hk; have := Nat.two_pow_pos F.mb; omega
  unfold div
  rw [d1, F.decode_zero hF hy]
  dsimp only
  rw [if_neg hm0, Nat.zero_mul, Nat.zero_div, Nat.zero_mod, F.encode_zero]

/-- Addition with shortcuts. -/
def Fmt.addS (F : Fmt) (x y : Nat) : Nat :=
  if F.mag y = 0 then
    if F.mag x = 0 then F.signed (F.isNeg x && F.isNeg y) 0
    else if F.mag x < F.infBits then x else F.add x y
  else if F.mag x = 0 ∧ F.mag y < F.infBits then y
  else F.add x y

/-- Multiplication with shortcuts. -/
def Fmt.mulS (F : Fmt) (x y : Nat) : Nat :=
  if (F.mag x = 0 ∧ F.mag y < F.infBits) ∨ (F.mag y = 0 ∧ F.mag x < F.infBits) then F.signed (F.isNeg x != F.isNeg y) 0
  else F.mul x y

/-- Division with shortcuts. -/
def Fmt.divS (F : Fmt) (x y : Nat) : Nat :=
  if F.mag x = 0 ∧ F.mag y ≠ 0 ∧ F.mag y < F.infBits then F.signed (F.isNeg x != F.isNeg y) 0
  else F.div x y

theorem Fmt.addS_eq (F : Fmt) (hF : F.Ok) (hx : x < 2 * F.signBit) (hy : y < 2 * F.signBit) : F.addS x y = F.add x y := by
  unfold addS
  split
  · next h1 =>
    split
    · next h2 => exact (F.zero_add_zero hF h2 h1).symm
    · split
      · next h2 h3 => exact (F.add_zero hF hx (by omega) h3 h1).symm
      · rfl
  · next h1 =>
    split
    · next h2 => exact (F.zero_add hF hy (by omega) h2.2 h2.1).symm
    · rfl

theorem Fmt.mulS_eq (F : Fmt) (hF : F.Ok) (x y : Nat) : F.mulS x y = F.mul x y := by
  unfold mulS
  split
  · next h =>
    rcases h with h | h
    · exact (F.zero_mul hF h.2 h.1).symm
    · exact (F.mul_zero hF h.2 h.1).symm
  · rfl

theorem Fmt.divS_eq (F : Fmt) (hF : F.Ok) (x y : Nat) : F.divS x y = F.div x y := by
  unfold divS
  split
  · next h => exact (F.zero_div hF (by omega) h.2.2 h.1).symm
  · rfl

end Ieee
open Ieee

/-- `ieee32` with other functions for addition, multiplication, division. -/
abbrev ieee32With (add mul div : BitVec 32 → BitVec 32 → BitVec 32) : Num :=
  { ieee32 with add := add, mul := mul, div := div }

/-- `float32` arithmetic with shortcuts. -/
def add32S (x y : BitVec 32) : BitVec 32 := .ofNat 32 (f32.addS x.toNat y.toNat)
def mul32S (x y : BitVec 32) : BitVec 32 := .ofNat 32 (f32.mulS x.toNat y.toNat)
def div32S (x y : BitVec 32) : BitVec 32 := .ofNat 32 (f32.divS x.toNat y.toNat)

theorem bv32_lt (x : BitVec 32) : x.toNat < 2 * f32.signBit := x.isLt

theorem add32S_eq : add32S = ieee32.add := by
  funext x y
  exact congrArg (BitVec.ofNat 32) (f32.addS_eq f32_ok (bv32_lt x) (bv32_lt y))

theorem mul32S_eq : mul32S = ieee32.mul := by
  funext x y
  exact congrArg (BitVec.ofNat 32) (f32.mulS_eq f32_ok x.toNat y.toNat)

theorem div32S_eq : div32S = ieee32.div := by
  funext x y
  exact congrArg (BitVec.ofNat 32) (f32.divS_eq f32_ok x.toNat y.toNat)

/-- A computed truth about the model's arithmetic, computed with the shortcuts. -/
theorem fast32 (T : (BitVec 32 → BitVec 32 → BitVec 32) → (BitVec 32 → BitVec 32 → BitVec 32) →
      (BitVec 32 → BitVec 32 → BitVec 32) → Bool) (h : T add32S mul32S div32S = true) :
    T ieee32.add ieee32.mul ieee32.div = true := by
  rw [← add32S_eq, ← mul32S_eq, ← div32S_eq]
  exact h

end Annoy
