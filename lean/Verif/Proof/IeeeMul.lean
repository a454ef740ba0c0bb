import Verif.Proof.Ieee
/-!
Multiplication of floats: commutative bit for bit, and never positive with a zero factor.
-/
namespace Annoy
namespace Ieee

private theorem bne_comm' (a b : Bool) : (a != b) = (b != a) := by cases a <;> cases b <;> rfl

theorem Fmt.mul_comm (F : Fmt) (x y : Nat) : F.mul x y = F.mul y x := by
  unfold Fmt.mul
  cases F.decode x <;> cases F.decode y <;> dsimp only
  · rename_i a b; rw [bne_comm' a b]
  · rename_i n1 m1 e1 n2 m2 e2
    rw [bne_comm' n1 n2, Nat.mul_comm m1 m2, Int.add_comm e1 e2]

theorem Fmt.lt_zero_signed (F : Fmt) (b : Bool) : F.lt 0 (F.signed b 0) = false := by
  have h : F.key (F.signed b 0) = 0 := by
    have h0 : 0 < F.signBit := Nat.two_pow_pos _
    unfold key
    rw [F.mag_signed h0]
    split <;> rfl
  have h' : F.key 0 = 0 := by unfold key mag; simp
  unfold lt
  rw [h, h']
  simp

theorem Fmt.lt_zero_nan (F : Fmt) (hF : F.Ok) : F.lt 0 F.nanBits = false := by
  have h : F.isNaN F.nanBits = true := by
    have h1 := F.signBit_eq
    have h2 : 2 ^ (F.mb - 1) < 2 ^ F.mb := Nat.pow_lt_pow_right (by decide) (by have := hF.mb; omega)
    have h3 : 0 < 2 ^ (F.mb - 1) := Nat.two_pow_pos _
    have h4 : 1 ≤ 2 ^ F.eb := Nat.one_le_two_pow
    have h5 : F.nanBits < F.signBit := by
      rw [h1]; unfold nanBits infBits
      rw [Nat.sub_mul]
      have : 1 * 2 ^ F.mb ≤ 2 ^ F.eb * 2 ^ F.mb := Nat.mul_le_mul_right _ h4
      omega
    unfold isNaN mag
    rw [Nat.mod_eq_of_lt h5]
    unfold nanBits
    simp
  unfold lt
  rw [h]
  simp

/-- A product with a zero is a zero or NaN. -/
theorem Fmt.zero_mul_not_pos (F : Fmt) (hF : F.Ok) {x : Nat} (h : F.eq x 0 = true) (y : Nat) : F.lt 0 (F.mul x y) = false := by
  have hx : F.mag x = 0 := by
    unfold eq at h
    simp only [Bool.and_eq_true, decide_eq_true_eq] at h
    have h2 := h.2
    have h' : F.key 0 = 0 := by unfold key mag; simp
    rw [h'] at h2
    unfold key at h2
    split at h2 <;> omega
  unfold mul
  rw [F.decode_zero hF hx]
  cases F.decode y with
  | nan => exact F.lt_zero_nan hF
  | inf b => simpa using F.lt_zero_nan hF
  | fin n m e =>
    dsimp only
    rw [Nat.zero_mul, F.encode_zero]
    exact F.lt_zero_signed _

theorem Fmt.roundMag_le (F : Fmt) (m : Nat) (e : Int) (s : Bool) : F.roundMag m e s ≤ F.infBits := by
  unfold roundMag
  split
  · omega
  · have h : ∀ b, (if b ≥ F.infBits then F.infBits else b) ≤ F.infBits := by intro b; split <;> omega
    exact h _

theorem Fmt.nanBits_lt (F : Fmt) (hF : F.Ok) : F.nanBits < F.signBit := by
  have h2 : 2 ^ (F.mb - 1) < 2 ^ F.mb := Nat.pow_lt_pow_right (by decide) (by have := hF.mb; omega)
  rw [F.signBit_eq]; unfold nanBits infBits
  rw [Nat.sub_mul]
  have : 1 * 2 ^ F.mb ≤ 2 ^ F.eb * 2 ^ F.mb := Nat.mul_le_mul_right _ Nat.one_le_two_pow
  omega

/-- Products are bit patterns. -/
theorem Fmt.mul_lt (F : Fmt) (hF : F.Ok) (x y : Nat) : F.mul x y < 2 * F.signBit := by
  have h1 := F.nanBits_lt hF
  have h2 := F.infBits_lt
  have h3 : ∀ b m e s, F.encode b m e s < 2 * F.signBit := fun b m e s =>
    signed_lt (Nat.lt_of_le_of_lt (F.roundMag_le m e s) h2)
  unfold mul
  cases F.decode x <;> cases F.decode y <;> dsimp only
  all_goals first
    | omega
    | exact h3 _ _ _ _
    | exact signed_lt h2
    | (split <;> first | omega | exact signed_lt h2)

end Ieee
end Annoy
