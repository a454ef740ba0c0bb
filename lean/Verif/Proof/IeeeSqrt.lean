import Verif.Proof.IeeeMul
/-!
When a square root is NaN.
-/
namespace Annoy
namespace Ieee
variable {F G : Fmt} {x : Nat}

theorem Fmt.isNaN_signed {b : Bool} {m : Nat} (hm : m ≤ F.infBits) : F.isNaN (F.signed b m) = false := by
  have := F.infBits_lt
  unfold isNaN
  rw [mag_signed (by omega)]
  simpa using hm

theorem Fmt.isNaN_nan (hF : F.Ok) : F.isNaN F.nanBits = true := by
  unfold isNaN mag
  rw [Nat.mod_eq_of_lt (F.nanBits_lt hF)]
  have := Nat.two_pow_pos (F.mb - 1)
  unfold nanBits
  simp

theorem Fmt.isNaN_encode (b : Bool) (m : Nat) (e : Int) (s : Bool) : F.isNaN (F.encode b m e s) = false :=
  isNaN_signed (F.roundMag_le m e s)

/-- The three kinds of patterns. -/
theorem Fmt.decode_cases (F : Fmt) (x : Nat) :
    (F.isNaN x = true ∧ F.decode x = .nan) ∨ (F.mag x = F.infBits ∧ F.decode x = .inf (F.isNeg x)) ∨
    (F.mag x < F.infBits ∧ ∃ m e, F.emin ≤ e ∧ F.decode x = .fin (F.isNeg x) m e ∧ (m = 0 ↔ F.mag x = 0)) := by
  rcases Nat.lt_trichotomy (F.mag x) F.infBits with h | h | h
  · right; right
    obtain ⟨m, k, d1, d2, d3, d4⟩ := F.decode_fin h
    refine ⟨h, m, _, by omega, d1, fun h0 => ?_, fun h0 => by omega⟩
    subst h0
    by_cases hk : k = 0
    · subst hk; simpa using d2.symm
    · have := d4 hk
      have := Nat.two_pow_pos F.mb
      omega
  · right; left
    refine ⟨h, ?_⟩
    unfold decode
    rw [h]
    unfold infBits
    rw [Nat.mul_div_cancel _ (Nat.two_pow_pos _), if_pos rfl, Nat.mul_mod_left, if_pos rfl]
  · left
    refine ⟨by simpa [isNaN] using h, ?_⟩
    have h1 := F.mag_lt x
    rw [F.signBit_eq] at h1
    have h2 := Nat.two_pow_pos F.mb
    have hd : F.mag x / 2 ^ F.mb = 2 ^ F.eb - 1 := by
      have a : F.mag x / 2 ^ F.mb < 2 ^ F.eb := by rwa [Nat.div_lt_iff_lt_mul h2]
      have b : 2 ^ F.eb - 1 ≤ F.mag x / 2 ^ F.mb := by
        rw [Nat.le_div_iff_mul_le h2]
        exact h.le
      omega
    have hm : F.mag x % 2 ^ F.mb ≠ 0 := by
      intro h0
      have := Nat.div_add_mod (F.mag x) (2 ^ F.mb)
      rw [hd, h0, Nat.mul_comm] at this
      unfold infBits at h
      omega
    unfold decode
    simp only [hd, if_true, if_neg hm]

theorem Fmt.roundMag_ne_zero (F : Fmt) {m : Nat} {e : Int} (hm : m ≠ 0) (he : F.emin ≤ e) (hF : F.Ok) (s : Bool) : F.roundMag m e s ≠ 0 := by
  unfold roundMag
  rw [if_neg hm]
  have hi := F.infBits_pos hF
  have h : ∀ b, b ≠ 0 → (if b ≥ F.infBits then F.infBits else b) ≠ 0 := by intro b; split <;> omega
  apply h
  have : ∀ a b : Nat, b ≠ 0 → a + b ≠ 0 := by omega
  apply this
  split
  · exact Nat.mul_ne_zero hm (Nat.two_pow_pos _).ne'
  · next h1 =>
    have hq : m / 2 ^ (max F.emin (e + Nat.log2 m - F.mb) - e).toNat ≠ 0 := by
      have : 2 ^ (max F.emin (e + Nat.log2 m - F.mb) - e).toNat ≤ m := by
        refine Nat.le_trans (Nat.pow_le_pow_right (by decide) ?_) (Nat.log2_self_le hm)
        omega
      have := Nat.div_pos this (Nat.two_pow_pos _)
      omega
    have h2 : ∀ (q : Nat) (P : Prop) [Decidable P], q ≠ 0 → (if P then q + 1 else q) ≠ 0 := by
      intro q P _ hq; split <;> omega
    exact h2 _ _ hq

theorem Fmt.decode_encode (F : Fmt) (hF : F.Ok) {b : Bool} {m : Nat} {e : Int} (he : F.emin ≤ e) (hm : m ≠ 0) (s : Bool) :
    F.isNeg (F.encode b m e s) = b ∧ F.mag (F.encode b m e s) ≠ 0 := by
  have h1 := F.roundMag_le m e s
  have h2 := F.infBits_lt
  unfold encode
  rw [isNeg_signed (by omega), mag_signed (by omega)]
  exact ⟨rfl, F.roundMag_ne_zero hm he hF s⟩

theorem Fmt.lt_zero (F : Fmt) (x : Nat) : F.lt x 0 = (!F.isNaN x && (F.isNeg x && decide (F.mag x ≠ 0))) := by
  have h0 : F.key 0 = 0 := by unfold key mag; simp
  have h1 : F.isNaN 0 = false := by unfold isNaN mag; simp
  unfold lt
  rw [h1, h0]
  unfold key
  cases F.isNeg x <;> simp
  congr 1
  rw [← decide_not, decide_eq_decide]
  omega

/-- `√x` is NaN exactly for NaN and negative numbers. -/
theorem Fmt.sqrt_nan (hF : F.Ok) (x : Nat) : F.isNaN (F.sqrt x) = (F.isNaN x || F.lt x 0) := by
  have hn := F.isNaN_nan hF
  rw [F.lt_zero]
  unfold sqrt
  rcases F.decode_cases x with ⟨h1, h2⟩ | ⟨h1, h2⟩ | ⟨h1, m, e, h2, h3, h4⟩
  · rw [h2, h1, hn]; rfl
  · rw [h2]
    have hx : F.isNaN x = false := by simp [isNaN, h1]
    have hp := F.infBits_pos hF
    rw [hx, h1]
    have hi : F.isNaN F.infBits = false := isNaN_signed (b := false) le_rfl
    cases F.isNeg x <;> simp [hi, hn]
    omega
  · rw [h3]
    have hx : F.isNaN x = false := by simp [isNaN]; omega
    rw [hx]
    dsimp only
    by_cases hm : m = 0
    · rw [if_pos hm, hx, h4.1 hm]; simp
    · have : F.mag x ≠ 0 := fun h => hm (h4.2 h)
      rw [if_neg hm]
      cases F.isNeg x
      · simp [isNaN_encode]
      · simp [this, hn]

/-- Conversions keep NaN. -/
theorem conv_nan (hG : G.Ok) (x : Nat) : G.isNaN (conv F G x) = F.isNaN x := by
  unfold conv
  rcases F.decode_cases x with ⟨h1, h2⟩ | ⟨h1, h2⟩ | ⟨h1, m, e, h2, h3, h4⟩
  · rw [h2, h1]; exact Fmt.isNaN_nan hG
  · rw [h2]; exact (Fmt.isNaN_signed le_rfl).trans (by simp [Fmt.isNaN, h1])
  · rw [h3]; exact (Fmt.isNaN_encode _ _ _ _).trans (by simp [Fmt.isNaN]; omega)

/-- Conversions to a format with smaller numbers keep the sign of what is not zero. -/
theorem conv_lt_zero (hF : F.Ok) (hG : G.Ok) (he : G.emin ≤ F.emin) (x : Nat) : G.lt (conv F G x) 0 = F.lt x 0 := by
  rw [G.lt_zero, F.lt_zero, conv_nan hG]
  have hg := G.infBits_lt
  have hp := G.infBits_pos hG
  have hpf := F.infBits_pos hF
  unfold conv
  rcases F.decode_cases x with ⟨h1, h2⟩ | ⟨h1, h2⟩ | ⟨h1, m, e, h2, h3, h4⟩
  · rw [h1]; rfl
  · rw [h2]
    unfold Fmt.ofFl
    rw [Fmt.isNeg_signed hg, Fmt.mag_signed hg, h1]
    simp [hp.ne', hpf.ne']
  · rw [h3]
    unfold Fmt.ofFl
    by_cases hm : m = 0
    · subst hm
      have : G.mag (G.encode (F.isNeg x) 0 e) = 0 := by rw [G.encode_zero, Fmt.mag_signed (by omega)]
      simp [this, h4.1 rfl]
    · obtain ⟨k1, k2⟩ := G.decode_encode hG (b := F.isNeg x) (e := e) (by omega) hm false
      dsimp only
      rw [k1]
      have : F.mag x ≠ 0 := fun h => hm (h4.2 h)
      simp [k2, this]

theorem Fmt.encode_lt (b : Bool) (m : Nat) (e : Int) (s : Bool) : F.encode b m e s < 2 * F.signBit :=
  signed_lt (Nat.lt_of_le_of_lt (F.roundMag_le m e s) F.infBits_lt)

theorem conv_lt (hG : G.Ok) (x : Nat) : conv F G x < 2 * G.signBit := by
  have h1 := G.nanBits_lt hG
  have h2 := G.infBits_lt
  unfold conv Fmt.ofFl
  split
  · omega
  · exact Fmt.signed_lt h2
  · exact Fmt.encode_lt _ _ _ _

theorem Fmt.sqrt_lt (hF : F.Ok) (hx : x < 2 * F.signBit) : F.sqrt x < 2 * F.signBit := by
  have h1 := F.nanBits_lt hF
  have h2 := F.infBits_lt
  unfold sqrt
  split
  · omega
  · split <;> omega
  · split
    · exact hx
    · split
      · omega
      · exact Fmt.encode_lt _ _ _ _

theorem Fmt.eq_self (F : Fmt) (x : Nat) : F.eq x x = !F.isNaN x := by
  unfold eq; simp

end Ieee
end Annoy
