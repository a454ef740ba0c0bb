import Verif.Proof.IeeeMirror
import Verif.Proof.IeeeError
/-!
# Distances to a point and to its opposite

Rounding is monotone, and a quotient changes only its sign with the dividend.  So of two differences `c - t` the opposite differences `c - (-t)` are never ordered the same way.
-/
namespace Annoy
namespace Ieee
variable {F : Fmt} {x y : Nat}

theorem Fmt.Alike.mul_right (hF : F.Ok) {y' : Nat} (h : F.Alike y y') (x : Nat) : F.Alike (F.mul x y) (F.mul x y') := by
  rcases h with ⟨h1, h2⟩ | ⟨h1, h2⟩ | rfl
  · unfold mul
    rw [decode_nan h1, decode_nan h2]
    exact .refl _ _
  · unfold mul
    rw [F.decode_zero hF h1, F.decode_zero hF h2]
    cases F.decode x with
    | nan => exact .refl _ _
    | inf a => exact Or.inl ⟨by simpa using isNaN_nan hF, by simpa using isNaN_nan hF⟩
    | fin a m e =>
      dsimp only
      rw [Nat.mul_zero, F.encode_zero, F.encode_zero]
      exact Or.inr (Or.inl ⟨mag_signed (Nat.two_pow_pos _), mag_signed (Nat.two_pow_pos _)⟩)
  · exact .refl _ _

theorem Fmt.Alike.div_left (hF : F.Ok) {x' : Nat} (h : F.Alike x x') (y : Nat) : F.Alike (F.div x y) (F.div x' y) := by
  rcases h with ⟨h1, h2⟩ | ⟨h1, h2⟩ | rfl
  · unfold div
    rw [decode_nan h1, decode_nan h2]
    exact .refl _ _
  · unfold div
    rw [F.decode_zero hF h1, F.decode_zero hF h2]
    cases F.decode y with
    | nan => exact .refl _ _
    | inf a => exact Or.inr (Or.inl ⟨mag_signed (Nat.two_pow_pos _), mag_signed (Nat.two_pow_pos _)⟩)
    | fin a m e =>
      dsimp only
      split
      · exact Or.inl ⟨by simpa using isNaN_nan hF, by simpa using isNaN_nan hF⟩
      · have hz : (0 * 2 ^ (2 * F.mb + 6) % m != 0) = false := by simp
        rw [hz, Nat.zero_mul, Nat.zero_div, F.encode_zero, F.encode_zero]
        exact Or.inr (Or.inl ⟨mag_signed (Nat.two_pow_pos _), mag_signed (Nat.two_pow_pos _)⟩)
  · exact .refl _ _

/-- The quotient of an opposite product is the opposite. -/
theorem Fmt.alike_quotient (hF : F.Ok) {p p' : Nat} (h : F.Alike p' (F.neg p)) (c s : Nat) :
    F.Alike (F.div (F.mul c p') s) (F.neg (F.div (F.mul c p) s)) :=
  (((h.mul_right hF c).trans (Fmt.mul_neg hF c p)).div_left hF s).trans (Fmt.neg_div hF _ s)

/-- A finite difference has finite parts. -/
theorem Fmt.Finite.of_sub (hF : F.Ok) {c t : Nat} (h : F.Finite (F.sub c t)) : F.Finite t := by
  by_contra hn
  have hnan : ¬ F.Finite F.nanBits := fun hf => by have := hf.notNaN; rw [isNaN_nan hF] at this; cases this
  have hinf : ∀ b, ¬ F.Finite (F.signed b F.infBits) := fun b hf => by
    unfold Fmt.Finite at hf
    rw [mag_signed F.infBits_lt] at hf
    omega
  have hd : F.decode t = .nan ∨ ∃ b, F.decode t = .inf b := by
    unfold Fmt.Finite at hn
    rcases Nat.lt_or_ge F.infBits (F.mag t) with h1 | h1
    · exact Or.inl (decode_nan (decide_eq_true h1))
    · have h2 : F.mag t = F.infBits := by omega
      right
      refine ⟨F.isNeg t, ?_⟩
      unfold decode
      have e : F.infBits = (2 ^ F.eb - 1) * 2 ^ F.mb := rfl
      rw [h2, e, Nat.mul_div_cancel _ (Nat.two_pow_pos _), Nat.mul_mod_left]
      simp
  unfold sub add at h
  rw [F.decode_neg] at h
  rcases hd with hd | ⟨b, hd⟩
  · rw [hd] at h
    revert h
    cases F.decode c <;> exact hnan
  · rw [hd] at h
    revert h
    cases F.decode c with
    | nan => exact hnan
    | inf a =>
      simp only [Fl.flip]
      split
      · exact hinf _
      · exact hnan
    | fin a m e => exact hinf _

theorem Fmt.Correct.real_eq {v : ℝ} {z : Nat} (h : F.Correct v z) (hz : F.Finite z) :
    ∃ b, F.RoundsTo |v| b ∧ F.real z = if v < 0 then -F.value b else F.value b := by
  obtain ⟨-, ⟨b, h1, h2⟩, h3, h4⟩ := h
  have hb : F.mag z = b := by
    unfold Fmt.Finite at hz
    unfold cap at h2
    split at h2
    · omega
    · exact h2
  refine ⟨b, h1, ?_⟩
  unfold real
  rw [hb]
  rcases lt_trichotomy v 0 with hv | hv | hv
  · rw [h3 hv, if_pos hv, if_pos rfl]
  · have h0 : b = 0 := by
      rw [hv, abs_zero] at h1
      exact h1.unique (RoundsTo.zero F)
    rw [h0, F.value_zero, neg_zero, ite_self, ite_self]
  · rw [h4 hv, if_neg (not_lt.2 hv.le)]
    rfl

/-- Rounding is monotone. -/
theorem Fmt.Correct.mono {v w : ℝ} {z z' : Nat} (h : F.Correct v z) (h' : F.Correct w z') (hz : F.Finite z) (hz' : F.Finite z') (hvw : v ≤ w) :
    F.real z ≤ F.real z' := by
  obtain ⟨b, r, e⟩ := h.real_eq hz
  obtain ⟨b', r', e'⟩ := h'.real_eq hz'
  have n1 := F.value_nonneg b
  have n2 := F.value_nonneg b'
  rw [e, e']
  by_cases hv : v < 0
  · by_cases hw : w < 0
    · rw [if_pos hv, if_pos hw]
      have := F.value_strictMono.monotone (r'.mono r (by rw [abs_of_neg hv, abs_of_neg hw]; linarith))
      linarith
    · rw [if_pos hv, if_neg hw]
      linarith
  · have hw : ¬ w < 0 := fun hw => hv (lt_of_le_of_lt hvw hw)
    rw [if_neg hv, if_neg hw]
    exact F.value_strictMono.monotone (r.mono r' (by rw [abs_of_nonneg (not_lt.1 hv), abs_of_nonneg (not_lt.1 hw)]; exact hvw))

theorem Fmt.correct_self (hx : x < 2 * F.signBit) (hf : F.Finite x) : F.Correct (F.real x) x := by
  have n1 := F.value_nonneg (F.mag x)
  refine ⟨hx, ⟨F.mag x, ?_, ?_⟩, ?_, ?_⟩
  · have : |F.real x| = F.value (F.mag x) := by
      unfold real
      split
      · rw [abs_neg, abs_of_nonneg n1]
      · rw [abs_of_nonneg n1]
    rw [this]
    exact RoundsTo.exact F _
  · unfold cap
    unfold Fmt.Finite at hf
    rw [if_neg (by omega)]
  · intro h
    by_contra hn
    rw [Fmt.real_of_nonneg (by simpa using hn)] at h
    linarith
  · intro h
    by_contra hn
    unfold real at h
    rw [if_pos (by simpa using hn)] at h
    linarith

/-- The two values are `γ - τ` and `γ + τ`, rounded. -/
def Fmt.Facing (F : Fmt) (γ : ℝ) (z z' : Nat) : Prop := ∃ τ : ℝ, F.Correct (γ - τ) z ∧ F.Correct (γ + τ) z'

theorem Fmt.facing_self (hx : x < 2 * F.signBit) (hf : F.Finite x) : F.Facing (F.real x) x x :=
  ⟨0, by rw [sub_zero]; exact Fmt.correct_self hx hf, by rw [_root_.add_zero]; exact Fmt.correct_self hx hf⟩

theorem Fmt.facing_sub (hF : F.Ok) {c t t' : Nat} (hc : F.Finite c) (h : F.Alike t' (F.neg t)) (hf : F.Finite (F.sub c t)) :
    F.Facing (F.real c) (F.sub c t) (F.sub c t') := by
  have ht := hf.of_sub hF
  have hr : F.Finite t' ∧ F.real t' = -F.real t := by
    rw [← F.real_neg]
    rcases h with ⟨-, h2⟩ | ⟨h1, h2⟩ | rfl
    · rw [ht.neg.notNaN] at h2; cases h2
    · refine ⟨?_, ?_⟩
      · have := ht.neg
        unfold Fmt.Finite at this ⊢
        omega
      · unfold real
        rw [h1, h2, F.value_zero, neg_zero, ite_self, ite_self]
    · exact ⟨ht.neg, rfl⟩
  refine ⟨F.real t, F.sub_correct hF hc ht, ?_⟩
  have := F.sub_correct hF hc hr.1
  rwa [hr.2, sub_neg_eq_add] at this

/-- Strictly nearer to the opposite is not nearer. -/
theorem Fmt.Facing.lt {γ : ℝ} {z z' y y' : Nat} (h : F.Facing γ z z') (g : F.Facing γ y y') (fz : F.Finite z) (fz' : F.Finite z') (fy : F.Finite y)
    (fy' : F.Finite y') (hlt : F.lt z' y' = true) : F.lt z y = false := by
  obtain ⟨τ, h1, h2⟩ := h
  obtain ⟨σ, g1, g2⟩ := g
  by_contra hn
  have hn' := (Fmt.lt_correct fz fy).1 (by simpa using hn)
  have hlt' := (Fmt.lt_correct fz' fy').1 hlt
  rcases le_total τ σ with hc | hc
  · exact absurd (g1.mono h1 fy fz (by linarith)) (not_le.2 hn')
  · exact absurd (g2.mono h2 fy' fz' (by linarith)) (not_le.2 hlt')

namespace MirrorBV
variable {w : Nat}

theorem step₂ (hF : F.Ok) (hw : 2 ^ w = 2 * F.signBit) {s s' x y : BitVec w} (h : F.Alike s'.toNat (F.neg s.toNat)) :
    F.Alike (BitVec.ofNat w (F.add s'.toNat (BitVec.ofNat w (F.mul (BitVec.ofNat w (F.neg x.toNat)).toNat y.toNat)).toNat)).toNat
      (F.neg (BitVec.ofNat w (F.add s.toNat (BitVec.ofNat w (F.mul x.toNat y.toNat)).toNat)).toNat) := by
  rw [KeyBV.toNat_neg hw, toNat_of hw (F.mul_lt hF _ _), toNat_of hw (F.mul_lt hF _ _), toNat_of hw (Fmt.add_lt hF _ _), toNat_of hw (Fmt.add_lt hF _ _),
    F.mul_comm (F.neg _), F.mul_comm x.toNat]
  exact (h.add_both hF (F.neg_lt _) (F.mul_lt hF _ _) (Fmt.mul_neg hF _ _)).trans (Fmt.neg_add_neg hF _ _)

theorem facing (hF : F.Ok) (hw : 2 ^ w = 2 * F.signBit) {c p p' s : BitVec w} (hc : F.Finite c.toNat) (hp : F.Alike p'.toNat (F.neg p.toNat))
    (hf : F.Finite (BitVec.ofNat w (F.sub c.toNat (BitVec.ofNat w (F.div (BitVec.ofNat w (F.mul c.toNat p.toNat)).toNat s.toNat)).toNat)).toNat) :
    F.Facing (F.real c.toNat) (BitVec.ofNat w (F.sub c.toNat (BitVec.ofNat w (F.div (BitVec.ofNat w (F.mul c.toNat p.toNat)).toNat s.toNat)).toNat)).toNat
      (BitVec.ofNat w (F.sub c.toNat (BitVec.ofNat w (F.div (BitVec.ofNat w (F.mul c.toNat p'.toNat)).toNat s.toNat)).toNat)).toNat := by
  have hs : ∀ a b, F.sub a b < 2 * F.signBit := fun a b => Fmt.add_lt hF _ _
  rw [toNat_of hw (hs _ _), toNat_of hw (F.div_lt hF _ _), toNat_of hw (F.mul_lt hF _ _)] at hf ⊢
  rw [toNat_of hw (hs _ _), toNat_of hw (F.div_lt hF _ _), toNat_of hw (F.mul_lt hF _ _)]
  exact Fmt.facing_sub hF hc (Fmt.alike_quotient hF hp _ _) hf

end MirrorBV
end Ieee
end Annoy
