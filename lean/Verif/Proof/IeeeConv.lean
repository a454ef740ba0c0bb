import Verif.Proof.IeeeCorrect
import Verif.Proof.IeeeSqrt
import Verif.Proof.IeeeCanon
import Verif.Proof.Order
/-!
# `float32` inside `float64`; minimum and negation

Conversion from `float32` to `float64` is exact and the way back returns the same pattern, so that `math.Min`, which computes in
`float64`, returns one of its arguments.
-/
namespace Annoy
namespace Ieee

/-- A number with at most `mb + 1` significant bits and an exponent in range is representable. -/
theorem f64_holds {m : Nat} {e : Int} (hm : m < 2 * 2 ^ 23) (h1 : -149 ≤ e) (h2 : e ≤ 104) :
    ∃ b, f64.value b = (m : ℝ) * 2 ^ e ∧ b < f64.infBits := by
  by_cases h0 : m = 0
  · exact ⟨0, by rw [h0, Fmt.value_zero]; simp, by decide⟩
  · have hl : Nat.log2 m < 24 := (Nat.log2_lt h0).2 (by omega)
    have hl1 := Nat.log2_self_le h0
    have hl2 := Nat.lt_log2_self (n := m)
    obtain ⟨d, hd⟩ : ∃ d : Nat, Nat.log2 m + d = 52 := ⟨52 - Nat.log2 m, by omega⟩
    have b1 : 2 ^ 52 ≤ m * 2 ^ d := by
      rw [← hd, Nat.pow_add]; exact Nat.mul_le_mul_right _ hl1
    have b2 : m * 2 ^ d < 2 * 2 ^ 52 := by
      have : m * 2 ^ d < 2 ^ (Nat.log2 m + 1) * 2 ^ d := Nat.mul_lt_mul_of_pos_right hl2 (Nat.two_pow_pos d)
      rw [← Nat.pow_add, show Nat.log2 m + 1 + d = 53 by omega] at this
      omega
    obtain ⟨k, hk⟩ : ∃ k : Nat, f64.emin + k = e - d := ⟨(e - d - f64.emin).toNat, by
      have : f64.emin = -1074 := by decide
      omega⟩
    have hemin : f64.emin = -1074 := by decide
    have hmb : f64.mb = 52 := rfl
    refine ⟨k * 2 ^ f64.mb + m * 2 ^ d, ?_, ?_⟩
    · rw [f64.value_eq (by rw [hmb]; omega) (fun _ => by rw [hmb]; exact b1), hk]
      push_cast
      rw [mul_assoc, ← zpow_natCast, ← zpow_add₀ (by norm_num : (2 : ℝ) ≠ 0)]
      congr 2
      omega
    · rw [hmb]
      have hinf : f64.infBits = 2047 * 2 ^ 52 := by decide
      rw [hinf]
      omega

theorem f32_value_in_f64 {b : Nat} (hb : b < f32.infBits) : ∃ b', f64.value b' = f32.value b ∧ b' < f64.infBits := by
  obtain ⟨k, q, rfl, hq, hk⟩ := f32.split_mag b
  rw [f32.value_eq hq.le hk]
  have hinf : f32.infBits = 255 * 2 ^ 23 := by decide
  have hmb : f32.mb = 23 := rfl
  have hemin : f32.emin = -149 := by decide
  rw [hmb] at hb hq hk
  rw [hinf] at hb
  have hk' : k ≤ 253 := by
    by_contra hc
    have := hk (by omega)
    omega
  exact f64_holds hq (by omega) (by omega)

theorem conv_isNeg {F G : Fmt} {x : Nat} (hx : F.isNaN x = false) : G.isNeg (conv F G x) = F.isNeg x := by
  have hi := G.infBits_lt
  unfold conv
  rcases F.decode_cases x with ⟨h, -⟩ | ⟨-, h⟩ | ⟨-, m, e, -, h, -⟩
  · rw [hx] at h; cases h
  · rw [h]; exact Fmt.isNeg_signed hi
  · rw [h]; exact Fmt.isNeg_signed (lt_of_le_of_lt (G.roundMag_le m e false) hi)

theorem conv_inf {F G : Fmt} {x : Nat} (hx : F.mag x = F.infBits) : conv F G x = G.signed (F.isNeg x) G.infBits := by
  unfold conv
  rcases F.decode_cases x with ⟨h, -⟩ | ⟨-, h⟩ | ⟨h, -⟩
  · simp [Fmt.isNaN, hx] at h
  · rw [h]; rfl
  · omega

theorem Fmt.abs_real (F : Fmt) (x : Nat) : |F.real x| = F.value (F.mag x) := by
  unfold real
  split
  · rw [abs_neg, abs_of_nonneg (F.value_nonneg _)]
  · rw [abs_of_nonneg (F.value_nonneg _)]

theorem Fmt.cap_of_lt {F : Fmt} {b : Nat} (h : b < F.infBits) : F.cap b = b := by
  unfold cap
  rw [if_neg (by omega)]

/-- The conversion of a finite `float32` is exact. -/
theorem conv_up {x : Nat} (hx : f32.Finite x) : f64.Finite (conv f32 f64 x) ∧ f64.real (conv f32 f64 x) = f32.real x := by
  obtain ⟨b', h1, h2⟩ := f32_value_in_f64 hx
  obtain ⟨-, ⟨b, hb, hm⟩, -, -⟩ := conv_correct (G := f64) f64_ok hx
  rw [f32.abs_real, ← h1] at hb
  have := hb.unique (Fmt.RoundsTo.exact f64 b')
  subst this
  rw [Fmt.cap_of_lt h2] at hm
  refine ⟨by unfold Fmt.Finite; omega, ?_⟩
  unfold Fmt.real
  rw [conv_isNeg hx.notNaN, hm, h1]

/-- There and back. -/
theorem conv_back {x : Nat} (hx : x < 2 * f32.signBit) (hn : f32.isNaN x = false) : conv f64 f32 (conv f32 f64 x) = x := by
  have hs : f32.isNeg (conv f64 f32 (conv f32 f64 x)) = f32.isNeg x := by
    rw [conv_isNeg, conv_isNeg hn]
    rw [conv_nan f64_ok]; exact hn
  have hl := conv_lt (F := f64) f32_ok (conv f32 f64 x)
  rw [← f32.signed_mag hl, hs]
  conv_rhs => rw [← f32.signed_mag hx]
  congr 1
  rcases Nat.lt_or_ge (f32.mag x) f32.infBits with h | h
  · obtain ⟨u1, u2⟩ := conv_up h
    obtain ⟨-, ⟨b, hb, hm⟩, -, -⟩ := conv_correct (G := f32) f32_ok u1
    rw [u2, f32.abs_real] at hb
    have := hb.unique (Fmt.RoundsTo.exact f32 (f32.mag x))
    subst this
    rw [hm, Fmt.cap_of_lt h]
  · have h' : f32.mag x = f32.infBits := by
      simp [Fmt.isNaN] at hn; omega
    rw [conv_inf h', conv_inf (Fmt.mag_signed f64.infBits_lt), Fmt.mag_signed f32.infBits_lt, h']

theorem conv_key {x y : Nat} (hx : f32.isNaN x = false) (hy : f32.isNaN y = false) :
    f64.key (conv f32 f64 x) < f64.key (conv f32 f64 y) ↔ f32.key x < f32.key y := by
  have hx' : f32.mag x ≤ f32.infBits := by simpa [Fmt.isNaN] using hx
  have hy' : f32.mag y ≤ f32.infBits := by simpa [Fmt.isNaN] using hy
  have sx := conv_isNeg (G := f64) hx
  have sy := conv_isNeg (G := f64) hy
  rcases Nat.lt_or_ge (f32.mag x) f32.infBits with h1 | h1 <;> rcases Nat.lt_or_ge (f32.mag y) f32.infBits with h2 | h2
  · obtain ⟨-, r1⟩ := conv_up h1
    obtain ⟨-, r2⟩ := conv_up h2
    rw [← f64.real_lt, ← f32.real_lt, r1, r2]
  · obtain ⟨f1, -⟩ := conv_up h1
    have m2 : f64.mag (conv f32 f64 y) = f64.infBits := by rw [conv_inf (by omega), Fmt.mag_signed f64.infBits_lt]
    unfold Fmt.Finite at f1
    unfold Fmt.key
    rw [sx, sy, m2]
    cases f32.isNeg x <;> cases f32.isNeg y <;> simp <;> omega
  · obtain ⟨f1, -⟩ := conv_up h2
    have m2 : f64.mag (conv f32 f64 x) = f64.infBits := by rw [conv_inf (by omega), Fmt.mag_signed f64.infBits_lt]
    unfold Fmt.Finite at f1
    unfold Fmt.key
    rw [sx, sy, m2]
    cases f32.isNeg x <;> cases f32.isNeg y <;> simp <;> omega
  · have m1 : f64.mag (conv f32 f64 x) = f64.infBits := by rw [conv_inf (by omega), Fmt.mag_signed f64.infBits_lt]
    have m2 : f64.mag (conv f32 f64 y) = f64.infBits := by rw [conv_inf (by omega), Fmt.mag_signed f64.infBits_lt]
    have p1 : 0 < f64.infBits := by decide
    have p2 : 0 < f32.infBits := by decide
    unfold Fmt.key
    rw [sx, sy, m1, m2]
    cases f32.isNeg x <;> cases f32.isNeg y <;> simp <;> omega

theorem conv_lt_eq {x y : Nat} (hx : f32.isNaN x = false) (hy : f32.isNaN y = false) :
    f64.lt (conv f32 f64 x) (conv f32 f64 y) = f32.lt x y := by
  unfold Fmt.lt
  rw [conv_nan f64_ok, conv_nan f64_ok, hx, hy]
  simp only [Bool.not_false, Bool.true_and]
  exact decide_eq_decide.2 (conv_key hx hy)

theorem Fmt.min_cases {F : Fmt} (hF : F.Ok) {x y : Nat} (hx : x < 2 * F.signBit) (hy : y < 2 * F.signBit)
    (nx : F.isNaN x = false) (ny : F.isNaN y = false) :
    (F.lt x y = true → F.min x y = x) ∧ (F.lt y x = true → F.min x y = y) ∧ (F.min x y = x ∨ F.min x y = y) := by
  have hi := F.infBits_pos hF
  have hl := F.infBits_lt
  have mx : F.mag x ≤ F.infBits := by simpa [isNaN] using nx
  have my : F.mag y ≤ F.infBits := by simpa [isNaN] using ny
  have kx : F.key x = -(F.infBits : Int) → x = F.signed true F.infBits := by
    intro h
    rw [← F.signed_mag hx]
    unfold key at h
    cases hn : F.isNeg x
    · rw [hn] at h; simp at h; omega
    · rw [hn] at h; simp at h; rw [h]
  have ky : F.key y = -(F.infBits : Int) → y = F.signed true F.infBits := by
    intro h
    rw [← F.signed_mag hy]
    unfold key at h
    cases hn : F.isNeg y
    · rw [hn] at h; simp at h; omega
    · rw [hn] at h; simp at h; rw [h]
  have kinf : F.key (F.signed true F.infBits) = -(F.infBits : Int) := by
    unfold key
    rw [isNeg_signed hl, mag_signed hl, if_pos rfl]
  have kx' : -(F.infBits : Int) ≤ F.key x := by unfold key; split <;> omega
  have ky' : -(F.infBits : Int) ≤ F.key y := by unfold key; split <;> omega
  have ltxy : F.lt x y = decide (F.key x < F.key y) := by unfold lt; rw [nx, ny]; rfl
  have ltyx : F.lt y x = decide (F.key y < F.key x) := by unfold lt; rw [nx, ny]; rfl
  unfold min
  rw [ltxy, ltyx, nx, ny]
  simp only [decide_eq_true_eq, Bool.false_eq_true, or_self, if_false]
  by_cases h1 : x = F.signed true F.infBits ∨ y = F.signed true F.infBits
  · rw [if_pos h1]
    rcases h1 with h1 | h1
    · rw [← h1] at kinf ⊢
      exact ⟨fun _ => rfl, fun h => absurd h (by omega), Or.inl rfl⟩
    · rw [← h1] at kinf ⊢
      exact ⟨fun h => absurd h (by omega), fun _ => rfl, Or.inr rfl⟩
  · rw [if_neg h1]
    by_cases h2 : F.mag x = 0 ∧ F.mag y = 0
    · rw [if_pos h2]
      have a : F.key x = 0 := by unfold key; rw [h2.1]; split <;> rfl
      have b : F.key y = 0 := by unfold key; rw [h2.2]; split <;> rfl
      rw [a, b]
      refine ⟨fun h => absurd h (by omega), fun h => absurd h (by omega), ?_⟩
      split
      · exact Or.inl rfl
      · exact Or.inr rfl
    · rw [if_neg h2]
      by_cases h3 : F.key x < F.key y
      · rw [if_pos h3]; exact ⟨fun _ => rfl, fun h => absurd h (by omega), Or.inl rfl⟩
      · rw [if_neg h3]; exact ⟨fun h => absurd h h3, fun _ => rfl, Or.inr rfl⟩

theorem Fmt.key_neg (F : Fmt) (x : Nat) : F.key (F.neg x) = -F.key x := by
  unfold key
  rw [F.isNeg_neg, F.mag_neg]
  cases F.isNeg x <;> simp

theorem Fmt.isNaN_neg (F : Fmt) (x : Nat) : F.isNaN (F.neg x) = F.isNaN x := by
  unfold isNaN; rw [F.mag_neg]

end Ieee
open Ieee

/-- The laws of minimum, negation and infinity the search queue relies on.  NaN is excluded by `Ordinary`. -/
structure Num.KeyLaws (N : Num) : Prop where
  lawful : N.Lawful
  inf_ordinary : N.Ordinary N.inf
  le_inf : ∀ x, N.lt N.inf x = false
  lt_ordinary : ∀ x y, N.lt x y = true → N.Ordinary x ∧ N.Ordinary y
  neg_ordinary : ∀ x, N.Ordinary x → N.Ordinary (N.neg x)
  neg_lt : ∀ x y, N.lt x y = true → N.lt (N.neg y) (N.neg x) = true
  neg_zero : N.eq (N.neg N.zero) N.zero = true
  min_left : ∀ x y, N.lt x y = true → N.min x y = x
  min_right : ∀ x y, N.lt y x = true → N.min x y = y
  min_or : ∀ x y, N.Ordinary x → N.Ordinary y → N.min x y = x ∨ N.min x y = y

namespace KeyBV
variable {F : Fmt} {w : Nat}

theorem toNat_neg (hw : 2 ^ w = 2 * F.signBit) (x : BitVec w) : (BitVec.ofNat w (F.neg x.toNat)).toNat = F.neg x.toNat := by
  rw [BitVec.toNat_ofNat, hw, Nat.mod_eq_of_lt (F.neg_lt _)]

theorem notNaN_of_lt {x y : Nat} (h : F.lt x y = true) : F.isNaN x = false ∧ F.isNaN y = false := by
  unfold Fmt.lt at h
  simp only [Bool.and_eq_true, Bool.not_eq_true'] at h
  exact h.1

theorem notNaN_of_eq {x : Nat} (h : F.eq x x = true) : F.isNaN x = false := by
  rwa [Fmt.eq_self, Bool.not_eq_true'] at h

theorem lt_ordinary {x y : Nat} (h : F.lt x y = true) : F.eq x x = true ∧ F.eq y y = true := by
  rw [Fmt.eq_self, Fmt.eq_self, (notNaN_of_lt h).1, (notNaN_of_lt h).2]
  exact ⟨rfl, rfl⟩

theorem le_inf (F : Fmt) (x : Nat) : F.lt F.infBits x = false := by
  have h1 := F.infBits_lt
  have hk : F.key F.infBits = F.infBits := by
    have := Fmt.isNeg_signed (F := F) (b := false) h1
    have h2 := Fmt.mag_signed (F := F) (b := false) h1
    simp only [Fmt.signed, Bool.false_eq_true, if_false] at this h2
    unfold Fmt.key
    rw [this, h2]; rfl
  unfold Fmt.lt
  rw [hk]
  by_contra hc
  simp only [Bool.not_eq_false, Bool.and_eq_true, Bool.not_eq_true', decide_eq_true_eq] at hc
  obtain ⟨⟨-, hn⟩, hlt⟩ := hc
  simp only [Fmt.isNaN, decide_eq_false_iff_not] at hn
  unfold Fmt.key at hlt
  split at hlt <;> omega

theorem toNat_inf (hw : 2 ^ w = 2 * F.signBit) : (BitVec.ofNat w F.infBits).toNat = F.infBits := by
  have := F.infBits_lt
  rw [BitVec.toNat_ofNat, hw, Nat.mod_eq_of_lt (by omega)]

theorem neg_ordinary (hw : 2 ^ w = 2 * F.signBit) (x : BitVec w) (h : F.eq x.toNat x.toNat = true) :
    F.eq (BitVec.ofNat w (F.neg x.toNat)).toNat (BitVec.ofNat w (F.neg x.toNat)).toNat = true := by
  rw [toNat_neg hw, Fmt.eq_self, Fmt.isNaN_neg, notNaN_of_eq h]; rfl

theorem neg_lt (hw : 2 ^ w = 2 * F.signBit) (x y : BitVec w) (h : F.lt x.toNat y.toNat = true) :
    F.lt (BitVec.ofNat w (F.neg y.toNat)).toNat (BitVec.ofNat w (F.neg x.toNat)).toNat = true := by
  rw [toNat_neg hw, toNat_neg hw]
  unfold Fmt.lt at h ⊢
  rw [Fmt.isNaN_neg, Fmt.isNaN_neg, Fmt.key_neg, Fmt.key_neg]
  simp only [Bool.and_eq_true, decide_eq_true_eq] at h ⊢
  exact ⟨⟨h.1.2, h.1.1⟩, by omega⟩

theorem min64 (x y : BitVec 64) (hx : f64.isNaN x.toNat = false) (hy : f64.isNaN y.toNat = false) :
    (f64.lt x.toNat y.toNat = true → BitVec.ofNat 64 (f64.min x.toNat y.toNat) = x) ∧
    (f64.lt y.toNat x.toNat = true → BitVec.ofNat 64 (f64.min x.toNat y.toNat) = y) ∧
    (BitVec.ofNat 64 (f64.min x.toNat y.toNat) = x ∨ BitVec.ofNat 64 (f64.min x.toNat y.toNat) = y) := by
  have h := Fmt.min_cases f64_ok (x := x.toNat) (y := y.toNat) x.isLt y.isLt hx hy
  refine ⟨fun h' => ?_, fun h' => ?_, ?_⟩
  · rw [h.1 h']; simp
  · rw [h.2.1 h']; simp
  · rcases h.2.2 with h' | h'
    · left; rw [h']; simp
    · right; rw [h']; simp

theorem min32 (x y : BitVec 32) (hx : f32.isNaN x.toNat = false) (hy : f32.isNaN y.toNat = false) :
    (f32.lt x.toNat y.toNat = true → BitVec.ofNat 32 (conv f64 f32 (f64.min (conv f32 f64 x.toNat) (conv f32 f64 y.toNat))) = x) ∧
    (f32.lt y.toNat x.toNat = true → BitVec.ofNat 32 (conv f64 f32 (f64.min (conv f32 f64 x.toNat) (conv f32 f64 y.toNat))) = y) ∧
    (BitVec.ofNat 32 (conv f64 f32 (f64.min (conv f32 f64 x.toNat) (conv f32 f64 y.toNat))) = x ∨
      BitVec.ofNat 32 (conv f64 f32 (f64.min (conv f32 f64 x.toNat) (conv f32 f64 y.toNat))) = y) := by
  have h := Fmt.min_cases f64_ok (x := conv f32 f64 x.toNat) (y := conv f32 f64 y.toNat) (conv_lt f64_ok _) (conv_lt f64_ok _)
    (by rw [conv_nan f64_ok]; exact hx) (by rw [conv_nan f64_ok]; exact hy)
  rw [conv_lt_eq hx hy, conv_lt_eq hy hx] at h
  refine ⟨fun h' => ?_, fun h' => ?_, ?_⟩
  · rw [h.1 h', conv_back x.isLt hx]; simp
  · rw [h.2.1 h', conv_back y.isLt hy]; simp
  · rcases h.2.2 with h' | h'
    · left; rw [h', conv_back x.isLt hx]; simp
    · right; rw [h', conv_back y.isLt hy]; simp

end KeyBV
open KeyBV

theorem ieee64_keyLaws : ieee64.KeyLaws where
  lawful := ieee64_lawful
  inf_ordinary := by decide
  le_inf x := (congrArg (fun n => f64.lt n (BitVec.toNat (w := 64) x)) (toNat_inf (F := f64) (w := 64) rfl)).trans (le_inf f64 _)
  lt_ordinary x y h := lt_ordinary (F := f64) h
  neg_ordinary x h := neg_ordinary (F := f64) (w := 64) rfl x h
  neg_lt x y h := neg_lt (F := f64) (w := 64) rfl x y h
  neg_zero := by decide
  min_left x y h := (min64 x y (notNaN_of_lt h).1 (notNaN_of_lt h).2).1 h
  min_right x y h := (min64 x y (notNaN_of_lt h).2 (notNaN_of_lt h).1).2.1 h
  min_or x y hx hy := (min64 x y (notNaN_of_eq hx) (notNaN_of_eq hy)).2.2

theorem ieee32_keyLaws : ieee32.KeyLaws where
  lawful := ieee32_lawful
  inf_ordinary := by decide
  le_inf x := (congrArg (fun n => f32.lt n (BitVec.toNat (w := 32) x)) (toNat_inf (F := f32) (w := 32) rfl)).trans (le_inf f32 _)
  lt_ordinary x y h := lt_ordinary (F := f32) h
  neg_ordinary x h := neg_ordinary (F := f32) (w := 32) rfl x h
  neg_lt x y h := neg_lt (F := f32) (w := 32) rfl x y h
  neg_zero := by decide
  min_left x y h := (min32 x y (notNaN_of_lt h).1 (notNaN_of_lt h).2).1 h
  min_right x y h := (min32 x y (notNaN_of_lt h).2 (notNaN_of_lt h).1).2.1 h
  min_or x y hx hy := (min32 x y (notNaN_of_eq hx) (notNaN_of_eq hy)).2.2

end Annoy
