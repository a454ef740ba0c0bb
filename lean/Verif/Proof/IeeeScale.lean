import Verif.Proof.IeeeFar
import Verif.Proof.ApproxIeee
/-!
# Multiplying by powers of two
-/
namespace Annoy
namespace Ieee
variable {F : Fmt}

theorem Fmt.value_shift (F : Fmt) {b : Nat} (hb : 2 ^ F.mb ≤ b) : F.value (b + 2 ^ F.mb) = 2 * F.value b := by
  obtain ⟨k, q, rfl, h1, h2⟩ := F.split_mag b
  have hq : 2 ^ F.mb ≤ q := by
    by_cases hk : k = 0
    · subst hk; omega
    · exact h2 hk
  rw [show k * 2 ^ F.mb + q + 2 ^ F.mb = (k + 1) * 2 ^ F.mb + q by rw [Nat.add_mul]; omega, F.value_eq h1.le (fun _ => hq), F.value_eq h1.le h2,
    show F.emin + ((k + 1 : Nat) : Int) = (F.emin + (k : Int)) + 1 by push_cast; ring, zpow_add_one₀ (by norm_num)]
  ring

/-- Twice a magnitude is a magnitude. -/
theorem Fmt.value_twice (F : Fmt) (b : Nat) : ∃ c, F.value c = 2 * F.value b := by
  by_cases hb : 2 ^ F.mb ≤ b
  · exact ⟨_, F.value_shift hb⟩
  · refine ⟨2 * b, ?_⟩
    have h1 := F.value_eq (k := 0) (q := 2 * b) (by omega) (by simp)
    have h2 := F.value_eq (k := 0) (q := b) (by omega) (by simp)
    simp only [Nat.zero_mul, Nat.zero_add] at h1 h2
    rw [h1, h2]
    push_cast
    ring

/-- Not in the range where the grid is coarser than the precision, or on the grid. -/
def Fmt.Grid (F : Fmt) (v : ℝ) : Prop := F.value (2 ^ F.mb) ≤ |v| ∨ ∃ c, |v| = F.value c

theorem Fmt.RoundsTo.twice (hF : F.Ok) {v : ℝ} {b : Nat} (h : F.RoundsTo v b) (hv : F.value (2 ^ F.mb) ≤ v) : F.RoundsTo (2 * v) (b + 2 ^ F.mb) := by
  have hb : 2 ^ F.mb ≤ b := (Fmt.RoundsTo.exact F _).mono h hv
  have hpar : (b + 2 ^ F.mb) % 2 = b % 2 := by
    obtain ⟨j, hj⟩ : ∃ j, F.mb = j + 1 := ⟨F.mb - 1, by have := hF.mb; omega⟩
    rw [hj, Nat.pow_succ]
    omega
  have scale : ∀ c, |2 * F.value c - 2 * v| = 2 * |F.value c - v| := fun c => by
    rw [← mul_sub, abs_mul, abs_two]
  intro b'
  rw [F.value_shift hb, scale]
  by_cases hb' : 2 * 2 ^ F.mb ≤ b'
  · obtain ⟨c, rfl⟩ : ∃ c, b' = c + 2 ^ F.mb := ⟨b' - 2 ^ F.mb, by omega⟩
    rw [F.value_shift (by omega), scale, hpar]
    rcases h c with h | ⟨h, h'⟩
    · left; linarith
    · right
      refine ⟨by rw [h], ?_⟩
      rcases h' with rfl | h'
      · exact Or.inl rfl
      · exact Or.inr h'
  · left
    have h1 : F.value b' < F.value (2 ^ F.mb + 2 ^ F.mb) := F.value_strictMono (by omega)
    rw [F.value_shift le_rfl] at h1
    have h2 : |F.value b - v| ≤ |F.value (2 ^ F.mb) - v| := by rcases h (2 ^ F.mb) with h | h; exacts [h.le, h.1.le]
    rw [abs_of_nonpos (show F.value (2 ^ F.mb) - v ≤ 0 by linarith)] at h2
    rw [abs_of_neg (show F.value b' - 2 * v < 0 by linarith)]
    linarith

/-- **Rounding commutes with powers of two.** -/
theorem Fmt.RoundsTo.scale (hF : F.Ok) (j : Nat) {v : ℝ} {b : Nat} (hv : 0 ≤ v) (h : F.RoundsTo v b) (g : F.Grid v) :
    ∃ c, F.RoundsTo (2 ^ j * v) c ∧ F.value c = 2 ^ j * F.value b := by
  unfold Fmt.Grid at g
  rw [abs_of_nonneg hv] at g
  rcases g with g | ⟨c, rfl⟩
  · have key : ∃ c, F.RoundsTo (2 ^ j * v) c ∧ F.value c = 2 ^ j * F.value b ∧ 2 ^ F.mb ≤ c := by
      induction j with
      | zero => exact ⟨b, by simpa using h, by simp, (Fmt.RoundsTo.exact F _).mono h g⟩
      | succ j ih =>
        obtain ⟨c, h1, h2, h3⟩ := ih
        refine ⟨c + 2 ^ F.mb, ?_, by rw [F.value_shift h3, h2]; ring, by omega⟩
        have h4 : (1 : ℝ) ≤ 2 ^ j := one_le_pow₀ (by norm_num)
        have := h1.twice hF (g.trans (le_mul_of_one_le_left hv h4))
        rwa [show (2 : ℝ) ^ (j + 1) * v = 2 * (2 ^ j * v) by ring]
    obtain ⟨c, h1, h2, -⟩ := key
    exact ⟨c, h1, h2⟩
  · obtain rfl := h.unique (Fmt.RoundsTo.exact F c)
    have key : ∃ c, F.value c = 2 ^ j * F.value b := by
      clear h
      induction j with
      | zero => exact ⟨b, by simp⟩
      | succ j ih =>
        obtain ⟨c, h⟩ := ih
        obtain ⟨d, h'⟩ := F.value_twice c
        exact ⟨d, by rw [h', h]; ring⟩
    obtain ⟨c, hc⟩ := key
    exact ⟨c, by rw [← hc]; exact Fmt.RoundsTo.exact F c, hc⟩

theorem Fmt.Correct.scale (hF : F.Ok) (j : Nat) {v w : ℝ} {z z' : Nat} (h : F.Correct v z) (h' : F.Correct w z') (hw : w = 2 ^ j * v) (hz : F.Finite z) (hz' : F.Finite z')
    (g : F.Grid v) : F.real z' = 2 ^ j * F.real z := by
  subst hw
  obtain ⟨b, r, e⟩ := h.real_eq hz
  obtain ⟨b', r', e'⟩ := h'.real_eq hz'
  have hp : (0 : ℝ) < 2 ^ j := by positivity
  obtain ⟨c, h1, h2⟩ := r.scale hF j (abs_nonneg v) (by unfold Fmt.Grid; rw [abs_abs]; exact g)
  rw [abs_mul, abs_of_pos hp] at r'
  obtain rfl := r'.unique h1
  rw [e, e', h2]
  by_cases hv : v < 0
  · rw [if_pos hv, if_pos (by nlinarith)]; ring
  · rw [if_neg hv, if_neg (by nlinarith)]

theorem Fmt.Correct.same {v w : ℝ} {z z' : Nat} (h : F.Correct v z) (h' : F.Correct w z') (hw : w = v) (hz : F.Finite z) (hz' : F.Finite z') : F.real z' = F.real z :=
  le_antisymm (h'.mono h hz' hz hw.le) (h.mono h' hz hz' hw.ge)

/-- A finite number is a whole multiple of the least magnitude. -/
theorem Fmt.real_int (F : Fmt) {x : Nat} (hx : F.Finite x) : ∃ i : Int, F.real x = i * 2 ^ F.emin := by
  obtain ⟨m, e, -, h, -, he⟩ := F.real_eq hx
  obtain ⟨k, rfl⟩ : ∃ k : Nat, e = F.emin + k := ⟨(e - F.emin).toNat, by omega⟩
  have e1 : (m : ℝ) * 2 ^ (F.emin + (k : Int)) = ((m * 2 ^ k : Int) : ℝ) * 2 ^ F.emin := by
    rw [zpow_add₀ (by norm_num), zpow_natCast]
    push_cast
    ring
  rw [e1] at h
  rw [h]
  split
  · exact ⟨-(m * 2 ^ k : Int), by push_cast; ring⟩
  · exact ⟨_, rfl⟩

theorem Fmt.value_small (F : Fmt) {b : Nat} (hb : b ≤ 2 ^ F.mb) : F.value b = b * 2 ^ F.emin := by
  have h := F.value_eq (k := 0) (q := b) (by omega) (by simp)
  simpa using h

theorem Fmt.grid_add (F : Fmt) {x y : Nat} (hx : F.Finite x) (hy : F.Finite y) : F.Grid (F.real x + F.real y) := by
  obtain ⟨i, hi⟩ := F.real_int hx
  obtain ⟨k, hk⟩ := F.real_int hy
  have hE := two_zpow_pos F.emin
  have e : |F.real x + F.real y| = ((i + k).natAbs : ℝ) * 2 ^ F.emin := by
    rw [hi, hk, ← add_mul, abs_mul, abs_of_pos hE, Nat.cast_natAbs]
    push_cast
    rfl
  unfold Fmt.Grid
  rw [e]
  rcases Nat.lt_or_ge (i + k).natAbs (2 ^ F.mb) with h | h
  · exact Or.inr ⟨_, (F.value_small h.le).symm⟩
  · left
    rw [F.value_small le_rfl]
    exact mul_le_mul_of_nonneg_right (by exact_mod_cast h) hE.le

theorem Fmt.grid_twice (F : Fmt) (x : Nat) : F.Grid (2 * F.real x) := by
  obtain ⟨c, hc⟩ := F.value_twice (F.mag x)
  refine Or.inr ⟨c, ?_⟩
  rw [hc, abs_mul, abs_two]
  congr 1
  have := F.value_nonneg (F.mag x)
  unfold real
  split
  · rw [abs_neg, abs_of_nonneg this]
  · rw [abs_of_nonneg this]

theorem Fmt.real_pos_ge (F : Fmt) {x : Nat} (hx : F.Finite x) (h0 : 0 < F.real x) : (2 : ℝ) ^ F.emin ≤ F.real x := by
  obtain ⟨i, hi⟩ := F.real_int hx
  have hE := two_zpow_pos F.emin
  rw [hi] at h0 ⊢
  have : (0 : ℝ) < i := by
    by_contra hn
    push Not at hn
    nlinarith
  have h1 : (1 : ℝ) ≤ i := by exact_mod_cast this
  nlinarith

theorem Fmt.same_sub (hF : F.Ok) {c t t' : Nat} (hc : F.Finite c) (c0 : 0 < F.real c) (ht : t < 2 * F.signBit) (ht' : t' < 2 * F.signBit) (f : F.Finite t) (f' : F.Finite t')
    (h : F.real t = F.real t') : F.sub c t = F.sub c t' := by
  by_cases h0 : F.real t = 0
  · have h1 := F.sub_correct hF hc f
    have h2 := F.sub_correct hF hc f'
    rw [h0, sub_zero] at h1
    rw [← h, h0, sub_zero] at h2
    obtain ⟨l1, ⟨b1, r1, m1⟩, -, p1⟩ := h1
    obtain ⟨l2, ⟨b2, r2, m2⟩, -, p2⟩ := h2
    obtain rfl := r1.unique r2
    rw [← F.signed_mag l1, ← F.signed_mag l2, m1, m2, p1 c0, p2 c0]
  · suffices t = t' by rw [this]
    have n1 := F.value_nonneg (F.mag t)
    have n2 := F.value_nonneg (F.mag t')
    rw [← F.signed_mag ht, ← F.signed_mag ht']
    unfold real at h h0
    cases e1 : F.isNeg t <;> cases e2 : F.isNeg t' <;> rw [e1] at h h0 <;> rw [e2] at h <;> simp only [if_true, Bool.false_eq_true, if_false] at h h0
    · rw [F.value_strictMono.injective h]
    · exact absurd (by linarith) h0
    · exact absurd (by linarith) h0
    · rw [F.value_strictMono.injective (neg_injective h)]

/-- A finite sum has finite parts. -/
theorem Fmt.Finite.of_add (hF : F.Ok) {x y : Nat} (hy : y < 2 * F.signBit) (hx : x < 2 * F.signBit) (h : F.Finite (F.add x y)) : F.Finite x ∧ F.Finite y := by
  have key : ∀ {a b : Nat}, b < 2 * F.signBit → F.Finite (F.add a b) → F.Finite b := by
    intro a b hb h
    have h1 : F.neg (F.neg b) = b := by
      rw [← F.signed_mag (F.neg_lt (F.neg b)), F.isNeg_neg, F.isNeg_neg, F.mag_neg, F.mag_neg, Bool.not_not, F.signed_mag hb]
    have h2 : F.sub a (F.neg b) = F.add a b := by unfold sub; rw [h1]
    rw [← h2] at h
    have := h.of_sub hF
    unfold Fmt.Finite at this ⊢
    rwa [F.mag_neg] at this
  exact ⟨key hx (by rw [F.add_comm]; exact h), key hy h⟩

theorem Fmt.grid_of_norm (F : Fmt) {v : ℝ} (h : v = 0 ∨ F.value (2 ^ F.mb) ≤ |v|) : F.Grid v := by
  rcases h with rfl | h
  · exact Or.inr ⟨0, by rw [F.value_zero, abs_zero]⟩
  · exact Or.inl h

theorem sqrt_four {a b : ℝ} (h : b = 2 ^ 2 * a) : Real.sqrt b = 2 ^ 1 * Real.sqrt a := by
  rw [h, Real.sqrt_mul (by positivity), Real.sqrt_sq (by norm_num), pow_one]

theorem norm32 : f32.value (2 ^ f32.mb) = 2 ^ (-126 : Int) := by
  rw [f32.value_small le_rfl, show f32.emin = -149 by decide, show f32.mb = 23 from rfl]
  norm_num

theorem norm64 : f64.value (2 ^ f64.mb) = 2 ^ (-1022 : Int) := by
  rw [f64.value_small le_rfl, show f64.emin = -1074 by decide, show f64.mb = 52 from rfl]
  have : ((2 ^ 52 : Nat) : ℝ) = 2 ^ (52 : Int) := by norm_num
  rw [this, ← zpow_add₀ (by norm_num)]
  norm_num

theorem sqrt_ge {a : ℝ} {e : Int} (h : (2 : ℝ) ^ (2 * e) ≤ a) : (2 : ℝ) ^ e ≤ Real.sqrt a := by
  refine Real.le_sqrt_of_sq_le ?_
  rwa [← zpow_natCast, ← zpow_mul, mul_comm]

theorem sqrt64_scale {x x' : Nat} (hl : x < 2 * f64.signBit) (hl' : x' < 2 * f64.signBit) (hx : f64.Finite x) (hx' : f64.Finite x') (h0 : (2 : ℝ) ^ (-1074 : Int) ≤ f64.real x)
    (h : f64.real x' = 2 ^ 2 * f64.real x) (f : f64.Finite (f64.sqrt x)) (f' : f64.Finite (f64.sqrt x')) : f64.real (f64.sqrt x') = 2 ^ 1 * f64.real (f64.sqrt x) := by
  have h0' : 0 ≤ f64.real x := (two_zpow_pos _).le.trans h0
  refine (f64.sqrt_correct f64_ok hl hx h0').scale f64_ok 1 (f64.sqrt_correct f64_ok hl' hx' (by rw [h]; positivity)) (sqrt_four h) f f' (Or.inl ?_)
  rw [norm64, abs_of_nonneg (Real.sqrt_nonneg _)]
  refine le_trans ?_ (sqrt_ge (e := -537) (by norm_num at h0 ⊢; exact h0))
  exact zpow_le_zpow_right₀ (by norm_num) (by norm_num)

end Ieee
open Ieee

/-- How multiplying by powers of two passes through the operations, `m` the least normal number, `M` a large number. -/
structure Shifts (N : Num) (val : N.V → ℝ) (Fin : N.V → Prop) (m M : ℝ) : Prop where
  add : ∀ (j : Nat) {x y x' y'}, Fin x → Fin y → Fin x' → Fin y' → Fin (N.add x y) → Fin (N.add x' y') → val x' = 2 ^ j * val x → val y' = 2 ^ j * val y →
    val (N.add x' y') = 2 ^ j * val (N.add x y)
  finAdd : ∀ {x y}, Fin (N.add x y) → Fin x ∧ Fin y
  mul : ∀ (j : Nat) {x y x' y'}, Fin x → Fin y → Fin x' → Fin y' → Fin (N.mul x y) → Fin (N.mul x' y') → val x' * val y' = 2 ^ j * (val x * val y) →
    (val x * val y = 0 ∨ m ≤ |val x * val y|) → val (N.mul x' y') = 2 ^ j * val (N.mul x y)
  two : ∀ {x}, Fin x → Fin (N.mul N.two x) → val (N.mul N.two x) = 2 * val x
  sqrt : ∀ {x x'}, Fin x → Fin x' → Fin (N.sqrt x) → Fin (N.sqrt x') → 0 < val x → val x' ≤ M → val x' = 2 ^ 2 * val x → val (N.sqrt x') = 2 ^ 1 * val (N.sqrt x)
  div : ∀ {x y x' y'}, Fin x → Fin y → Fin x' → Fin y' → val y ≠ 0 → val y' ≠ 0 → Fin (N.div x y) → Fin (N.div x' y') → val x' / val y' = val x / val y →
    val (N.div x' y') = val (N.div x y)
  sub : ∀ {t t'}, Fin t → Fin t' → val t = val t' → N.sub N.two t = N.sub N.two t'
  finSub : ∀ {t}, Fin (N.sub N.two t) → Fin t

namespace ScaleBV
variable {F : Fmt} {w : Nat}

theorem toNat_of (hw : 2 ^ w = 2 * F.signBit) {z : Nat} (h : z < 2 * F.signBit) : (BitVec.ofNat w z).toNat = z := by
  rw [BitVec.toNat_ofNat]; exact Nat.mod_eq_of_lt (hw ▸ h)

theorem lt_of (hw : 2 ^ w = 2 * F.signBit) (x : BitVec w) : x.toNat < 2 * F.signBit := hw ▸ x.isLt

theorem add (hF : F.Ok) (hw : 2 ^ w = 2 * F.signBit) (j : Nat) {x y x' y' : BitVec w} (hx : F.Finite x.toNat) (hy : F.Finite y.toNat) (hx' : F.Finite x'.toNat)
    (hy' : F.Finite y'.toNat) (h : F.Finite (BitVec.ofNat w (F.add x.toNat y.toNat)).toNat) (h' : F.Finite (BitVec.ofNat w (F.add x'.toNat y'.toNat)).toNat)
    (ex : F.real x'.toNat = 2 ^ j * F.real x.toNat) (ey : F.real y'.toNat = 2 ^ j * F.real y.toNat) :
    F.real (BitVec.ofNat w (F.add x'.toNat y'.toNat)).toNat = 2 ^ j * F.real (BitVec.ofNat w (F.add x.toNat y.toNat)).toNat := by
  rw [toNat_of hw (Fmt.add_lt hF _ _)] at *
  rw [toNat_of hw (Fmt.add_lt hF _ _)] at *
  exact (F.add_correct hF hx hy).scale hF j (F.add_correct hF hx' hy') (by rw [ex, ey]; ring) h h' (F.grid_add hx hy)

theorem finAdd (hF : F.Ok) (hw : 2 ^ w = 2 * F.signBit) {x y : BitVec w} (h : F.Finite (BitVec.ofNat w (F.add x.toNat y.toNat)).toNat) :
    F.Finite x.toNat ∧ F.Finite y.toNat := by
  rw [toNat_of hw (Fmt.add_lt hF _ _)] at h
  exact h.of_add hF (lt_of hw _) (lt_of hw _)

theorem mulG (hF : F.Ok) (hw : 2 ^ w = 2 * F.signBit) (j : Nat) {x y x' y' : BitVec w} (hx : F.Finite x.toNat) (hy : F.Finite y.toNat) (hx' : F.Finite x'.toNat)
    (hy' : F.Finite y'.toNat) (h : F.Finite (BitVec.ofNat w (F.mul x.toNat y.toNat)).toNat) (h' : F.Finite (BitVec.ofNat w (F.mul x'.toNat y'.toNat)).toNat)
    (e : F.real x'.toNat * F.real y'.toNat = 2 ^ j * (F.real x.toNat * F.real y.toNat)) (g : F.Grid (F.real x.toNat * F.real y.toNat)) :
    F.real (BitVec.ofNat w (F.mul x'.toNat y'.toNat)).toNat = 2 ^ j * F.real (BitVec.ofNat w (F.mul x.toNat y.toNat)).toNat := by
  rw [toNat_of hw (F.mul_lt hF _ _)] at *
  rw [toNat_of hw (F.mul_lt hF _ _)] at *
  exact (F.mul_correct hF hx hy).scale hF j (F.mul_correct hF hx' hy') e h h' g

theorem two (hF : F.Ok) (hw : 2 ^ w = 2 * F.signBit) {c x : BitVec w} (hc : F.Finite c.toNat) (c2 : F.real c.toNat = 2) (hx : F.Finite x.toNat)
    (h : F.Finite (BitVec.ofNat w (F.mul c.toNat x.toNat)).toNat) : F.real (BitVec.ofNat w (F.mul c.toNat x.toNat)).toNat = 2 * F.real x.toNat := by
  rw [toNat_of hw (F.mul_lt hF _ _)] at *
  have h1 := (Fmt.correct_self (lt_of hw x) hx).scale hF 1 (F.mul_correct hF hc hx) (by rw [c2, pow_one]) hx h
    (Or.inr ⟨F.mag x.toNat, by
      have := F.value_nonneg (F.mag x.toNat)
      unfold Fmt.real
      split
      · rw [abs_neg, abs_of_nonneg this]
      · rw [abs_of_nonneg this]⟩)
  rwa [pow_one] at h1

theorem div (hF : F.Ok) (hw : 2 ^ w = 2 * F.signBit) {x y x' y' : BitVec w} (hx : F.Finite x.toNat) (hy : F.Finite y.toNat) (hx' : F.Finite x'.toNat)
    (hy' : F.Finite y'.toNat) (y0 : F.real y.toNat ≠ 0) (y0' : F.real y'.toNat ≠ 0)
    (h : F.Finite (BitVec.ofNat w (F.div x.toNat y.toNat)).toNat) (h' : F.Finite (BitVec.ofNat w (F.div x'.toNat y'.toNat)).toNat)
    (e : F.real x'.toNat / F.real y'.toNat = F.real x.toNat / F.real y.toNat) :
    F.real (BitVec.ofNat w (F.div x'.toNat y'.toNat)).toNat = F.real (BitVec.ofNat w (F.div x.toNat y.toNat)).toNat := by
  rw [toNat_of hw (F.div_lt hF _ _)] at *
  rw [toNat_of hw (F.div_lt hF _ _)] at *
  exact (F.div_correct hF hx hy y0).same (F.div_correct hF hx' hy' y0') e h h'

theorem finSub (hF : F.Ok) (hw : 2 ^ w = 2 * F.signBit) {c t : BitVec w} (h : F.Finite (BitVec.ofNat w (F.sub c.toNat t.toNat)).toNat) : F.Finite t.toNat := by
  rw [toNat_of hw (show F.sub _ _ < 2 * F.signBit from Fmt.add_lt hF _ _)] at h
  exact h.of_sub hF
end ScaleBV

theorem ieee64_shifts : Shifts ieee64 val64 fin64 (2 ^ (-1022 : Int)) (2 ^ 1000) where
  add j _ _ _ _ hx hy hx' hy' h h' ex ey := ScaleBV.add f64_ok (by decide) j hx hy hx' hy' h h' ex ey
  finAdd h := ScaleBV.finAdd (F := f64) (w := 64) f64_ok (by decide) h
  mul j _ _ _ _ hx hy hx' hy' h h' e g := ScaleBV.mulG f64_ok (by decide) j hx hy hx' hy' h h' e (f64.grid_of_norm (by rw [norm64]; exact g))
  two hx h := ScaleBV.two f64_ok (by decide) ieee64_approx.two.1 ieee64_approx.two.2 hx h
  sqrt {x x'} hx hx' h h' h0 _ e := by
    have l1 : f64.sqrt (BitVec.toNat (w := 64) x) < 2 * f64.signBit := (f64.sqrt_correct f64_ok (BitVec.isLt (w := 64) x) hx h0.le).1
    have l2 : f64.sqrt (BitVec.toNat (w := 64) x') < 2 * f64.signBit :=
      (f64.sqrt_correct f64_ok (BitVec.isLt (w := 64) x') hx' (by show 0 ≤ val64 x'; rw [e]; positivity)).1
    have := sqrt64_scale (BitVec.isLt (w := 64) x) (BitVec.isLt (w := 64) x') hx hx' (by have := f64.real_pos_ge hx h0; rwa [show f64.emin = -1074 by decide] at this) e
      (by have h : fin64 (BitVec.ofNat 64 _) := h; unfold fin64 at h; rwa [toNat64 l1] at h)
      (by have h : fin64 (BitVec.ofNat 64 _) := h'; unfold fin64 at h; rwa [toNat64 l2] at h)
    show val64 (BitVec.ofNat 64 _) = 2 ^ 1 * val64 (BitVec.ofNat 64 _)
    unfold val64
    rw [toNat64 l1, toNat64 l2]
    exact this
  div hx hy hx' hy' y0 y0' h h' e := ScaleBV.div f64_ok (by decide) hx hy hx' hy' y0 y0' h h' e
  sub {t t'} h h' e := congrArg (BitVec.ofNat 64) (Fmt.same_sub f64_ok ieee64_approx.two.1 (by rw [show f64.real _ = 2 from ieee64_approx.two.2]; norm_num)
    (BitVec.isLt (w := 64) t) (BitVec.isLt (w := 64) t') h h' e)
  finSub h := ScaleBV.finSub (F := f64) (w := 64) f64_ok (by decide) h

theorem Ieee.sqrt32_scale {x x' : Nat} (hx : f32.Finite x) (hx' : f32.Finite x') (h0 : 0 < f32.real x) (hM : f32.real x' ≤ 2 ^ 127) (h : f32.real x' = 2 ^ 2 * f32.real x)
    (f : f32.Finite (conv f64 f32 (f64.sqrt (conv f32 f64 x)))) (f' : f32.Finite (conv f64 f32 (f64.sqrt (conv f32 f64 x')))) :
    f32.real (conv f64 f32 (f64.sqrt (conv f32 f64 x'))) = 2 ^ 1 * f32.real (conv f64 f32 (f64.sqrt (conv f32 f64 x))) := by
  obtain ⟨u1, u2⟩ := conv_up hx
  obtain ⟨u1', u2'⟩ := conv_up hx'
  have hge := f32.real_pos_ge hx h0
  rw [show f32.emin = -149 by decide] at hge
  have fin : ∀ {y : Nat}, y < 2 * f64.signBit → f64.Finite y → 0 ≤ f64.real y → f64.real y ≤ 2 ^ 127 →
      f64.Finite (f64.sqrt y) ∧ |f64.real (f64.sqrt y) - Real.sqrt (f64.real y)| ≤ 2 ^ (-53 : Int) * |Real.sqrt (f64.real y)| + 2 ^ (-1074 : Int) / 2 := by
    intro y hl hf hy hM
    refine near64 (f64.sqrt_correct f64_ok hl hf hy) ?_
    rw [abs_of_nonneg (Real.sqrt_nonneg _)]
    have h1 := sqrt_le_half hy
    have h2 : (2 : ℝ) ^ 127 ≤ 2 ^ 1000 := pow_le_pow_right₀ (by norm_num) (by norm_num)
    have h3 : (1 : ℝ) ≤ 2 ^ 127 := one_le_pow₀ (by norm_num)
    generalize (2 : ℝ) ^ 1000 = A at *
    generalize (2 : ℝ) ^ 127 = B at *
    linarith
  obtain ⟨g1, n1⟩ := fin (conv_lt f64_ok _) u1 (by rw [u2]; exact h0.le) (by rw [u2]; rw [h] at hM; linarith)
  obtain ⟨g1', -⟩ := fin (conv_lt f64_ok _) u1' (by rw [u2', h]; positivity) (by rw [u2']; exact hM)
  have tiny : (2 : ℝ) ^ (-1074 : Int) ≤ 2 ^ (-149 : Int) := zpow_le_zpow_right₀ (by norm_num) (by norm_num)
  have hs := sqrt64_scale (conv_lt f64_ok _) (conv_lt f64_ok _) u1 u1' (by rw [u2]; exact tiny.trans hge) (by rw [u2, u2']; exact h) g1 g1'
  refine (conv_correct f32_ok g1).scale f32_ok 1 (conv_correct f32_ok g1') hs f f' (Or.inl ?_)
  rw [norm32]
  rw [u2] at n1
  have hr := sqrt_ge (e := -75) (a := f32.real x) (le_trans (by norm_num) hge)
  rw [abs_of_nonneg (Real.sqrt_nonneg _)] at n1
  have h1 := (abs_le.1 n1).1
  refine le_trans ?_ (le_abs_self _)
  have c1 : (2 : ℝ) ^ (-53 : Int) * Real.sqrt (f32.real x) ≤ 1 / 4 * Real.sqrt (f32.real x) := mul_le_mul_of_nonneg_right (by norm_num) (Real.sqrt_nonneg _)
  have c2 : (2 : ℝ) ^ (-126 : Int) + 2 ^ (-149 : Int) ≤ 1 / 2 * 2 ^ (-75 : Int) := by norm_num
  have c3 := two_zpow_pos (-1074)
  have c4 := two_zpow_pos (-126)
  have c5 := two_zpow_pos (-75)
  clear fin hM
  generalize (2 : ℝ) ^ (-1074 : Int) = A at *
  generalize (2 : ℝ) ^ (-149 : Int) = A1 at *
  generalize (2 : ℝ) ^ (-126 : Int) = A2 at *
  generalize (2 : ℝ) ^ (-75 : Int) = A3 at *
  generalize (2 : ℝ) ^ (-53 : Int) * Real.sqrt (f32.real x) = A4 at *
  linarith

theorem ieee32_shifts : Shifts ieee32 val32 fin32 (2 ^ (-126 : Int)) (2 ^ 127) where
  add j _ _ _ _ hx hy hx' hy' h h' ex ey := ScaleBV.add f32_ok (by decide) j hx hy hx' hy' h h' ex ey
  finAdd h := ScaleBV.finAdd (F := f32) (w := 32) f32_ok (by decide) h
  mul j _ _ _ _ hx hy hx' hy' h h' e g := ScaleBV.mulG f32_ok (by decide) j hx hy hx' hy' h h' e (f32.grid_of_norm (by rw [norm32]; exact g))
  two hx h := ScaleBV.two f32_ok (by decide) ieee32_approx.two.1 ieee32_approx.two.2 hx h
  sqrt {x x'} hx hx' h h' h0 hM e := by
    have := sqrt32_scale hx hx' h0 hM e
      (by have h : fin32 (BitVec.ofNat 32 _) := h; unfold fin32 at h; rwa [toNat32 (conv_lt f32_ok _)] at h)
      (by have h : fin32 (BitVec.ofNat 32 _) := h'; unfold fin32 at h; rwa [toNat32 (conv_lt f32_ok _)] at h)
    show val32 (BitVec.ofNat 32 _) = 2 ^ 1 * val32 (BitVec.ofNat 32 _)
    unfold val32
    rw [toNat32 (conv_lt f32_ok _), toNat32 (conv_lt f32_ok _)]
    exact this
  div hx hy hx' hy' y0 y0' h h' e := ScaleBV.div f32_ok (by decide) hx hy hx' hy' y0 y0' h h' e
  sub {t t'} h h' e := congrArg (BitVec.ofNat 32) (Fmt.same_sub f32_ok ieee32_approx.two.1 (by rw [show f32.real _ = 2 from ieee32_approx.two.2]; norm_num)
    (BitVec.isLt (w := 32) t) (BitVec.isLt (w := 32) t') h h' e)
  finSub h := ScaleBV.finSub (F := f32) (w := 32) f32_ok (by decide) h
end Annoy
