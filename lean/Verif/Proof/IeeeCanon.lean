import Verif.Proof.IeeeSqrt
import Verif.Model.Ieee
/-!
# Values that comparisons cannot tell apart

Two patterns are alike if they are equal, both zeros, or both NaN.  The operations of the search loop respect this.
-/
namespace Annoy
namespace Ieee
variable {F G : Fmt} {x x' y y' z : Nat}

/-- Equal, both zeros, or both NaN. -/
def Fmt.Alike (F : Fmt) (x y : Nat) : Prop :=
  (F.isNaN x = true ∧ F.isNaN y = true) ∨ (F.mag x = 0 ∧ F.mag y = 0) ∨ x = y

theorem Fmt.zero_not_nan (h : F.mag x = 0) : F.isNaN x = false := by simp [isNaN, h]

theorem Fmt.Alike.nan (h : F.Alike x y) : F.isNaN x = F.isNaN y := by
  rcases h with ⟨h1, h2⟩ | ⟨h1, h2⟩ | rfl
  · rw [h1, h2]
  · rw [zero_not_nan h1, zero_not_nan h2]
  · rfl

theorem Fmt.Alike.zero (h : F.Alike x y) : F.mag x = 0 ↔ F.mag y = 0 := by
  rcases h with ⟨h1, h2⟩ | ⟨h1, h2⟩ | rfl
  · have a : F.mag x ≠ 0 := fun h => by rw [zero_not_nan h] at h1; simp at h1
    have b : F.mag y ≠ 0 := fun h => by rw [zero_not_nan h] at h2; simp at h2
    simp [a, b]
  · simp [h1, h2]
  · rfl

theorem Fmt.Alike.key (h : F.Alike x y) (hn : F.isNaN x = false) : F.key x = F.key y := by
  rcases h with ⟨h1, h2⟩ | ⟨h1, h2⟩ | rfl
  · rw [hn] at h1; simp at h1
  · unfold Fmt.key; simp [h1, h2]
  · rfl

theorem Fmt.Alike.symm (h : F.Alike x y) : F.Alike y x := by
  rcases h with ⟨h1, h2⟩ | ⟨h1, h2⟩ | rfl
  · exact Or.inl ⟨h2, h1⟩
  · exact Or.inr (Or.inl ⟨h2, h1⟩)
  · exact Or.inr (Or.inr rfl)

theorem Fmt.Alike.refl (F : Fmt) (x : Nat) : F.Alike x x := Or.inr (Or.inr rfl)

theorem Fmt.Alike.trans (h : F.Alike x y) (h' : F.Alike y z) : F.Alike x z := by
  rcases h with ⟨h1, h2⟩ | ⟨h1, h2⟩ | rfl
  · exact Or.inl ⟨h1, h'.nan ▸ h2⟩
  · exact Or.inr (Or.inl ⟨h1, h'.zero.1 h2⟩)
  · exact h'

theorem Fmt.Alike.lt (h : F.Alike x x') (h' : F.Alike y y') : F.lt x y = F.lt x' y' := by
  unfold Fmt.lt
  rw [h.nan, h'.nan]
  cases hx : F.isNaN x' with
  | true => rfl
  | false =>
    cases hy : F.isNaN y' with
    | true => rfl
    | false => rw [h.key (h.nan.trans hx), h'.key (h'.nan.trans hy)]

theorem Fmt.Alike.eq (h : F.Alike x x') (h' : F.Alike y y') : F.eq x y = F.eq x' y' := by
  unfold Fmt.eq
  rw [h.nan, h'.nan]
  cases hx : F.isNaN x' with
  | true => rfl
  | false =>
    cases hy : F.isNaN y' with
    | true => rfl
    | false => rw [h.key (h.nan.trans hx), h'.key (h'.nan.trans hy)]

/-- Alike to an infinity is equal to it. -/
theorem Fmt.Alike.inf (hF : F.Ok) (b : Bool) (h : F.Alike x y) : x = F.signed b F.infBits ↔ y = F.signed b F.infBits := by
  have key : ∀ {x y}, F.Alike x y → x = F.signed b F.infBits → y = F.signed b F.infBits := by
    intro x y h e
    subst e
    rcases h with ⟨h1, _⟩ | ⟨h1, _⟩ | rfl
    · rw [isNaN_signed le_rfl] at h1; simp at h1
    · rw [mag_signed F.infBits_lt] at h1
      exact absurd h1 (F.infBits_pos hF).ne'
    · rfl
  exact ⟨key h, key h.symm⟩

theorem Fmt.Alike.min (hF : F.Ok) (h : F.Alike x x') (h' : F.Alike y y') : F.Alike (F.min x y) (F.min x' y') := by
  unfold Fmt.min
  simp only [h.inf hF true, h'.inf hF true, h.nan, h'.nan, h.zero, h'.zero, h.lt h']
  split
  · exact .refl _ _
  · split
    · exact .refl _ _
    · split
      · rename_i hz
        refine Or.inr (Or.inl ⟨?_, ?_⟩)
        · split
          · exact h.zero.2 hz.1
          · exact h'.zero.2 hz.2
        · split
          · exact hz.1
          · exact hz.2
      · split
        · exact h
        · exact h'

theorem Fmt.mag_neg (F : Fmt) (x : Nat) : F.mag (F.neg x) = F.mag x := by
  unfold neg
  split
  · exact Nat.mod_eq_of_lt (F.mag_lt x)
  · unfold mag; simp

theorem Fmt.Alike.neg (h : F.Alike x y) : F.Alike (F.neg x) (F.neg y) := by
  rcases h with ⟨h1, h2⟩ | ⟨h1, h2⟩ | rfl
  · exact Or.inl (by unfold isNaN at *; rw [mag_neg, mag_neg]; exact ⟨h1, h2⟩)
  · exact Or.inr (Or.inl (by rw [mag_neg, mag_neg]; exact ⟨h1, h2⟩))
  · exact .refl _ _

theorem conv_zero (hF : F.Ok) (h : F.mag x = 0) : G.mag (conv F G x) = 0 := by
  unfold conv
  rw [F.decode_zero hF h]
  show G.mag (G.encode _ 0 _) = 0
  rw [G.encode_zero, Fmt.mag_signed (Nat.two_pow_pos _)]

theorem Fmt.Alike.conv (hF : F.Ok) (hG : G.Ok) (h : F.Alike x y) : G.Alike (conv F G x) (Ieee.conv F G y) := by
  rcases h with ⟨h1, h2⟩ | ⟨h1, h2⟩ | rfl
  · exact Or.inl (by rw [conv_nan hG, conv_nan hG]; exact ⟨h1, h2⟩)
  · exact Or.inr (Or.inl ⟨conv_zero hF h1, conv_zero hF h2⟩)
  · exact .refl _ _

theorem Fmt.decode_nan (h : F.isNaN x = true) : F.decode x = .nan := by
  rcases F.decode_cases x with ⟨_, h2⟩ | ⟨h1, _⟩ | ⟨h1, _⟩
  · exact h2
  · rw [isNaN, h1] at h; simp at h
  · rw [isNaN] at h; simp at h; omega

/-- Adding a zero. -/
theorem Fmt.Alike.add_zero (hF : F.Ok) (hx : x < 2 * F.signBit) (hz : F.mag z = 0) : F.Alike (F.add x z) x := by
  rcases F.decode_cases x with ⟨h1, h2⟩ | ⟨h1, h2⟩ | ⟨h1, m, e, h2, h3, h4⟩
  · refine Or.inl ⟨?_, h1⟩
    unfold Fmt.add
    rw [h2]
    exact isNaN_nan hF
  · refine Or.inr (Or.inr ?_)
    unfold Fmt.add
    rw [h2, F.decode_zero hF hz]
    dsimp only
    rw [← h1, F.signed_mag hx]
  · by_cases h0 : F.mag x = 0
    · refine Or.inr (Or.inl ⟨?_, h0⟩)
      rw [F.zero_add_zero hF h0 hz, mag_signed (Nat.two_pow_pos _)]
    · exact Or.inr (Or.inr (F.add_zero hF hx (by omega) h1 hz))

/-- Adding alike values. -/
theorem Fmt.Alike.add (hF : F.Ok) (hy : y < 2 * F.signBit) (h : F.Alike x x') : F.Alike (F.add x y) (F.add x' y) := by
  rcases h with ⟨h1, h2⟩ | ⟨h1, h2⟩ | rfl
  · unfold Fmt.add
    rw [decode_nan h1, decode_nan h2]
    exact .refl _ _
  · rcases F.decode_cases y with ⟨k1, k2⟩ | ⟨k1, k2⟩ | ⟨k1, _⟩
    · unfold Fmt.add
      rw [F.decode_zero hF h1, F.decode_zero hF h2, k2]
      exact .refl _ _
    · unfold Fmt.add
      rw [F.decode_zero hF h1, F.decode_zero hF h2, k2]
      exact .refl _ _
    · by_cases h0 : F.mag y = 0
      · refine Or.inr (Or.inl ⟨?_, ?_⟩)
        · rw [F.zero_add_zero hF h1 h0, mag_signed (Nat.two_pow_pos _)]
        · rw [F.zero_add_zero hF h2 h0, mag_signed (Nat.two_pow_pos _)]
      · rw [F.zero_add hF hy (by omega) k1 h1, F.zero_add hF hy (by omega) k1 h2]
        exact .refl _ _
  · exact .refl _ _

/-- One representative for each class. -/
def Fmt.canon (F : Fmt) (x : Nat) : Nat := if F.isNaN x then F.nanBits else if F.mag x = 0 then 0 else x

theorem Fmt.canon_alike (hF : F.Ok) (x : Nat) : F.Alike (F.canon x) x := by
  unfold canon
  split
  · rename_i h; exact Or.inl ⟨isNaN_nan hF, h⟩
  · split
    · rename_i h; exact Or.inr (Or.inl ⟨by simp [mag], h⟩)
    · exact .refl _ _

theorem Fmt.canon_eq (hF : F.Ok) : F.canon x = F.canon y ↔ F.Alike x y := by
  constructor
  · intro h
    exact (canon_alike hF x).symm.trans (h ▸ canon_alike hF y)
  · intro h
    unfold canon
    simp only [h.nan, h.zero]
    split
    · rfl
    · split
      · rfl
      · rename_i h1 h2
        rcases h with ⟨_, k⟩ | ⟨_, k⟩ | k
        · exact absurd k h1
        · exact absurd k h2
        · exact k

theorem Fmt.canon_lt (hF : F.Ok) (hx : x < 2 * F.signBit) : F.canon x < 2 * F.signBit := by
  have := F.nanBits_lt hF
  unfold canon
  split
  · omega
  · split <;> omega

end Ieee

/-- A choice of representatives for values that comparisons cannot tell apart, respected by the operations of the
search loop; `fin` are the finite values. -/
structure Num.Canon (N : Num) where
  can : N.V → N.V
  fin : N.V → Prop
  zero : can N.zero = N.zero
  lt : ∀ x y, N.lt (can x) (can y) = N.lt x y
  eq : ∀ x y, N.eq (can x) (can y) = N.eq x y
  min : ∀ {x x' y y'}, can x = can x' → can y = can y' → can (N.min x y) = can (N.min x' y')
  neg : ∀ {x x'}, can x = can x' → can (N.neg x) = can (N.neg x')
  add : ∀ {x x'} (y), can x = can x' → can (N.add x y) = can (N.add x' y)
  add_zero : ∀ x {z}, can z = N.zero → can (N.add x z) = can x
  mul_zero : ∀ {y}, fin y → can (N.mul N.zero y) = N.zero

open Ieee

namespace CanonBV
variable {w : Nat} {F : Fmt} (hF : F.Ok) (hw : 2 ^ w = 2 * F.signBit)

def can (F : Fmt) (x : BitVec w) : BitVec w := .ofNat w (F.canon x.toNat)

include hF hw

theorem toNat_can (x : BitVec w) : (can F x).toNat = F.canon x.toNat := by
  unfold can
  rw [BitVec.toNat_ofNat, Nat.mod_eq_of_lt]
  rw [hw]
  exact Fmt.canon_lt hF (hw ▸ x.isLt)

theorem can_iff {x y : BitVec w} : can F x = can F y ↔ F.Alike x.toNat y.toNat := by
  rw [← Fmt.canon_eq hF, ← toNat_can hF hw, ← toNat_can hF hw]
  exact ⟨congrArg _, BitVec.eq_of_toNat_eq⟩

theorem alike_can (x : BitVec w) : F.Alike (can F x).toNat x.toNat := by
  rw [toNat_can hF hw]; exact Fmt.canon_alike hF _

theorem can_zero_iff {x : BitVec w} : can F x = 0 ↔ F.mag x.toNat = 0 := by
  have e : can F (0 : BitVec w) = 0 := by
    unfold can Fmt.canon
    simp [Fmt.isNaN, Fmt.mag]
  rw [← e, can_iff hF hw]
  constructor
  · intro h; exact h.zero.2 (by simp [Fmt.mag])
  · intro h; exact Or.inr (Or.inl ⟨h, by simp [Fmt.mag]⟩)

end CanonBV

private theorem ofNat_toNat {F : Fmt} {w : Nat} (hw : 2 ^ w = 2 * F.signBit) {n : Nat} (h : n < 2 * F.signBit) :
    (BitVec.ofNat w n).toNat = n := by rw [BitVec.toNat_ofNat, hw, Nat.mod_eq_of_lt h]

theorem Ieee.Fmt.neg_lt (F : Fmt) (x : Nat) : F.neg x < 2 * F.signBit := by
  have := F.mag_lt x
  unfold Fmt.neg
  split <;> omega

theorem Ieee.Fmt.ofFl_lt {F : Fmt} (hF : F.Ok) (v : Fl) : F.ofFl v < 2 * F.signBit := by
  have := F.nanBits_lt hF
  have := F.infBits_lt
  cases v with
  | nan => show F.nanBits < _; omega
  | inf b => exact Fmt.signed_lt F.infBits_lt
  | fin b m e => exact Fmt.encode_lt _ _ _ _

theorem Ieee.Fmt.add_lt {F : Fmt} (hF : F.Ok) (x y : Nat) : F.add x y < 2 * F.signBit := by
  have := F.nanBits_lt hF
  have h2 : ∀ b, F.signed b F.infBits < 2 * F.signBit := fun b => Fmt.signed_lt F.infBits_lt
  unfold Fmt.add
  split
  · omega
  · omega
  · split
    · exact h2 _
    · omega
  · exact h2 _
  · exact h2 _
  · exact Fmt.ofFl_lt hF _

theorem Ieee.Fmt.min_lt {F : Fmt} (hF : F.Ok) {x y : Nat} (hx : x < 2 * F.signBit) (hy : y < 2 * F.signBit) :
    F.min x y < 2 * F.signBit := by
  have := F.nanBits_lt hF
  have h2 : ∀ b, F.signed b F.infBits < 2 * F.signBit := fun b => Fmt.signed_lt F.infBits_lt
  unfold Fmt.min
  split
  · exact h2 _
  · split
    · omega
    · split
      · split <;> assumption
      · split <;> assumption

section
open CanonBV
variable {F : Fmt} {w : Nat}

/-- Laws of the operations on bit patterns of any width. -/
theorem CanonBV.lt (hF : F.Ok) (hw : 2 ^ w = 2 * F.signBit) (x y : BitVec w) :
    F.lt (can F x).toNat (can F y).toNat = F.lt x.toNat y.toNat := (alike_can hF hw x).lt (alike_can hF hw y)

theorem CanonBV.eq (hF : F.Ok) (hw : 2 ^ w = 2 * F.signBit) (x y : BitVec w) :
    F.eq (can F x).toNat (can F y).toNat = F.eq x.toNat y.toNat := (alike_can hF hw x).eq (alike_can hF hw y)

theorem CanonBV.neg (hF : F.Ok) (hw : 2 ^ w = 2 * F.signBit) {x x' : BitVec w} (h : can F x = can F x') :
    can F (BitVec.ofNat w (F.neg x.toNat)) = can F (BitVec.ofNat w (F.neg x'.toNat)) := by
  rw [can_iff hF hw] at h ⊢
  rw [ofNat_toNat hw (F.neg_lt _), ofNat_toNat hw (F.neg_lt _)]
  exact h.neg

theorem CanonBV.add (hF : F.Ok) (hw : 2 ^ w = 2 * F.signBit) {x x' : BitVec w} (y : BitVec w) (h : can F x = can F x') :
    can F (BitVec.ofNat w (F.add x.toNat y.toNat)) = can F (BitVec.ofNat w (F.add x'.toNat y.toNat)) := by
  rw [can_iff hF hw] at h ⊢
  rw [ofNat_toNat hw (Fmt.add_lt hF _ _), ofNat_toNat hw (Fmt.add_lt hF _ _)]
  exact h.add hF (hw ▸ y.isLt)

theorem CanonBV.add_zero (hF : F.Ok) (hw : 2 ^ w = 2 * F.signBit) (x : BitVec w) {z : BitVec w} (h : can F z = 0) :
    can F (BitVec.ofNat w (F.add x.toNat z.toNat)) = can F x := by
  rw [can_zero_iff hF hw] at h
  rw [can_iff hF hw, ofNat_toNat hw (Fmt.add_lt hF _ _)]
  exact .add_zero hF (hw ▸ x.isLt) h

theorem CanonBV.mul_zero (hF : F.Ok) (hw : 2 ^ w = 2 * F.signBit) {y : BitVec w} (h : F.mag y.toNat < F.infBits) :
    can F (BitVec.ofNat w (F.mul (0 : BitVec w).toNat y.toNat)) = 0 := by
  rw [can_zero_iff hF hw, ofNat_toNat hw (F.mul_lt hF _ _), F.zero_mul hF h (by simp [Fmt.mag]),
    Fmt.mag_signed (Nat.two_pow_pos _)]

theorem CanonBV.min (hF : F.Ok) (hw : 2 ^ w = 2 * F.signBit) {x x' y y' : BitVec w} (h : can F x = can F x')
    (h' : can F y = can F y') :
    can F (BitVec.ofNat w (F.min x.toNat y.toNat)) = can F (BitVec.ofNat w (F.min x'.toNat y'.toNat)) := by
  have b := fun z : BitVec w => (show z.toNat < 2 * F.signBit from hw ▸ z.isLt)
  rw [can_iff hF hw] at h h' ⊢
  rw [ofNat_toNat hw (Fmt.min_lt hF (b _) (b _)), ofNat_toNat hw (Fmt.min_lt hF (b _) (b _))]
  exact h.min hF h'

end

/-- `float32`. -/
def canon32 : ieee32.Canon where
  can := CanonBV.can f32
  fin x := f32.mag (BitVec.toNat x) < f32.infBits
  zero := (CanonBV.can_zero_iff (w := 32) f32_ok rfl).2 (by decide)
  lt := CanonBV.lt f32_ok rfl
  eq := CanonBV.eq f32_ok rfl
  min := by
    intro x x' y y' h h'
    have h1 := (CanonBV.can_iff (w := 32) f32_ok rfl).1 h
    have h2 := (CanonBV.can_iff (w := 32) f32_ok rfl).1 h'
    refine (CanonBV.can_iff (w := 32) f32_ok rfl).2 ?_
    show f32.Alike (BitVec.ofNat 32 _).toNat (BitVec.ofNat 32 _).toNat
    rw [ofNat_toNat (F := f32) rfl (conv_lt f32_ok _), ofNat_toNat (F := f32) rfl (conv_lt f32_ok _)]
    exact ((h1.conv f32_ok f64_ok).min f64_ok (h2.conv f32_ok f64_ok)).conv f64_ok f32_ok
  neg := CanonBV.neg f32_ok rfl
  add := CanonBV.add f32_ok rfl
  add_zero := CanonBV.add_zero f32_ok rfl
  mul_zero := CanonBV.mul_zero f32_ok rfl

/-- `float64`. -/
def canon64 : ieee64.Canon where
  can := CanonBV.can f64
  fin x := f64.mag (BitVec.toNat x) < f64.infBits
  zero := (CanonBV.can_zero_iff (w := 64) f64_ok rfl).2 (by decide)
  lt := CanonBV.lt f64_ok rfl
  eq := CanonBV.eq f64_ok rfl
  min := CanonBV.min f64_ok rfl
  neg := CanonBV.neg f64_ok rfl
  add := CanonBV.add f64_ok rfl
  add_zero := CanonBV.add_zero f64_ok rfl
  mul_zero := CanonBV.mul_zero f64_ok rfl

end Annoy
