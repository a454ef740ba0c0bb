import Verif.Proof.IeeeCanon
import Verif.Proof.IeeeCorrect
import Verif.Proof.IeeeConv
/-!
# Signs in IEEE arithmetic

Rounding to nearest even is symmetric: flipping signs of operands flips the sign of the result and nothing else.
-/
namespace Annoy
namespace Ieee
variable {F : Fmt} {x y : Nat}

/-- The opposite of a decoded value. -/
def Fl.flip : Fl → Fl
  | .nan => .nan
  | .inf b => .inf (!b)
  | .fin b m e => .fin (!b) m e

theorem Fmt.decode_neg (F : Fmt) (x : Nat) : F.decode (F.neg x) = (F.decode x).flip := by
  unfold decode
  rw [F.mag_neg', F.isNeg_neg]
  dsimp only
  split
  · split <;> rfl
  · split <;> rfl

/-- Both signs flipped: the same product, bit for bit. -/
theorem Fmt.mul_neg_neg (F : Fmt) (x y : Nat) : F.mul (F.neg x) (F.neg y) = F.mul x y := by
  unfold mul
  rw [F.decode_neg, F.decode_neg]
  have hb : ∀ a b : Bool, ((!a) != !b) = (a != b) := by decide
  cases F.decode x <;> cases F.decode y <;> simp [Fl.flip, hb]

theorem Fmt.neg_signed (F : Fmt) {b : Bool} {m : Nat} (hm : m < F.signBit) : F.neg (F.signed b m) = F.signed (!b) m := by
  unfold neg signed isNeg mag
  cases b
  · simp [Nat.mod_eq_of_lt hm, Nat.not_le.2 hm]
  · simp [Nat.mod_eq_of_lt hm]

theorem Fmt.neg_encode (F : Fmt) (b : Bool) (m : Nat) (e : Int) (s : Bool) : F.neg (F.encode b m e s) = F.encode (!b) m e s :=
  F.neg_signed (Nat.lt_of_le_of_lt (F.roundMag_le m e s) F.infBits_lt)

theorem Fmt.alike_nan_neg (hF : F.Ok) : F.Alike F.nanBits (F.neg F.nanBits) :=
  Or.inl ⟨isNaN_nan hF, by unfold isNaN; rw [F.mag_neg']; exact isNaN_nan hF⟩

theorem Fmt.alike_signed (F : Fmt) {b : Bool} {m : Nat} (hm : m < F.signBit) {a : Bool} (h : a = !b) : F.Alike (F.signed a m) (F.neg (F.signed b m)) := by
  subst h
  rw [F.neg_signed hm]
  exact .refl _ _

theorem Fmt.alike_encode (F : Fmt) (b : Bool) (m : Nat) (e : Int) (s : Bool) {a : Bool} (h : a = !b) : F.Alike (F.encode a m e s) (F.neg (F.encode b m e s)) := by
  subst h
  rw [F.neg_encode]
  exact .refl _ _

/-- One sign flipped in a product. -/
theorem Fmt.mul_neg (hF : F.Ok) (x y : Nat) : F.Alike (F.mul x (F.neg y)) (F.neg (F.mul x y)) := by
  unfold mul
  rw [F.decode_neg]
  have hb : ∀ a b : Bool, (a != !b) = !(a != b) := by decide
  have hb' : ∀ a b : Bool, ((!a) != b) = !(a != b) := by decide
  cases F.decode x with
  | nan => cases F.decode y <;> exact alike_nan_neg hF
  | inf a =>
    cases F.decode y with
    | nan => exact alike_nan_neg hF
    | inf b => exact F.alike_signed F.infBits_lt (hb a b)
    | fin b m e =>
      simp only [Fl.flip]
      split
      · exact alike_nan_neg hF
      · exact F.alike_signed F.infBits_lt (hb a b)
  | fin b m e =>
    cases F.decode y with
    | nan => exact alike_nan_neg hF
    | inf a =>
      simp only [Fl.flip]
      split
      · exact alike_nan_neg hF
      · exact F.alike_signed F.infBits_lt (hb' a b)
    | fin a m' e' => exact F.alike_encode _ _ _ _ (hb b a)

/-- The sign of a dividend flipped. -/
theorem Fmt.neg_div (hF : F.Ok) (x y : Nat) : F.Alike (F.div (F.neg x) y) (F.neg (F.div x y)) := by
  unfold div
  rw [F.decode_neg]
  have hb' : ∀ a b : Bool, ((!a) != b) = !(a != b) := by decide
  cases F.decode x with
  | nan => cases F.decode y <;> exact alike_nan_neg hF
  | inf a =>
    cases F.decode y with
    | nan => exact alike_nan_neg hF
    | inf b => exact alike_nan_neg hF
    | fin b m e => exact F.alike_signed F.infBits_lt (hb' a b)
  | fin b m e =>
    cases F.decode y with
    | nan => exact alike_nan_neg hF
    | inf a => exact F.alike_signed (Nat.two_pow_pos _) (hb' b a)
    | fin a m' e' =>
      simp only [Fl.flip]
      split
      · split
        · exact alike_nan_neg hF
        · exact F.alike_signed F.infBits_lt (hb' b a)
      · exact F.alike_encode _ _ _ _ (hb' b a)

/-- Both signs flipped in a sum. -/
theorem Fmt.neg_add_neg (hF : F.Ok) (x y : Nat) : F.Alike (F.add (F.neg x) (F.neg y)) (F.neg (F.add x y)) := by
  unfold add
  rw [F.decode_neg, F.decode_neg]
  cases F.decode x with
  | nan => cases F.decode y <;> exact alike_nan_neg hF
  | inf a =>
    cases F.decode y with
    | nan => exact alike_nan_neg hF
    | inf b =>
      simp only [Fl.flip, Bool.not_inj_iff]
      split
      · exact F.alike_signed F.infBits_lt rfl
      · exact alike_nan_neg hF
    | fin b m e => exact F.alike_signed F.infBits_lt rfl
  | fin b m e =>
    cases F.decode y with
    | nan => exact alike_nan_neg hF
    | inf a => exact F.alike_signed F.infBits_lt rfl
    | fin a m' e' =>
      simp only [Fl.flip]
      have key : ∀ s s' : Int, s' = -s → ∀ (c c' : Bool) (e : Int), F.Alike
          (F.ofFl (if s' = 0 then .fin c' 0 e else .fin (decide (s' < 0)) s'.natAbs e))
          (F.neg (F.ofFl (if s = 0 then .fin c 0 e else .fin (decide (s < 0)) s.natAbs e))) := by
        rintro s s' rfl c c' e
        by_cases h0 : s = 0
        · subst h0
          simp only [Int.neg_zero, if_true]
          refine Or.inr (Or.inl ⟨?_, ?_⟩)
          · show F.mag (F.encode c' 0 e) = 0
            rw [F.encode_zero, mag_signed (Nat.two_pow_pos _)]
          · rw [F.mag_neg']
            show F.mag (F.encode c 0 e) = 0
            rw [F.encode_zero, mag_signed (Nat.two_pow_pos _)]
        · rw [if_neg h0, if_neg (by omega), Int.natAbs_neg]
          refine F.alike_encode _ _ _ _ ?_
          rw [← decide_not, decide_eq_decide]
          omega
      unfold addFin
      exact key _ _ (by cases a <;> cases b <;> simp <;> omega) _ _ _

theorem Fmt.add_comm (F : Fmt) (x y : Nat) : F.add x y = F.add y x := by
  unfold add
  cases F.decode x with
  | nan => cases F.decode y <;> rfl
  | inf a =>
    cases F.decode y with
    | nan => rfl
    | inf b =>
      dsimp only
      by_cases h : a = b
      · subst h; rfl
      · rw [if_neg h, if_neg (Ne.symm h)]
    | fin b m e => rfl
  | fin b m e =>
    cases F.decode y with
    | nan => rfl
    | inf a => rfl
    | fin a m' e' =>
      dsimp only [addFin]
      rw [Int.min_comm, Bool.and_comm, Int.add_comm (if b = true then _ else _)]

/-- Sums of alike values. -/
theorem Fmt.Alike.add_both (hF : F.Ok) {x' y' : Nat} (hx : x' < 2 * F.signBit) (hy : y < 2 * F.signBit) (h : F.Alike x x') (h' : F.Alike y y') :
    F.Alike (F.add x y) (F.add x' y') :=
  (h.add hF hy).trans (by rw [F.add_comm x' y, F.add_comm x' y']; exact h'.add hF hx)

theorem Fmt.Alike.eq_of (h : F.Alike x y) (h1 : F.isNaN y = false) (h2 : F.mag y ≠ 0) : x = y := by
  rcases h with ⟨_, h⟩ | ⟨_, h⟩ | h
  · rw [h1] at h; cases h
  · exact absurd h h2
  · exact h

theorem Fmt.div_lt (F : Fmt) (hF : F.Ok) (x y : Nat) : F.div x y < 2 * F.signBit := by
  have h1 := F.nanBits_lt hF
  have h2 : ∀ b, F.signed b F.infBits < 2 * F.signBit := fun b => signed_lt F.infBits_lt
  unfold div
  split
  · omega
  · omega
  · omega
  · exact h2 _
  · exact signed_lt (Nat.two_pow_pos _)
  · split
    · split
      · omega
      · exact h2 _
    · exact encode_lt _ _ _ _

/-- A quotient is NaN or zero if the dividend is. -/
theorem Fmt.div_trivial (hF : F.Ok) (h : F.isNaN x = true ∨ F.mag x = 0) (y : Nat) : F.isNaN (F.div x y) = true ∨ F.mag (F.div x y) = 0 := by
  unfold div
  rcases h with h | h
  · rw [decode_nan h]
    left
    cases F.decode y <;> exact isNaN_nan hF
  · rw [F.decode_zero hF h]
    cases F.decode y with
    | nan => exact Or.inl (isNaN_nan hF)
    | inf b => exact Or.inr (mag_signed (Nat.two_pow_pos _))
    | fin b m e =>
      dsimp only
      split
      · exact Or.inl (isNaN_nan hF)
      · right
        rw [Nat.zero_mul, Nat.zero_div, Nat.zero_mod]
        show F.mag (F.encode _ 0 _ false) = 0
        rw [F.encode_zero, mag_signed (Nat.two_pow_pos _)]

/-- The quotient of the opposite product. -/
theorem Fmt.mul_neg_div (hF : F.Ok) {t : Nat} {c : Nat} (h : F.div (F.mul c x) y = t) (h1 : F.isNaN t = false) (h2 : F.mag t ≠ 0) :
    F.div (F.mul c (F.neg x)) y = F.neg t := by
  have hm : F.mul c (F.neg x) = F.neg (F.mul c x) := by
    refine (Fmt.mul_neg hF c x).eq_of ?_ ?_
    · unfold isNaN
      rw [F.mag_neg']
      by_contra hn
      rcases Fmt.div_trivial hF (Or.inl (by unfold isNaN; simpa using hn)) y with h3 | h3
      · rw [h, h1] at h3; cases h3
      · rw [h] at h3; exact h2 h3
    · rw [F.mag_neg']
      intro hz
      rcases Fmt.div_trivial hF (Or.inr hz) y with h3 | h3
      · rw [h, h1] at h3; cases h3
      · rw [h] at h3; exact h2 h3
  rw [hm, ← h]
  refine (Fmt.neg_div hF _ y).eq_of ?_ ?_
  · unfold isNaN
    rw [F.mag_neg', h]
    exact h1
  · rw [F.mag_neg', h]
    exact h2

namespace MirrorBV
variable {w : Nat}

theorem toNat_of (hw : 2 ^ w = 2 * F.signBit) {n : Nat} (h : n < 2 * F.signBit) : (BitVec.ofNat w n).toNat = n := by
  rw [BitVec.toNat_ofNat, hw, Nat.mod_eq_of_lt h]

/-- One step of the scalar product of a vector and its opposite. -/
theorem step (hF : F.Ok) (hw : 2 ^ w = 2 * F.signBit) {s s' x : BitVec w} (h : F.Alike s'.toNat (F.neg s.toNat)) :
    F.Alike (BitVec.ofNat w (F.add s'.toNat (BitVec.ofNat w (F.mul x.toNat (BitVec.ofNat w (F.neg x.toNat)).toNat)).toNat)).toNat
      (F.neg (BitVec.ofNat w (F.add s.toNat (BitVec.ofNat w (F.mul x.toNat x.toNat)).toNat)).toNat) := by
  rw [KeyBV.toNat_neg hw, toNat_of hw (F.mul_lt hF _ _), toNat_of hw (F.mul_lt hF _ _), toNat_of hw (Fmt.add_lt hF _ _), toNat_of hw (Fmt.add_lt hF _ _)]
  exact (h.add_both hF (F.neg_lt _) (F.mul_lt hF _ _) (Fmt.mul_neg hF _ _)).trans (Fmt.neg_add_neg hF _ _)

theorem mul (hw : 2 ^ w = 2 * F.signBit) (x y : BitVec w) :
    BitVec.ofNat w (F.mul (BitVec.ofNat w (F.neg x.toNat)).toNat (BitVec.ofNat w (F.neg y.toNat)).toNat) = BitVec.ofNat w (F.mul x.toNat y.toNat) := by
  rw [KeyBV.toNat_neg hw, KeyBV.toNat_neg hw, F.mul_neg_neg]

theorem real (hw : 2 ^ w = 2 * F.signBit) (x : BitVec w) : F.real (BitVec.ofNat w (F.neg x.toNat)).toNat = -F.real x.toNat := by
  rw [KeyBV.toNat_neg hw, F.real_neg]

theorem finite (hw : 2 ^ w = 2 * F.signBit) (x : BitVec w) (h : F.Finite x.toNat) : F.Finite (BitVec.ofNat w (F.neg x.toNat)).toNat := by
  rw [KeyBV.toNat_neg hw]
  exact h.neg

theorem quotient (hF : F.Ok) (hw : 2 ^ w = 2 * F.signBit) {c p p' t : BitVec w} (hp : p'.toNat = F.neg p.toNat)
    (h : BitVec.ofNat w (F.div (BitVec.ofNat w (F.mul c.toNat p.toNat)).toNat p.toNat) = t) (h1 : F.isNaN t.toNat = false) (h2 : F.mag t.toNat ≠ 0)
    (hd : F.div (BitVec.ofNat w (F.mul c.toNat p.toNat)).toNat p.toNat < 2 * F.signBit) :
    BitVec.ofNat w (F.div (BitVec.ofNat w (F.mul c.toNat p'.toNat)).toNat p.toNat) = BitVec.ofNat w (F.neg t.toNat) := by
  have h' := congrArg BitVec.toNat h
  rw [toNat_of hw hd] at h'
  rw [toNat_of hw (F.mul_lt hF _ _)] at h' ⊢
  rw [hp, Fmt.mul_neg_div hF h' h1 h2]

end MirrorBV
end Ieee
end Annoy
