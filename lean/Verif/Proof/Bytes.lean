import Verif.Model.Bytes
import Mathlib.Tactic.Ring
import Mathlib.Tactic.Linarith
/-!
Lemmas about byte memory: read after write, frame properties, little-endian words.
-/
namespace Annoy

@[simp] theorem leBytes_length (k n : Nat) : (leBytes k n).length = k := by
  induction k generalizing n with
  | zero => rfl
  | succ k ih => simp [leBytes, ih]

theorem ofLE_leBytes (k n : Nat) : ofLE (leBytes k n) = n % 2 ^ (8 * k) := by
  induction k generalizing n with
  | zero => simp [leBytes, ofLE, Nat.mod_one]
  | succ k ih =>
    simp only [leBytes, ofLE, ih]
    have h1 : (UInt8.ofNat (n % 256)).toNat = n % 256 := by
      simp
    rw [h1]
    have h2 : 2 ^ (8 * (k + 1)) = 256 * 2 ^ (8 * k) := by
      rw [Nat.mul_add, Nat.pow_add]; norm_num [Nat.mul_comm]
    rw [h2, Nat.mod_mul]

theorem ofLE_lt (l : List Byte) : ofLE l < 2 ^ (8 * l.length) := by
  induction l with
  | nil => simp [ofLE]
  | cons b bs ih =>
    have hb : b.toNat < 256 := b.toNat_lt
    have h2 : 2 ^ (8 * (b :: bs).length) = 256 * 2 ^ (8 * bs.length) := by
      rw [List.length_cons, Nat.mul_add, Nat.pow_add]; norm_num [Nat.mul_comm]
    rw [h2, ofLE]; omega

theorem leBytes_ofLE (l : List Byte) : leBytes l.length (ofLE l) = l := by
  induction l with
  | nil => rfl
  | cons b bs ih =>
    have hb : b.toNat < 256 := b.toNat_lt
    have h1 : (b.toNat + 256 * ofLE bs) % 256 = b.toNat := by omega
    have h2 : (b.toNat + 256 * ofLE bs) / 256 = ofLE bs := by omega
    simp [leBytes, ofLE, h1, h2, ih]

@[simp] theorem readBytes_length (b : Bytes) (a k : Nat) : (readBytes b a k).length = k := by
  simp [readBytes]

theorem readBytes_getElem (b : Bytes) (a k j : Nat) (h : j < (readBytes b a k).length) :
    (readBytes b a k)[j] = b (a + j) := by simp [readBytes]

theorem readBytes_congr {b b' : Bytes} {a a' k : Nat}
    (h : ∀ j, j < k → b (a + j) = b' (a' + j)) : readBytes b a k = readBytes b' a' k := by
  unfold readBytes
  apply List.map_congr_left
  intro j hj
  exact h j (List.mem_range.1 hj)

theorem readBytes_ext {b b' : Bytes} {a a' k : Nat}
    (h : readBytes b a k = readBytes b' a' k) (j : Nat) (hj : j < k) : b (a + j) = b' (a' + j) := by
  have h1 : (readBytes b a k)[j]'(by simp [hj]) = (readBytes b' a' k)[j]'(by simp [hj]) := by
    simp only [h]
  simpa [readBytes_getElem] using h1

theorem writeBytes_apply (b : Bytes) (a : Nat) (l : List Byte) (x : Nat) :
    writeBytes b a l x = if a ≤ x ∧ x < a + l.length then l.getD (x - a) 0 else b x := rfl

@[simp] theorem zeros_apply (x : Nat) : zeros x = 0 := rfl

theorem writeBytes_outside (b : Bytes) (a : Nat) (l : List Byte) (x : Nat)
    (h : x < a ∨ a + l.length ≤ x) : writeBytes b a l x = b x := by
  rw [writeBytes_apply, if_neg]; omega

theorem writeBytes_inside (b : Bytes) (a : Nat) (l : List Byte) (j : Nat) (h : j < l.length) :
    writeBytes b a l (a + j) = l[j] := by
  rw [writeBytes_apply, if_pos ⟨by omega, by omega⟩]
  simp [h]

theorem readBytes_writeBytes_same (b : Bytes) (a : Nat) (l : List Byte) :
    readBytes (writeBytes b a l) a l.length = l := by
  apply List.ext_getElem
  · simp
  · intro j h1 h2
    rw [readBytes_getElem, writeBytes_inside _ _ _ _ h2]

theorem readBytes_writeBytes_disjoint (b : Bytes) (a : Nat) (l : List Byte) (a' k : Nat)
    (h : a' + k ≤ a ∨ a + l.length ≤ a') :
    readBytes (writeBytes b a l) a' k = readBytes b a' k := by
  apply readBytes_congr
  intro j hj
  apply writeBytes_outside
  omega

/-- Reading a part of what was written. -/
theorem readBytes_writeBytes_sub (b : Bytes) (a : Nat) (l : List Byte) (o k : Nat)
    (h : o + k ≤ l.length) :
    readBytes (writeBytes b a l) (a + o) k = (l.drop o).take k := by
  apply List.ext_getElem
  · simp; omega
  · intro j h1 h2
    have hj : o + j < l.length := by simp at h1; omega
    rw [readBytes_getElem, Nat.add_assoc, writeBytes_inside _ _ _ _ hj]
    simp

theorem readBytes_sub (b : Bytes) (a k o n : Nat) (h : o + n ≤ k) :
    ((readBytes b a k).drop o).take n = readBytes b (a + o) n := by
  apply List.ext_getElem
  · simp; omega
  · intro j h1 h2
    simp [readBytes, Nat.add_assoc]

theorem readLE_writeLE_same (b : Bytes) (a k n : Nat) :
    readLE (writeLE b a k n) a k = n % 2 ^ (8 * k) := by
  unfold readLE writeLE
  have := readBytes_writeBytes_same b a (leBytes k n)
  rw [leBytes_length] at this
  rw [this, ofLE_leBytes]

theorem readLE_lt (b : Bytes) (a k : Nat) : readLE b a k < 2 ^ (8 * k) := by
  have := ofLE_lt (readBytes b a k)
  simpa [readLE] using this

theorem readLE_congr {b b' : Bytes} {a a' k : Nat}
    (h : ∀ j, j < k → b (a + j) = b' (a' + j)) : readLE b a k = readLE b' a' k := by
  unfold readLE; rw [readBytes_congr h]

/-- The number left when only the first `f` bytes are kept. -/
theorem ofLE_cut (f : Nat) (l : List Byte) : ∀ l' : List Byte, l'.length = l.length →
    (∀ j (h : j < l'.length) (h' : j < l.length), l'[j] = if j < f then l[j] else 0) → ofLE l' = ofLE l % 2 ^ (8 * f) := by
  induction l generalizing f with
  | nil =>
    intro l' hl _
    rw [List.length_nil, List.length_eq_zero_iff] at hl
    subst hl
    simp [ofLE]
  | cons x xs ih =>
    intro l' hl h
    cases l' with
    | nil => simp at hl
    | cons y ys =>
      have h0 := h 0 (by simp) (by simp)
      simp only [List.getElem_cons_zero] at h0
      cases f with
      | zero =>
        rw [if_neg (by omega)] at h0
        have := ih 0 ys (by simpa using hl) fun j hj hj' => by
          have := h (j + 1) (by simpa using hj) (by simpa using hj')
          simpa using this
        simp only [Nat.mul_zero, Nat.pow_zero, Nat.mod_one] at this ⊢
        simp [ofLE, h0, this]
      | succ f =>
        rw [if_pos (by omega)] at h0
        have := ih f ys (by simpa using hl) fun j hj hj' => by
          have := h (j + 1) (by simpa using hj) (by simpa using hj')
          simpa using this
        simp only [ofLE, h0, this]
        have e : 2 ^ (8 * (f + 1)) = 256 * 2 ^ (8 * f) := by
          rw [show 8 * (f + 1) = 8 + 8 * f by omega, Nat.pow_add]
        rw [e, Nat.mod_mul]
        have hx := x.toNat_lt
        have e1 : (x.toNat + 256 * ofLE xs) / 256 = ofLE xs := by omega
        have e2 : (x.toNat + 256 * ofLE xs) % 256 = x.toNat := by omega
        rw [e1, e2]

theorem readLE_cut (f : Nat) {b m : Bytes} {a a' k : Nat} (h : ∀ j, j < k → b (a + j) = if j < f then m (a' + j) else 0) :
    readLE b a k = readLE m a' k % 2 ^ (8 * f) := by
  refine ofLE_cut f _ _ (by simp) fun j hj hj' => ?_
  simp only [readBytes_getElem]
  exact h j (by simpa using hj)

theorem ofLE_replicate_zero (k : Nat) : ofLE (List.replicate k 0) = 0 := by
  induction k with
  | zero => rfl
  | succ k ih => simp [List.replicate_succ, ofLE, ih]

theorem readBytes_zero (b : Bytes) (a k : Nat) (h : ∀ j, j < k → b (a + j) = 0) :
    readBytes b a k = List.replicate k 0 := by
  apply List.ext_getElem
  · simp
  · intro j h1 h2
    rw [readBytes_getElem]; simp at h1; simp [h j h1]

theorem ofLE_map_le (l : List Nat) (f g : Nat → Byte) (h : ∀ j ∈ l, (f j).toNat ≤ (g j).toNat) :
    ofLE (l.map f) ≤ ofLE (l.map g) := by
  induction l with
  | nil => exact le_rfl
  | cons a l ih =>
    have h1 := h a (by simp)
    have h2 := ih fun j hj => h j (by simp [hj])
    simp only [List.map_cons, ofLE]
    omega

/-- Smaller bytes, smaller number. -/
theorem readLE_le {b b' : Bytes} {a a' k : Nat} (h : ∀ j, j < k → (b (a + j)).toNat ≤ (b' (a' + j)).toNat) :
    readLE b a k ≤ readLE b' a' k :=
  ofLE_map_le _ _ _ fun j hj => h j (List.mem_range.1 hj)

theorem readLE_zero (b : Bytes) (a k : Nat) (h : ∀ j, j < k → b (a + j) = 0) :
    readLE b a k = 0 := by
  unfold readLE; rw [readBytes_zero b a k h, ofLE_replicate_zero]

/-- Copying makes the target bytes equal to the source bytes. -/
theorem copy_inside (dst : Bytes) (da : Nat) (src : Bytes) (sa n j : Nat) (h : j < n) :
    writeBytes dst da (readBytes src sa n) (da + j) = src (sa + j) := by
  rw [writeBytes_inside _ _ _ _ (by simpa using h), readBytes_getElem]

theorem writeBytes_congr {b b' : Bytes} (a : Nat) (l : List Byte) (x : Nat) (h : b x = b' x) :
    writeBytes b a l x = writeBytes b' a l x := by
  simp only [writeBytes_apply]; split <;> simp_all

/-- The high bytes of a small number are zero. -/
theorem leBytes_high (k : Nat) : ∀ (n j : Nat) (hj : j < (leBytes k n).length), n < 2 ^ (8 * j) →
    (leBytes k n)[j] = 0 := by
  induction k with
  | zero => intro n j hj; simp [leBytes] at hj
  | succ k ih =>
    intro n j hj hn
    cases j with
    | zero =>
      have : n = 0 := by simpa using hn
      subst this
      rfl
    | succ j =>
      simp only [leBytes, List.getElem_cons_succ]
      apply ih
      rw [Nat.div_lt_iff_lt_mul (by omega)]
      have : 2 ^ (8 * (j + 1)) = 2 ^ (8 * j) * 256 := by
        rw [show 8 * (j + 1) = 8 * j + 8 by ring, pow_add]; rfl
      omega

end Annoy
