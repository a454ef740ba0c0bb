import Verif.Proof.KissBits
import Verif.Proof.Term
import Verif.Proof.Imbalance
import Mathlib.Tactic.IntervalCases
/-!
The sides that `Kiss32Random[uint32]` draws: no 38 in a row are equal, and no round length makes all rounds one-sided.  So
random sides are eventually balanced.
-/
namespace Annoy

/-- The coefficients of the recurrence of the low bits of the xorshift component. -/
def kissPoly : Nat := 0x1003ec241

/-- The low bits of the xorshift component satisfy a linear recurrence. -/
theorem xorshift_recurs {y : Nat} (hy : y < 2 ^ 32) : Recurs kissPoly (fun t => (xorshift^[t] y).testBit 0) := by
  intro t
  have h0 : ∀ j < 32, combine kissPoly xorshift 33 0 (2 ^ j) = 0 := by decide +kernel
  have h1 := combine_testBit kissPoly 33 0 (xorshift^[t] y)
  rw [combine_zero h0 32 (Nat.le_refl _) _ (iter_xorshift_lt t hy), Nat.zero_testBit] at h1
  have h2 := par_parFrom kissPoly (fun j => (xorshift^[j - 0] (xorshift^[t] y)).testBit 0) 33 0
  rw [← h1] at h2
  have : (fun i => (fun t => (xorshift^[t] y).testBit 0) (t + i))
      = fun j => (xorshift^[j - 0] (xorshift^[t] y)).testBit 0 := by
    funext i
    show (xorshift^[t + i] y).testBit 0 = _
    rw [Nat.sub_zero, Nat.add_comm, Function.iterate_add_apply]
  rw [this]
  simpa [par] using h2

theorem Recurs.shift {p : Nat} {e : Nat → Bool} (h : Recurs p e) (s : Nat) : Recurs p (fun t => e (s + t)) := by
  intro t
  have := h (s + t)
  rw [← this]
  exact par_congr fun i _ => by show e _ = e _; congr 1; omega

theorem Recurs.xor {p : Nat} {e e' : Nat → Bool} (h : Recurs p e) (h' : Recurs p e') : Recurs p (fun t => Bool.xor (e t) (e' t)) := by
  intro t
  have := par_xor_seq p (fun i => e (t + i)) (fun i => e' (t + i)) 33
  rw [h t, h' t] at this
  exact this

/-- The last 33 bits of the word `w` violate the recurrence `q`. -/
def dead (q w : Nat) : Bool := par q (fun i => w.testBit (32 - i)) 33

/-- No phase in `[lo, hi)` of the rotation by `α` on `2^32 - 1` points gives a word (one where the phase is at least `2^32 - 1 - 698769069`) that
continues the `k` bits of `w` and satisfies the recurrence `q`; phases are followed for `f` steps. -/
def excl (q α : Nat) : Nat → Nat → Nat → Nat → Nat → Bool
  | 0, _, _, _, _ => false
  | f + 1, k, lo, hi, w =>
    (Nat.ble 33 k && dead q w) ||
    ((Nat.ble (min hi 3596198226) lo ||
      ((Nat.ble 4294967295 (lo + α) || excl q α f (k + 1) (lo + α) (min (min hi 3596198226 + α) 4294967295) (2 * w)) &&
       (Nat.ble (min hi 3596198226 + α) 4294967295 ||
         excl q α f (k + 1) (max (lo + α) 4294967295 - 4294967295) (min hi 3596198226 + α - 4294967295) (2 * w)))) &&
     (Nat.ble hi (max lo 3596198226) ||
      ((Nat.ble 4294967295 (max lo 3596198226 + α) || excl q α f (k + 1) (max lo 3596198226 + α) (min (hi + α) 4294967295) (2 * w + 1)) &&
       (Nat.ble (hi + α) 4294967295 ||
         excl q α f (k + 1) (max (max lo 3596198226 + α) 4294967295 - 4294967295) (hi + α - 4294967295) (2 * w + 1)))))

theorem excl_sound {q α : Nat} (hα : α < 4294967295) {e : Nat → Bool} (he : Recurs q e) (f : Nat) :
    ∀ k lo hi w τ, excl q α f k lo hi w = true → lo ≤ τ → τ < hi → hi ≤ 4294967295 →
      (∀ i, i < k → w.testBit i = e (k - 1 - i)) →
      (∀ j, j + 1 < f → e (k + j) = decide (3596198226 ≤ (τ + α * j) % 4294967295)) → False := by
  induction f with
  | zero => intro k lo hi w τ h; cases h
  | succ f ih =>
    intro k lo hi w τ h h1 h2 h3 hw hc
    have hnot : (Nat.ble 33 k && dead q w) = false := by
      rw [Bool.and_eq_false_iff]
      rcases Nat.lt_or_ge k 33 with hk | hk
      · left
        rw [← Bool.not_eq_true, Nat.ble_eq]
        omega
      · right
        rw [← he (k - 33)]
        unfold dead
        apply par_congr
        intro i hi
        rw [hw (32 - i) (by omega)]
        congr 1
        omega
    cases f with
    | zero =>
      -- no step left: only a dead word is accepted
      unfold excl at h
      rw [hnot] at h
      simp only [excl, Bool.false_or, Bool.or_false, Bool.and_eq_true, Bool.or_eq_true, Nat.ble_eq] at h
      omega
    | succ f =>
    have hk : e k = decide (3596198226 ≤ τ) := by
      have := hc 0 (by omega)
      rw [Nat.mul_zero, Nat.add_zero, Nat.add_zero, Nat.mod_eq_of_lt (by omega)] at this
      exact this
    have step : ∀ lo' hi', excl q α (f + 1) (k + 1) lo' hi' (2 * w + (decide (3596198226 ≤ τ)).toNat) = true →
        lo' ≤ (τ + α) % 4294967295 → (τ + α) % 4294967295 < hi' → hi' ≤ 4294967295 → False := by
      intro lo' hi' g1 g2 g3 g4
      refine ih (k + 1) lo' hi' _ _ g1 g2 g3 g4 ?_ ?_
      · intro i hi
        rw [← hk]
        cases i with
        | zero =>
          rw [Nat.add_sub_cancel, Nat.sub_zero, Nat.testBit_zero]
          cases e k <;> simp
        | succ i =>
          have : (2 * w + (e k).toNat).testBit (i + 1) = w.testBit i := by
            rw [Nat.testBit_succ]
            congr 1
            cases e k <;> simp
            omega
          rw [this, hw i (by omega)]
          congr 1
          omega
      · intro j hj
        have := hc (j + 1) (by omega)
        have e1 : k + 1 + j = k + (j + 1) := by omega
        rw [e1, this, Nat.mod_add_mod]
        have e2 : τ + α + α * j = τ + α * (j + 1) := by rw [Nat.mul_add]; omega
        rw [e2]
    unfold excl at h
    rw [hnot] at h
    simp only [Bool.false_or, Bool.and_eq_true, Bool.or_eq_true, Nat.ble_eq] at h
    obtain ⟨ha, hb⟩ := h
    rcases Nat.lt_or_ge τ 3596198226 with ht | ht
    · rw [decide_eq_false (by omega : ¬ 3596198226 ≤ τ)] at step
      rcases ha with ha | ⟨ha, hb⟩
      · omega
      rcases Nat.lt_or_ge (τ + α) 4294967295 with hM | hM
      · rw [Nat.mod_eq_of_lt hM] at step
        rcases ha with ha | ha
        · omega
        · exact step _ _ ha (by omega) (by omega) (by omega)
      · rw [Nat.mod_eq_sub_mod hM, Nat.mod_eq_of_lt (by omega)] at step
        rcases hb with hb | hb
        · omega
        · exact step _ _ hb (by omega) (by omega) (by omega)
    · rw [decide_eq_true ht] at step
      rcases hb with hb | ⟨ha, hb⟩
      · omega
      rcases Nat.lt_or_ge (τ + α) 4294967295 with hM | hM
      · rw [Nat.mod_eq_of_lt hM] at step
        rcases ha with ha | ha
        · omega
        · exact step _ _ ha (by omega) (by omega) (by omega)
      · rw [Nat.mod_eq_sub_mod hM, Nat.mod_eq_of_lt (by omega)] at step
        rcases hb with hb | hb
        · omega
        · exact step _ _ hb (by omega) (by omega) (by omega)

/-- For the step `n` the polynomial `q` is right and excludes all phases within `f` steps. -/
def certified (f n q : Nat) : Bool :=
  Nat.beq (combine q (mulX kissPoly)^[n] 33 0 1) 0 && excl q (698769069 * n % 4294967295) f 0 0 4294967295 0

theorem certified_sound {f n q : Nat} (h : certified f n q = true) {e : Nat → Bool} (he : Recurs kissPoly e) (τ : Nat) :
    ∃ m, m + 1 < f ∧ e (n * m) ≠ decide (3596198226 ≤ (τ + 698769069 * (n * m)) % 4294967295) := by
  unfold certified at h
  rw [Bool.and_eq_true] at h
  have hq := he.every (by decide) (by decide) (Nat.eq_of_beq_eq_true h.1)
  by_contra hcon
  refine excl_sound (Nat.mod_lt _ (by decide)) hq f 0 0 4294967295 0 (τ % 4294967295) h.2 (Nat.zero_le _) (Nat.mod_lt _ (by decide))
    (Nat.le_refl _) (fun i hi => absurd hi (Nat.not_lt_zero i)) ?_
  intro j hj
  by_contra h1
  refine hcon ⟨j, hj, ?_⟩
  rw [Nat.zero_add] at h1
  intro h2
  apply h1
  rw [h2]
  congr 2
  rw [Nat.mod_add_mod, ← Nat.mul_assoc, Nat.add_mod, Nat.add_mod τ (_ % _ * j)]
  congr 2
  rw [Nat.mod_mul_mod]

/-- Certificates for the steps 19 to 37. -/
def kissPolys : List (Nat × Nat) :=
  [(19, 0x10f788397), (20, 0x121e02d61), (21, 0x162815cd3), (22, 0x1d42e5bd9), (23, 0x1270c5d6d), (24, 0x11cbac97d),
   (25, 0x15d9e1e47), (26, 0x1ff07ebad), (27, 0x150091ec3), (28, 0x154cc36ad), (29, 0x1f212ca13), (30, 0x1c9723b15),
   (31, 0x17a99c09d), (32, 0x1003ec241), (33, 0x101454793), (34, 0x19828b327), (35, 0x1392ebfd5), (36, 0x156fc0c63),
   (37, 0x1b7093c2b)]

set_option maxRecDepth 100000 in
theorem certified_one : certified 38 1 kissPoly = true := by decide +kernel

set_option maxRecDepth 100000 in
theorem certified_table : ∀ p ∈ kissPolys, certified 45 p.1 p.2 = true := by decide +kernel

/-- Every number from 2 to 37 has a multiple in the table. -/
theorem table_multiple {n : Nat} (h1 : 2 ≤ n) (h2 : n ≤ 37) : ∃ j ≤ 18, ∃ p ∈ kissPolys, p.1 = n * j := by
  have : ∀ n ≤ 37, 2 ≤ n → ∃ j ≤ 18, ∃ p ∈ kissPolys, p.1 = n * j := by decide +kernel
  exact this n h2 h1

end Annoy
