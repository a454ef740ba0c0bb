import Verif.Model.Rng
import Mathlib.Logic.Function.Iterate
import Mathlib.Tactic.Set
/-!
Bits of the generator `Kiss32Random` with 32 bits: linear recurrences over the two-element field, and the rotation that the
carry component is.
-/
namespace Annoy

/-- Sum over the two-element field of the `e i`, `i < n`, for which bit `i` of `p` is set. -/
def par (p : Nat) (e : Nat → Bool) : Nat → Bool
  | 0 => false
  | n + 1 => xor (par p e n) (p.testBit n && e n)

theorem par_congr {p : Nat} {e e' : Nat → Bool} {n : Nat} (h : ∀ i < n, e i = e' i) : par p e n = par p e' n := by
  induction n with
  | zero => rfl
  | succ n ih =>
    unfold par
    rw [ih fun i hi => h i (by omega), h n (by omega)]

theorem par_xor_mask (p q : Nat) (e : Nat → Bool) (n : Nat) : par (p ^^^ q) e n = xor (par p e n) (par q e n) := by
  induction n with
  | zero => rfl
  | succ n ih =>
    unfold par
    rw [ih, Nat.testBit_xor]
    cases par p e n <;> cases par q e n <;> cases p.testBit n <;> cases q.testBit n <;> cases e n <;> rfl

theorem par_xor_seq (p : Nat) (e e' : Nat → Bool) (n : Nat) :
    par p (fun i => xor (e i) (e' i)) n = xor (par p e n) (par p e' n) := by
  induction n with
  | zero => rfl
  | succ n ih =>
    unfold par
    rw [ih]
    cases par p e n <;> cases par p e' n <;> cases p.testBit n <;> cases e n <;> cases e' n <;> rfl

theorem par_zero_mask (e : Nat → Bool) (n : Nat) : par 0 e n = false := by
  induction n with
  | zero => rfl
  | succ n ih => simp [par, ih]

theorem par_double (p : Nat) (e : Nat → Bool) (n : Nat) : par (2 * p) e (n + 1) = par p (fun i => e (i + 1)) n := by
  induction n with
  | zero => simp [par, Nat.testBit_zero]
  | succ n ih =>
    have : par (2 * p) e (n + 1 + 1) = xor (par (2 * p) e (n + 1)) ((2 * p).testBit (n + 1) && e (n + 1)) := rfl
    rw [this, ih]
    have : (2 * p).testBit (n + 1) = p.testBit n := by rw [Nat.testBit_succ]; congr 1; omega
    rw [this]
    rfl

/-- The sequence satisfies the linear recurrence of degree 32 with coefficients the bits of `p`. -/
def Recurs (p : Nat) (e : Nat → Bool) : Prop := ∀ t, par p (fun i => e (t + i)) 33 = false

/-- Multiplication by the unknown modulo the polynomial `p` of degree 32. -/
def mulX (p v : Nat) : Nat := if v.testBit 31 then (2 * v) ^^^ p else 2 * v

theorem mulX_par {p : Nat} {e : Nat → Bool} (he : Recurs p e) {v : Nat} (hv : v < 2 ^ 32) (t : Nat) :
    par (mulX p v) (fun i => e (t + i)) 33 = par v (fun i => e (t + 1 + i)) 33 := by
  have h2 : par (2 * v) (fun i => e (t + i)) 33 = par v (fun i => e (t + 1 + i)) 33 := by
    rw [par_double]
    have h3 : par v (fun i => e (t + 1 + i)) 33 = par v (fun i => e (t + 1 + i)) 32 := by
      show xor _ (v.testBit 32 && _) = _
      rw [Nat.testBit_lt_two_pow hv]
      simp
    rw [h3]
    exact par_congr fun i _ => by congr 1; omega
  unfold mulX
  split
  · rw [par_xor_mask, he t, h2]; simp
  · exact h2

theorem mulX_lt {p v : Nat} (hp : p < 2 ^ 33) (h32 : p.testBit 32 = true) (hv : v < 2 ^ 32) : mulX p v < 2 ^ 32 := by
  unfold mulX
  split
  · next h =>
    apply Nat.lt_pow_two_of_testBit
    intro i hi
    rw [Nat.testBit_xor]
    obtain ⟨j, rfl⟩ : ∃ j, i = j + 1 := ⟨i - 1, by omega⟩
    have e1 : (2 * v).testBit (j + 1) = v.testBit j := by rw [Nat.testBit_succ]; congr 1; omega
    rw [e1]
    rcases Nat.lt_or_ge 31 j with h1 | h1
    · rw [Nat.testBit_lt_two_pow (Nat.lt_of_lt_of_le hp (Nat.pow_le_pow_right (by decide) (by omega))),
        Nat.testBit_lt_two_pow (Nat.lt_of_lt_of_le hv (Nat.pow_le_pow_right (by decide) (by omega)))]
      rfl
    · have : j = 31 := by omega
      subst this
      rw [h, h32]
      rfl
  · next h =>
    have : v < 2 ^ 31 := by
      apply Nat.lt_pow_two_of_testBit
      intro i hi
      rcases Nat.eq_or_lt_of_le hi with h1 | h1
      · rw [← h1]; simpa using h
      · exact Nat.testBit_lt_two_pow (Nat.lt_of_lt_of_le hv (Nat.pow_le_pow_right (by decide) (by omega)))
    omega

theorem iter_mulX_lt {p : Nat} (hp : p < 2 ^ 33) (h32 : p.testBit 32 = true) (n : Nat) :
    ∀ {v : Nat}, v < 2 ^ 32 → (mulX p)^[n] v < 2 ^ 32 := by
  induction n with
  | zero => intro v hv; exact hv
  | succ n ih => intro v hv; exact ih (mulX_lt hp h32 hv)

theorem iter_mulX_par {p : Nat} (hp : p < 2 ^ 33) (h32 : p.testBit 32 = true) {e : Nat → Bool} (he : Recurs p e) (n : Nat) :
    ∀ {v : Nat}, v < 2 ^ 32 → ∀ t, par ((mulX p)^[n] v) (fun i => e (t + i)) 33 = par v (fun i => e (t + n + i)) 33 := by
  induction n with
  | zero => intro v _ t; rfl
  | succ n ih =>
    intro v hv t
    rw [Function.iterate_succ_apply, ih (mulX_lt hp h32 hv), mulX_par he hv]
    rfl

/-- Sum of the `f^[j] v`, `j < k`, for which bit `i + j` of `q` is set. -/
def combine (q : Nat) (f : Nat → Nat) : Nat → Nat → Nat → Nat
  | 0, _, _ => 0
  | k + 1, i, v => (if q.testBit i then v else 0) ^^^ combine q f k (i + 1) (f v)

/-- Sum of `e` over the bits `i ≤ j < i + k` of `q`. -/
def parFrom (q : Nat) (e : Nat → Bool) : Nat → Nat → Bool
  | 0, _ => false
  | k + 1, i => xor (q.testBit i && e i) (parFrom q e k (i + 1))

theorem par_parFrom (q : Nat) (e : Nat → Bool) (k : Nat) : ∀ i, par q e (i + k) = xor (par q e i) (parFrom q e k i) := by
  induction k with
  | zero => intro i; simp [parFrom]
  | succ k ih =>
    intro i
    have : i + (k + 1) = (i + 1) + k := by omega
    rw [this, ih]
    show xor (xor _ _) _ = xor _ (xor _ _)
    rw [Bool.xor_assoc]

/-- Every `n`-th member of a sequence satisfies the recurrence `q` if `q` evaluated at the `n`-th power of the unknown is zero modulo
`p`. -/
theorem Recurs.every {p : Nat} (hp : p < 2 ^ 33) (h32 : p.testBit 32 = true) {e : Nat → Bool} (he : Recurs p e) {q n : Nat}
    (hq : combine q (mulX p)^[n] 33 0 1 = 0) : Recurs q (fun m => e (n * m)) := by
  have key : ∀ k i v t, v < 2 ^ 32 → (∀ s, par v (fun j => e (s + j)) 33 = e (s + n * i)) →
      par (combine q (mulX p)^[n] k i v) (fun j => e (t + j)) 33 = parFrom q (fun j => e (t + n * j)) k i := by
    intro k
    induction k with
    | zero => intro i v t _ _; exact par_zero_mask _ _
    | succ k ih =>
      intro i v t hv h
      unfold combine parFrom
      rw [par_xor_mask, ih (i + 1) _ t (iter_mulX_lt hp h32 n hv)]
      · congr 1
        split
        · next hb => rw [h t, hb]; rfl
        · next hb => rw [par_zero_mask]; simp [hb]
      · intro s
        rw [iter_mulX_par hp h32 he n hv, h]
        congr 1
        rw [Nat.mul_add]; omega
  intro t
  have h1 := key 33 0 1 (n * t) (by decide) (by
    intro s
    have : ∀ f : Nat → Bool, par 1 f 33 = f 0 := by
      intro f
      have h1 : par 1 f 33 = par 1 f (1 + 32) := rfl
      rw [h1, par_parFrom]
      have : ∀ k i, par (2 * 0) f 1 = false ∧ (1 ≤ i → parFrom 1 f k i = false) := by
        intro k
        induction k with
        | zero => intro i; exact ⟨rfl, fun _ => rfl⟩
        | succ k ih =>
          intro i
          refine ⟨rfl, fun hi => ?_⟩
          unfold parFrom
          rw [(ih (i + 1)).2 (by omega)]
          have : (1 : Nat).testBit i = false := Nat.testBit_lt_two_pow (by
            calc 1 < 2 ^ 1 := by decide
              _ ≤ 2 ^ i := Nat.pow_le_pow_right (by decide) hi)
          rw [this]; rfl
      rw [(this 32 1).2 (Nat.le_refl _)]
      simp [par]
    rw [this]
    rfl)
  rw [hq, par_zero_mask] at h1
  have h2 := par_parFrom q (fun j => e (n * t + n * j)) 33 0
  rw [← h1] at h2
  have h3 : (fun i => (fun m => e (n * m)) (t + i)) = fun j => e (n * t + n * j) := by
    funext i
    show e (n * (t + i)) = _
    rw [Nat.mul_add]
  rw [h3]
  simpa [par] using h2

/-! ### the xorshift component -/

/-- The three xorshifts of `Kiss32Random` (random/kiss32random.go:39-41) for 32 bits. -/
def xorshift (y : Nat) : Nat :=
  let y := y ^^^ ((y <<< 13) % 2 ^ 32)
  let y := y ^^^ (y >>> 17)
  y ^^^ ((y <<< 5) % 2 ^ 32)

theorem xorshift_xor (a b : Nat) : xorshift (a ^^^ b) = xorshift a ^^^ xorshift b := by
  have h1 : ∀ k a b : Nat, (a ^^^ b) ^^^ (((a ^^^ b) <<< k) % 2 ^ 32) = (a ^^^ ((a <<< k) % 2 ^ 32)) ^^^ (b ^^^ ((b <<< k) % 2 ^ 32)) := by
    intro k a b
    apply Nat.eq_of_testBit_eq
    intro i
    simp only [Nat.testBit_xor, Nat.testBit_mod_two_pow, Nat.testBit_shiftLeft]
    cases a.testBit i <;> cases b.testBit i <;> cases decide (i < 32) <;> cases decide (i ≥ k) <;> cases a.testBit (i - k) <;>
      cases b.testBit (i - k) <;> rfl
  have h2 : ∀ k a b : Nat, (a ^^^ b) ^^^ ((a ^^^ b) >>> k) = (a ^^^ (a >>> k)) ^^^ (b ^^^ (b >>> k)) := by
    intro k a b
    apply Nat.eq_of_testBit_eq
    intro i
    simp only [Nat.testBit_xor, Nat.testBit_shiftRight]
    cases a.testBit i <;> cases b.testBit i <;> cases a.testBit (k + i) <;> cases b.testBit (k + i) <;> rfl
  unfold xorshift
  dsimp only
  rw [h1 13 a b, h2 17, h1 5]

theorem iter_xorshift_xor (n : Nat) : ∀ a b, xorshift^[n] (a ^^^ b) = xorshift^[n] a ^^^ xorshift^[n] b := by
  induction n with
  | zero => intro a b; rfl
  | succ n ih => intro a b; rw [Function.iterate_succ_apply, xorshift_xor, ih]; rfl

theorem combine_xor (q : Nat) (k : Nat) : ∀ i a b,
    combine q xorshift k i (a ^^^ b) = combine q xorshift k i a ^^^ combine q xorshift k i b := by
  induction k with
  | zero => intro i a b; simp [combine]
  | succ k ih =>
    intro i a b
    unfold combine
    rw [xorshift_xor, ih]
    split
    · apply Nat.eq_of_testBit_eq; intro j; simp only [Nat.testBit_xor]
      cases a.testBit j <;> cases b.testBit j <;> cases (combine q xorshift k (i + 1) (xorshift a)).testBit j <;>
      cases (combine q xorshift k (i + 1) (xorshift b)).testBit j <;> rfl
    · simp

theorem split_top {y n : Nat} (h : y < 2 ^ (n + 1)) : y = (y % 2 ^ n) ^^^ (if y.testBit n then 2 ^ n else 0) := by
  apply Nat.eq_of_testBit_eq
  intro i
  rw [Nat.testBit_xor, Nat.testBit_mod_two_pow]
  rcases Nat.lt_trichotomy i n with h1 | h1 | h1
  · split
    · rw [Nat.testBit_two_pow, decide_eq_false (by omega : ¬ n = i)]; simp [h1]
    · simp [h1]
  · subst h1
    split
    · next h2 => simp [h2, Nat.testBit_two_pow_self]
    · next h2 => simp at h2; simp [h2]
  · have : y.testBit i = false := Nat.testBit_lt_two_pow (Nat.lt_of_lt_of_le h (Nat.pow_le_pow_right (by decide) (by omega)))
    rw [this]
    split
    · rw [Nat.testBit_two_pow]; simp; omega
    · simp

/-- The polynomial of the xorshift component: it sends every 32-bit number to zero. -/
theorem combine_zero {q : Nat} (h0 : ∀ j < 32, combine q xorshift 33 0 (2 ^ j) = 0) :
    ∀ n, n ≤ 32 → ∀ y, y < 2 ^ n → combine q xorshift 33 0 y = 0 := by
  have hz : combine q xorshift 33 0 0 = 0 := by
    have := combine_xor q 33 0 0 0
    simpa using this
  intro n
  induction n with
  | zero =>
    intro _ y hy
    have : y = 0 := by simpa using hy
    rw [this, hz]
  | succ n ih =>
    intro hn y hy
    rw [split_top hy, combine_xor, ih (by omega) _ (Nat.mod_lt _ (Nat.two_pow_pos n))]
    split
    · rw [h0 n (by omega)]; rfl
    · rw [hz]; rfl

theorem combine_testBit (q : Nat) (k : Nat) : ∀ i y,
    (combine q xorshift k i y).testBit 0 = parFrom q (fun j => (xorshift^[j - i] y).testBit 0) k i := by
  induction k with
  | zero => intro i y; exact Nat.zero_testBit _
  | succ k ih =>
    intro i y
    unfold combine parFrom
    rw [Nat.testBit_xor, ih]
    congr 1
    · split
      · next h => simp [h]
      · next h => simp [h]
    · have : ∀ k i', i < i' → parFrom q (fun j => (xorshift^[j - (i + 1)] (xorshift y)).testBit 0) k i'
          = parFrom q (fun j => (xorshift^[j - i] y).testBit 0) k i' := by
        intro k
        induction k with
        | zero => intro i' _; rfl
        | succ k ih2 =>
          intro i' hi
          unfold parFrom
          rw [ih2 (i' + 1) (by omega)]
          have : i' - i = (i' - (i + 1)) + 1 := by omega
          rw [this, Function.iterate_succ_apply]
      exact this _ _ (Nat.lt_succ_self i)

theorem xorshift_lt {y : Nat} (h : y < 2 ^ 32) : xorshift y < 2 ^ 32 := by
  unfold xorshift
  dsimp only
  have hm : ∀ v, v % 2 ^ 32 < 2 ^ 32 := fun v => Nat.mod_lt _ (Nat.two_pow_pos _)
  have h1 : y ^^^ ((y <<< 13) % 2 ^ 32) < 2 ^ 32 := Nat.xor_lt_two_pow h (hm _)
  set v := y ^^^ ((y <<< 13) % 2 ^ 32)
  have h2 : v ^^^ (v >>> 17) < 2 ^ 32 := Nat.xor_lt_two_pow h1 (Nat.lt_of_le_of_lt (Nat.shiftRight_le _ _) h1)
  exact Nat.xor_lt_two_pow h2 (hm _)

theorem iter_xorshift_lt (n : Nat) : ∀ {y : Nat}, y < 2 ^ 32 → xorshift^[n] y < 2 ^ 32 := by
  induction n with
  | zero => intro y h; exact h
  | succ n ih => intro y h; exact ih (xorshift_lt h)

end Annoy
